import Verif.Props.Template
import Verif.Proofs.Lower
import Verif.Spec.List
import Verif.Model.Titles
import Verif.Props.Readers
/-!
Headings written by titles (C35, C36).  `lookupHeader` is
`TitleLookup.lookup_header`; `sp.lookup` the title lookup of a parsed schema.
-/
namespace Verif
open Spec

theorem lowerChar_upperOf (d : Char) : Py.lowerChar (upperOf d) = Py.lowerChar d := by
  unfold upperOf
  split
  · next h =>
    have h1 : (Char.ofNat (d.toNat - 32)).toNat = d.toNat - 32 := ofNat_toNat (by omega)
    rw [lowerChar_upper (by rw [h1]; simp; omega), h1]
    have h2 : d.toNat - 32 + 32 = d.toNat := by omega
    rw [h2]
    have h3 : Char.ofNat d.toNat = d := by simp
    rw [h3]
    unfold Py.lowerChar
    have h4 : (decide (d.toNat ≥ 65) && decide (d.toNat ≤ 90)) = false := by simp; omega
    have h5 : (d.toNat == 0x130) = false := by simp; omega
    have h6 : (d.toNat == 0x212a) = false := by simp; omega
    rw [h4, h5, h6]; rfl
  · rfl

theorem upperOf_space (d : Char) : upperOf d = ' ' ↔ d = ' ' := by
  unfold upperOf
  split
  · next h =>
    constructor
    · intro hc
      have h1 : (Char.ofNat (d.toNat - 32)).toNat = d.toNat - 32 := ofNat_toNat (by omega)
      rw [hc] at h1
      have : (' ' : Char).toNat = 32 := rfl
      omega
    · intro hc
      rw [hc] at h
      have : (' ' : Char).toNat = 32 := rfl
      omega
  · rfl

/-- Texts that differ only in spaces and case of ASCII letters count as the same. -/
theorem sameTitle_of_alike {a b : Str} (h : Alike a b) : SameTitle a b := by
  unfold SameTitle
  induction h with
  | nil => rfl
  | left _ ih => simpa using ih
  | right _ ih => simpa using ih
  | @char c d a b hc _ ih =>
    have h1 : c = ' ' ↔ d = ' ' := by
      rcases hc with rfl | rfl | rfl
      · rfl
      · exact upperOf_space d
      · exact (upperOf_space c).symm
    have h2 : Py.lowerChar c = Py.lowerChar d := by
      rcases hc with rfl | rfl | rfl
      · rfl
      · exact lowerChar_upperOf d
      · exact (lowerChar_upperOf c).symm
    by_cases hs : c = ' '
    · have hd := h1.1 hs
      rw [List.filter_cons_of_neg (by simp [hs]), List.filter_cons_of_neg (by simp [hd])]
      exact ih
    · have hd : d ≠ ' ' := fun hd => hs (h1.2 hd)
      rw [List.filter_cons_of_pos (by simpa using hs), List.filter_cons_of_pos (by simpa using hd)]
      unfold Py.lower at ih ⊢
      rw [List.flatMap_cons, List.flatMap_cons, h2, ih]

/-- The parts of a heading are numbers or known titles, at each level of the lookup. -/
inductive KnownTitles : TitleTree → List Str → Prop
  | nil {t : TitleTree} : KnownTitles t []
  | index {t : TitleTree} {h : Str} {r : List Str} : isint h = true → KnownTitles t r → KnownTitles t (h :: r)
  | title {t c : TitleTree} {h : Str} {r : List Str} : isint h = false → Dict.get t.children (normTitle h) = some c → KnownTitles c r →
      KnownTitles t (h :: r)

theorem lookup_same {t : TitleTree} {a b : List Str} (hk : KnownTitles t a)
    (h : Spec.All₂ (fun x y => x = y ∨ (isint x = false ∧ isint y = false ∧ SameTitle x y)) a b) :
    lookupHeaderList t a = lookupHeaderList t b := by
  have hlen : ∀ {a b : List Str}, Spec.All₂ (fun x y => x = y ∨ (isint x = false ∧ isint y = false ∧ SameTitle x y)) a b → a.isEmpty = b.isEmpty := by
    intro a b h; cases h <;> rfl
  induction hk generalizing b with
  | nil => cases h; rfl
  | index hi _ ih =>
    cases h with
    | cons hxy hr =>
      rcases hxy with rfl | ⟨h1, _, _⟩
      · rw [lookupHeaderList, lookupHeaderList, if_pos hi, if_pos hi, hlen hr, ih hr]
      · rw [hi] at h1; cases h1
  | @title t c x r hi hg _ ih =>
    cases h with
    | @cons _ y _ m hxy hr =>
      have hs : normTitle x = normTitle y ∧ isint y = false := by
        rcases hxy with rfl | ⟨_, h2, h3⟩
        · exact ⟨rfl, hi⟩
        · exact ⟨h3, h2⟩
      rw [lookupHeaderList, lookupHeaderList, if_neg (by simp [hi]), if_neg (by simp [hs.2]), ← hs.1, hg]
      dsimp only
      rw [hlen hr, ih hr]

/-- C35: a heading whose parts are known titles is looked up the same however its parts
are written: any spaces, and any case of ASCII letters (indices unchanged). -/
theorem C35_case_and_spaces (t : TitleTree) (h h' : Str) (hk : KnownTitles t (Py.split ':' h))
    (hp : Spec.All₂ (fun x y => x = y ∨ (isint x = false ∧ isint y = false ∧ Alike x y)) (Py.split ':' h) (Py.split ':' h')) :
    lookupHeader t h = lookupHeader t h' := by
  refine lookup_same hk ?_
  generalize Py.split ':' h = a at hp
  generalize Py.split ':' h' = b at hp
  clear hk
  induction hp with
  | nil => exact .nil
  | cons hxy _ ih =>
    refine .cons ?_ ih
    rcases hxy with h | ⟨h1, h2, h3⟩
    · exact .inl h
    · exact .inr ⟨h1, h2, sameTitle_of_alike h3⟩

/-- A case that meets the hypotheses of C35. -/
example : lookupHeader (.node [] [(s%"thebuyer", .node s%"buyer" [(s%"since", .node s%"s" [])])]) s%"The Buyer:3:Since" =
    lookupHeader (.node [] [(s%"thebuyer", .node s%"buyer" [(s%"since", .node s%"s" [])])]) s%"tHE buyer :3: SINCE" :=
  C35_case_and_spaces _ _ _
    (by
      have : Py.split ':' s%"The Buyer:3:Since" = [s%"The Buyer", s%"3", s%"Since"] := by decide +kernel
      rw [this]
      exact .title (c := .node s%"buyer" [(s%"since", .node s%"s" [])]) (by decide +kernel) (by with_unfolding_all rfl)
        (.index (by decide +kernel) (.title (c := .node s%"s" []) (by decide +kernel) (by with_unfolding_all rfl) .nil)))
    (by
      have h1 : Py.split ':' s%"The Buyer:3:Since" = [s%"The Buyer", s%"3", s%"Since"] := by decide +kernel
      have h2 : Py.split ':' s%"tHE buyer :3: SINCE" = [s%"tHE buyer ", s%"3", s%" SINCE"] := by decide +kernel
      rw [h1, h2]
      refine .cons (.inr ⟨by decide +kernel, by decide +kernel, ?_⟩) (.cons (.inl rfl) (.cons (.inr ⟨by decide +kernel, by decide +kernel, ?_⟩) .nil))
      · repeat' first | exact .nil | refine .char (by decide +kernel) ?_ | refine .right ?_
      · refine .right ?_
        repeat' first | exact .nil | refine .char (by decide +kernel) ?_)

/-! ### The lookup after parsing -/

/-- The subtree at a place. -/
def subTree : List Str → TitleTree → Option TitleTree
  | [], t => some t
  | k :: ks, t => (Dict.get t.children k).bind (subTree ks)

/-- The tree with another subtree at a place (unchanged if the place does not exist). -/
def putTree (new : TitleTree) : List Str → TitleTree → TitleTree
  | [], _ => new
  | k :: ks, t => match Dict.get t.children k with
    | some c => .node t.prop (Dict.set t.children k (putTree new ks c))
    | none => t

theorem dict_set_set {α : Type} (d : List (Str × α)) (k : Str) (a b : α) : Dict.set (Dict.set d k a) k b = Dict.set d k b := by
  induction d with
  | nil => simp [Dict.set]
  | cons x r ih =>
    obtain ⟨k', v⟩ := x
    simp only [Dict.set]
    split
    · next h => simp [Dict.set, h]
    · next h => simp [Dict.set, h, ih]

theorem titleSetIn_eq (key prop k : Str) (ks : List Str) (cs : List (Str × TitleTree)) :
    titleSetIn key prop k ks cs = match Dict.get cs k with
      | some c => Dict.set cs k (titleSet key prop ks c)
      | none => cs := by
  induction cs with
  | nil => simp [titleSetIn]
  | cons x r ih =>
    obtain ⟨k', t⟩ := x
    rw [titleSetIn, Dict.get_cons]
    by_cases h : k' = k
    · subst h; simp [Dict.set]
    · simp only [h, if_false, ih]
      cases Dict.get r k with
      | none => rfl
      | some c => simp [Dict.set, h]

theorem titleSet_eq (key prop : Str) (P : List Str) (t : TitleTree) (pr : Str) (cs : List (Str × TitleTree))
    (h : subTree P t = some (.node pr cs)) :
    titleSet key prop P t = putTree (.node pr (Dict.set cs key (.node prop []))) P t := by
  induction P generalizing t with
  | nil =>
    simp only [subTree, Option.some.injEq] at h
    subst h
    rw [titleSet, putTree]
  | cons k ks ih =>
    obtain ⟨p, c0⟩ := t
    simp only [subTree, TitleTree.children] at h
    rw [titleSet, titleSetIn_eq, putTree]
    simp only [TitleTree.children, TitleTree.prop]
    cases hg : Dict.get c0 k with
    | none => rw [hg] at h
    | some c =>
      rw [hg] at h
      simp only [Option.bind_some] at h
      dsimp only
      rw [ih c h]

theorem sub_put (new : TitleTree) (P : List Str) (t : TitleTree) (h : (subTree P t).isSome) : subTree P (putTree new P t) = some new := by
  induction P generalizing t with
  | nil => rfl
  | cons k ks ih =>
    simp only [subTree] at h
    rw [putTree]
    cases hg : Dict.get t.children k with
    | none => rw [hg] at h; simp at h
    | some c =>
      rw [hg] at h
      simp only [Option.bind_some] at h
      dsimp only
      rw [subTree]
      simp only [TitleTree.children, Dict.get_set_same, Option.bind_some]
      exact ih c h

theorem put_put (a b : TitleTree) (P : List Str) (t : TitleTree) : putTree b P (putTree a P t) = putTree b P t := by
  induction P generalizing t with
  | nil => rfl
  | cons k ks ih =>
    rw [putTree.eq_2 a]
    cases hg : Dict.get t.children k with
    | none => dsimp only
    | some c =>
      rw [putTree]
      simp only [TitleTree.children, TitleTree.prop, Dict.get_set_same]
      rw [ih, dict_set_set]
      obtain ⟨p0, c0⟩ := t
      simp only [TitleTree.children] at hg
      simp only [putTree, TitleTree.children, TitleTree.prop, hg]

theorem sub_snoc (P : List Str) (k : Str) (t : TitleTree) :
    subTree (P ++ [k]) t = (subTree P t).bind (fun u => Dict.get u.children k) := by
  induction P generalizing t with
  | nil => simp only [List.nil_append, subTree, Option.bind_some]; cases Dict.get t.children k <;> rfl
  | cons x r ih =>
    simp only [List.cons_append, subTree]
    cases Dict.get t.children x with
    | none => rfl
    | some c => simp only [Option.bind_some]; exact ih c

theorem put_snoc (new : TitleTree) (P : List Str) (k : Str) (t : TitleTree) (pr : Str) (cs : List (Str × TitleTree))
    (h : subTree P t = some (.node pr cs)) (hk : (Dict.get cs k).isSome) :
    putTree new (P ++ [k]) t = putTree (.node pr (Dict.set cs k new)) P t := by
  induction P generalizing t with
  | nil =>
    simp only [subTree, Option.some.injEq] at h
    subst h
    simp only [List.nil_append, putTree, TitleTree.children, TitleTree.prop]
    cases hg : Dict.get cs k with
    | none => rw [hg] at hk; cases hk
    | some c => rfl
  | cons x r ih =>
    simp only [subTree] at h
    rw [List.cons_append, putTree, putTree]
    cases hg : Dict.get t.children x with
    | none => rfl
    | some c =>
      rw [hg] at h
      simp only [Option.bind_some] at h
      dsimp only
      rw [ih c h]

/-- The tree knows the titles of the schema: the heading of every field below leads to
its path; and no others: what is no title is kept. -/
def Mirror (cfg : SchemaCfg) (t : TitleTree) (s : Schema) : Prop :=
  (∀ steps q n p, Trail cfg s steps q → Field cfg q n p → ∀ hs fs,
    Heading (steps.map (fun x => (x.name, x.prop)) ++ [(n, p)]) hs fs → lookupHeaderList t hs = Py.join s%"/" fs) ∧
  ∀ steps q, Trail cfg s steps q → ∀ hs fs h rest, Leading (steps.map (fun x => (x.name, x.prop))) hs fs → isint h = false →
    (∀ n p a, Field cfg q n p → titleOf p = some a → ¬ SameTitle a h) →
    lookupHeaderList t (hs ++ h :: rest) = Py.join s%"/" (fs ++ (h :: rest).map (Py.strip (· = ' ')))

/-- The children of a node are titles of the properties. -/
def OnlyTitles (cfg : SchemaCfg) (cs : List (Str × TitleTree)) (ps : List (Str × Schema)) : Prop :=
  ∀ k, (∀ n p a, (n, p) ∈ ps → (cfg.noDeprecated = true → ¬ Deprecated p) → titleOf p = some a → k ≠ normTitle a) → Dict.get cs k = none

/-- The children of a node fit the properties. -/
def MirrorProps (cfg : SchemaCfg) (cs : List (Str × TitleTree)) (ps : List (Str × Schema)) : Prop :=
  ∀ n p, (n, p) ∈ ps → (cfg.noDeprecated = true → ¬ Deprecated p) → ∀ a, titleOf p = some a →
    ∃ c, Dict.get cs (normTitle a) = some c ∧ c.prop = n ∧ (kind cfg.wkt p = .object → Mirror cfg c p) ∧
      (kind cfg.wkt p = .objects → ∀ i, p.items = some i → Mirror cfg c i)

theorem Spec.Heading.ne_nil {r : List (Str × Schema)} {hs fs : List Str} (h : Heading r hs fs) : hs ≠ [] ∧ fs ≠ [] ∧ r ≠ [] := by
  induction h with
  | last => simp
  | step => simp
  | index _ _ ih => exact ⟨by simp, by simp, ih.2.2⟩

theorem join_cons {sep : Char} (x : Str) {r : List Str} (h : r ≠ []) : Py.join [sep] (x :: r) = x ++ sep :: Py.join [sep] r := by
  cases r with
  | nil => exact absurd rfl h
  | cons y t => rw [Py.join] <;> simp

theorem mirror_unknown {cfg : SchemaCfg} {t : TitleTree} {s : Schema} (h : MirrorProps cfg t.children (s.properties.getD []))
    (ho : OnlyTitles cfg t.children (s.properties.getD [])) : ∀ steps q, Trail cfg s steps q → ∀ hs fs h rest, Leading (steps.map (fun x => (x.name, x.prop))) hs fs →
    isint h = false → (∀ n p a, Field cfg q n p → titleOf p = some a → ¬ SameTitle a h) →
    lookupHeaderList t (hs ++ h :: rest) = Py.join s%"/" (fs ++ (h :: rest).map (Py.strip (· = ' '))) := by
  intro steps q ht hs fs w rest hl hi hno
  have lead : ∀ (r : List (Str × Schema)) (hs fs : List Str), Leading r hs fs → ∀ n p tail, r = (n, p) :: tail → Field cfg s n p →
      (∀ c, c.prop = n → (kind cfg.wkt p = .object → Mirror cfg c p) → (kind cfg.wkt p = .objects → ∀ i, p.items = some i → Mirror cfg c i) →
        ∀ hs fs, Leading tail hs fs → lookupHeaderList c (hs ++ w :: rest) = Py.join s%"/" (fs ++ (w :: rest).map (Py.strip (· = ' ')))) →
      lookupHeaderList t (hs ++ w :: rest) = Py.join s%"/" (fs ++ (w :: rest).map (Py.strip (· = ' '))) := by
    intro r hs fs hh
    induction hh with
    | nil => intro n p tail hr; cases hr
    | @step n' p' a h' r' hs' fs' h1 h2 h3 h4 _ =>
      intro n p tail hr hf hrec
      cases hr
      obtain ⟨c, hc, hn, hob, hli⟩ := h _ _ hf.1 hf.2 a h1
      have h2' : normTitle a = normTitle h' := h2
      rw [List.cons_append, lookupHeaderList, if_neg (by simp [h3]), ← h2', hc]
      have : (hs' ++ w :: rest).isEmpty = false := by simp
      simp only [this, Bool.false_eq_true, if_false]
      rw [hn, hrec c hn hob hli hs' fs' h4, List.cons_append, join_cons _ (by simp)]
    | @index i r' hs' fs' h1 h2 ih =>
      intro n p tail hr hf hrec
      rw [List.cons_append, lookupHeaderList, if_pos h1]
      have : (hs' ++ w :: rest).isEmpty = false := by simp
      simp only [this, Bool.false_eq_true, if_false]
      rw [ih n p tail hr hf hrec, List.cons_append, join_cons i (by simp)]
  cases ht with
  | here =>
    have here : ∀ (r : List (Str × Schema)) (hs fs : List Str), Leading r hs fs → r = [] →
        lookupHeaderList t (hs ++ w :: rest) = Py.join s%"/" (fs ++ (w :: rest).map (Py.strip (· = ' '))) := by
      intro r hs fs hh
      induction hh with
      | nil =>
        intro _
        rw [List.nil_append, List.nil_append, lookupHeaderList, if_neg (by simp [hi]), ho (normTitle w) (fun n p a hm hd ha he => hno n p a ⟨hm, hd⟩ ha he.symm)]
      | step => intro hr; cases hr
      | @index i r' hs' fs' h1 h2 ih =>
        intro hr
        rw [List.cons_append, lookupHeaderList, if_pos h1]
        have : (hs' ++ w :: rest).isEmpty = false := by simp
        simp only [this, Bool.false_eq_true, if_false]
        rw [ih hr, List.cons_append, join_cons i (by simp)]
    exact here _ hs fs hl rfl
  | @object _ p1 _ n1 r h1 h2 h3 =>
    exact lead _ hs fs hl n1 p1 _ rfl h1 (fun c _ hm _ hs fs hh => (hm h2).2 _ q h3 hs fs w rest hh hi hno)
  | @list _ p1 i _ n1 r h1 h2 h3 h4 =>
    exact lead _ hs fs hl n1 p1 _ rfl h1 (fun c _ _ hm hs fs hh => (hm h2 i h3).2 _ q h4 hs fs w rest hh hi hno)

theorem mirror_of_props {cfg : SchemaCfg} {t : TitleTree} {s : Schema} (h : MirrorProps cfg t.children (s.properties.getD [])) (ho : OnlyTitles cfg t.children (s.properties.getD [])) :
    Mirror cfg t s := by
  refine ⟨?_, mirror_unknown h ho⟩
  clear ho
  intro steps q n p ht hf hs fs hh
  have lead : ∀ (r : List (Str × Schema)) (hs fs : List Str), Heading r hs fs → ∀ n p rest, r = (n, p) :: rest → Field cfg s n p →
      (∀ c, c.prop = n → (kind cfg.wkt p = .object → Mirror cfg c p) → (kind cfg.wkt p = .objects → ∀ i, p.items = some i → Mirror cfg c i) →
        ∀ hs fs, Heading rest hs fs → lookupHeaderList c hs = Py.join s%"/" fs) →
      lookupHeaderList t hs = Py.join s%"/" fs := by
    intro r hs fs hh
    induction hh with
    | @last n' p' a h' h1 h2 h3 =>
      intro n p rest hr hf _
      cases hr
      obtain ⟨c, hc, hn, _⟩ := h _ _ hf.1 hf.2 a h1
      have h2' : normTitle a = normTitle h' := h2
      rw [lookupHeaderList, if_neg (by simp [h3]), ← h2', hc]
      simp [hn, Py.join]
    | @step n' p' a h' r' hs' fs' h1 h2 h3 h4 _ =>
      intro n p rest hr hf hrec
      cases hr
      obtain ⟨c, hc, hn, ho, hl⟩ := h _ _ hf.1 hf.2 a h1
      have h2' : normTitle a = normTitle h' := h2
      rw [lookupHeaderList, if_neg (by simp [h3]), ← h2', hc]
      have hne := h4.ne_nil
      have : hs'.isEmpty = false := by simp [hne.1]
      simp only [this, Bool.false_eq_true, if_false]
      rw [hn, hrec c hn ho hl hs' fs' h4, join_cons _ hne.2.1]
    | @index i r' hs' fs' h1 h2 ih =>
      intro n p rest hr hf hrec
      rw [lookupHeaderList, if_pos h1]
      have hne := h2.ne_nil
      have : hs'.isEmpty = false := by simp [hne.1]
      simp only [this, Bool.false_eq_true, if_false]
      rw [ih n p rest hr hf hrec, join_cons i hne.2.1]
  cases ht with
  | here =>
    refine lead _ hs fs hh n p [] rfl hf (fun c _ _ _ hs fs hh => ?_)
    exact absurd rfl hh.ne_nil.2.2
  | @object _ p1 _ n1 r h1 h2 h3 =>
    exact lead _ hs fs hh n1 p1 _ rfl h1 (fun c _ hm _ hs fs hh => (hm h2).1 _ q n p h3 hf hs fs hh)
  | @list _ p1 i _ n1 r h1 h2 h3 h4 =>
    exact lead _ hs fs hh n1 p1 _ rfl h1 (fun c _ _ hm hs fs hh => (hm h2 i h3).1 _ q n p h4 hf hs fs hh)

/-! Nothing but titles touches the lookup. -/

theorem lookup_modSub (st : SState) (n : Str) (f : Sheet → Sheet) : (st.modSub n f).lookup = st.lookup := by
  unfold SState.modSub; split <;> rfl

theorem lookup_addIds (lk : TitleTree) (sub : Str) (ids : List Str) (st : SState) :
    (ids.foldl (addIdColumn lk sub) st).lookup = st.lookup := by
  induction ids generalizing st with
  | nil => rfl
  | cons f r ih => rw [List.foldl_cons, ih]; exact lookup_modSub _ _ _

theorem lookup_open (cfg : SchemaCfg) (ctx : SCtx) (name : Str) (title : Option Str) (ids : List Str) (st : SState) :
    (openSubSheet cfg ctx name title ids st).1.lookup = st.lookup := by
  unfold openSubSheet
  dsimp only
  rw [lookup_addIds]
  unfold ensureSub noteSubTitle
  split <;> split <;> rfl

theorem lookup_addColumn (cfg : SchemaCfg) (pp name : Str) (title pt : Option Str) (sub : Str) (st : SState) (f : Str) (c : Option Str) :
    (addColumn cfg pp name title pt sub st f c).lookup = st.lookup := by
  unfold addColumn
  split
  · split
    · split
      · exact lookup_modSub _ _ _
      · rfl
    · rfl
  · exact lookup_modSub _ _ _

theorem lookup_arrayFields (cfg : SchemaCfg) (pp name : Str) (title pt : Option Str) (sub : Str) (ru : Option (List Str)) (ys : List Yield)
    (st : SState) : (arrayFields cfg pp name title pt sub ru ys st).1.lookup = st.lookup := by
  induction ys generalizing st with
  | nil => rfl
  | cons y r ih =>
    rw [arrayFields]
    dsimp only
    rw [ih]
    unfold arrayField
    dsimp only
    split
    · exact lookup_addColumn _ _ _ _ _ _ _ _ _
    · exact lookup_addColumn _ _ _ _ _ _ _ _ _

theorem lookup_finish (cfg : SchemaCfg) (ctx : SCtx) (name : Str) (i : SchemaInfo) (ys : List Yield) (st : SState) :
    (finishArray cfg ctx name i ys st).2.lookup = st.lookup := by
  unfold finishArray checkRollUp
  dsimp only
  split
  · exact lookup_arrayFields _ _ _ _ _ _ _ _ _
  · exact lookup_arrayFields _ _ _ _ _ _ _ _ _

theorem good_object {cfg : SchemaCfg} {s p : Schema} {n : Str} (h : GoodTitles cfg s) (hf : Field cfg s n p)
    (hk : kind cfg.wkt p = .object) : GoodTitles cfg p :=
  ⟨fun st q ht => h.dict _ q (.object hf hk ht), fun st q n p a n' p' a' ht => h.different _ q n p a n' p' a' (.object hf hk ht),
   fun st q n p ht => h.titled _ q n p (.object hf hk ht)⟩

theorem good_list {cfg : SchemaCfg} {s p i : Schema} {n : Str} (h : GoodTitles cfg s) (hf : Field cfg s n p)
    (hk : kind cfg.wkt p = .objects) (hi : p.items = some i) : GoodTitles cfg i :=
  ⟨fun st q ht => h.dict _ q (.list hf hk hi ht), fun st q n p a n' p' a' ht => h.different _ q n p a n' p' a' (.list hf hk hi ht),
   fun st q n p ht => h.titled _ q n p (.list hf hk hi ht)⟩

/-- The claim about a schema. -/
def Learns (cfg : SchemaCfg) (s : Schema) : Prop :=
  ∀ ctx st ys st' pr, GoodTitles cfg s → isOneOfArray s.info s.items = false → parseSchema cfg ctx s st = .ok (ys, st') →
    subTree ctx.place st.lookup = some (.node pr []) →
    ∃ cs, st'.lookup = putTree (.node pr cs) ctx.place st.lookup ∧ Mirror cfg (.node pr cs) s

theorem learn_prop {cfg : SchemaCfg} {s p : Schema} (hp : Learns cfg p) (hi : ∀ i, p.items = some i → Learns cfg i)
    (hg : GoodTitles cfg s) {ctx : SCtx} {ids : List Str} {n : Str} (hf : Field cfg s n p) {st : SState} {ys : List Yield} {st' : SState}
    (h : parseProp cfg ctx ids n p (noteTitle ctx n p.info st) = .ok (ys, st')) {pr : Str} {cs : List (Str × TitleTree)}
    (hsub : subTree ctx.place st.lookup = some (.node pr cs)) :
    match titleOf p with
    | none => st'.lookup = st.lookup
    | some a => ∃ c, st'.lookup = putTree (.node pr (Dict.set cs (normTitle a) c)) ctx.place st.lookup ∧ c.prop = n ∧
        (kind cfg.wkt p = .object → Mirror cfg c p) ∧ (kind cfg.wkt p = .objects → ∀ i, p.items = some i → Mirror cfg c i) := by
  have hnote : (noteTitle ctx n p.info st).lookup = match titleOf p with
      | none => st.lookup
      | some a => putTree (.node pr (Dict.set cs (normTitle a) (.node n []))) ctx.place st.lookup := by
    unfold noteTitle
    rw [effTitle_eq]
    cases titleOf p with
    | none => rfl
    | some a => exact titleSet_eq _ _ _ _ _ _ hsub
  have leaf : kind cfg.wkt p ≠ .object → kind cfg.wkt p ≠ .objects → st'.lookup = (noteTitle ctx n p.info st).lookup →
      (match titleOf p with
      | none => st'.lookup = st.lookup
      | some a => ∃ c, st'.lookup = putTree (.node pr (Dict.set cs (normTitle a) c)) ctx.place st.lookup ∧ c.prop = n ∧
        (kind cfg.wkt p = .object → Mirror cfg c p) ∧ (kind cfg.wkt p = .objects → ∀ i, p.items = some i → Mirror cfg c i)) := by
    intro h1 h2 h3
    rw [h3, hnote]
    cases titleOf p with
    | none => rfl
    | some a => exact ⟨.node n [], rfl, rfl, fun hc => absurd hc h1, fun hc => absurd hc h2⟩
  -- the recursive call below a titled property
  have deep : ∀ (path : Str) (ids : List Str) (a : Str) (x : Schema) (st1 : SState) (ys1 : List Yield) (st2 : SState), titleOf p = some a →
      Learns cfg x → GoodTitles cfg x → isOneOfArray x.info x.items = false → st1.lookup = (noteTitle ctx n p.info st).lookup →
      parseSchema cfg (childCtx ctx path ids (titleOf p)) x st1 = .ok (ys1, st2) →
      ∃ c, st2.lookup = putTree (.node pr (Dict.set cs (normTitle a) c)) ctx.place st.lookup ∧ c.prop = n ∧ Mirror cfg c x := by
    intro path ids a x st1 ys1 st2 ha hlx hgx hno h1 h2
    rw [hnote, ha] at h1
    dsimp only at h1
    have hpl : (childCtx ctx path ids (titleOf p)).place = ctx.place ++ [normTitle a] := by rw [ha]; rfl
    have hs1 : subTree ctx.place st1.lookup = some (.node pr (Dict.set cs (normTitle a) (.node n []))) := by
      rw [h1]; exact sub_put _ _ _ (by simp [hsub])
    have hs2 : subTree (childCtx ctx path ids (titleOf p)).place st1.lookup = some (.node n []) := by
      rw [hpl, sub_snoc, hs1]
      simp [TitleTree.children]
    obtain ⟨cs2, e1, e2⟩ := hlx _ _ _ _ n hgx hno h2 hs2
    refine ⟨.node n cs2, ?_, rfl, e2⟩
    rw [e1, hpl, put_snoc _ _ _ _ _ _ hs1 (by simp), h1, put_put, dict_set_set]
  obtain ⟨info, props, items, one⟩ := p
  have het := effTitle_eq (.mk info props items one)
  have hgeo := isGeo_iff (cfg := cfg) (p := .mk info props items one)
  simp only [Schema.info, Schema.properties] at het hgeo
  simp only [parseProp, List.contains_eq_mem, decide_eq_true_eq] at h
  rw [het] at h
  split at h
  · next ho =>
    have hobj : HasType (.mk info props items one) s%"object" := ho
    split at h
    · next hgg =>
      have hk : kind cfg.wkt (.mk info props items one) = .column .geojson := by
        unfold kind
        rw [if_pos hobj, if_pos (hgeo.1 hgg)]
      simp only [Except.ok.injEq, Prod.mk.injEq] at h
      exact leaf (by simp [hk]) (by simp [hk]) (by rw [← h.2]; rfl)
    · next hgg =>
      have hk : kind cfg.wkt (.mk info props items one) = .object := by
        unfold kind
        rw [if_pos hobj, if_neg (fun hc => hgg (hgeo.2 hc))]
      obtain ⟨y1, st1, h1, h2⟩ := sThen_ok.1 h
      simp only [Except.ok.injEq, Prod.mk.injEq] at h2
      rw [← h2.2]
      have hno := isOneOf_false hobj
      obtain ⟨a, ha⟩ := hg.titled [] s n _ (.here s) hf (.inl hk)
      have h3 : parseSchema cfg (childCtx ctx (ctx.parentPath ++ n) ids (titleOf (.mk info props items one)))
          (.mk info props items one) ((noteTitle ctx n info st).setType (ctx.parentPath ++ n) .object) = .ok (y1, st1) := by
        rw [parseSchema]; exact h1
      obtain ⟨c, e1, e2, e3⟩ := deep _ _ a _ ((noteTitle ctx n info st).setType (ctx.parentPath ++ n) .object) _ _ ha hp (good_object hg hf hk) hno rfl h3
      rw [ha]
      exact ⟨c, e1, e2, fun _ => e3, fun hc => by rw [hk] at hc; cases hc⟩
  · next ho =>
    have hobj : ¬ HasType (.mk info props items one) s%"object" := ho
    split at h
    · next haa =>
      have harr : HasType (.mk info props items one) s%"array" := haa
      cases items with
      | none => simp [parseArray] at h
      | some item =>
      have hk : kind cfg.wkt (.mk info props (some item) one) = listKind item := by
        unfold kind
        rw [if_neg hobj, if_pos harr]
        rfl
      have hik := itemKind_list item
      rw [parseArray] at h
      split at h
      · cases h
      · next t hit =>
        rw [hit] at hik
        dsimp only at hik
        rw [hik] at hk
        simp only [Except.ok.injEq, Prod.mk.injEq] at h
        exact leaf (by simp [hk]) (by simp [hk]) (by rw [← h.2]; rfl)
      · next hit =>
        rw [hit] at hik
        dsimp only at hik
        rw [hik] at hk
        obtain ⟨y1, st1, h1, h2⟩ := sThen_ok.1 h
        simp only [Except.ok.injEq] at h2
        rw [het] at h1
        have hno := isOneOf_false (listKind_objects hik)
        obtain ⟨a, ha⟩ := hg.titled [] s n _ (.here s) hf (.inr hk)
        obtain ⟨c, e1, e2, e3⟩ := deep _ _ a item _ _ _ ha (hi item rfl) (good_list hg hf hk rfl) hno
          (by rw [lookup_open]; rfl) h1
        have e4 : st'.lookup = st1.lookup := by
          have : st' = (finishArray cfg ctx n info y1 st1).2 := by rw [h2]
          rw [this]; exact lookup_finish _ _ _ _ _ _
        rw [ha]
        refine ⟨c, by rw [e4]; exact e1, e2, (fun hc => by rw [hk] at hc; cases hc), fun _ i hi' => ?_⟩
        cases hi'
        exact e3
    · next haa =>
      have harr : ¬ HasType (.mk info props items one) s%"array" := haa
      have hk := kind_scalar (wkt := cfg.wkt) hobj harr
      simp only [Schema.info] at hk
      simp only [Except.ok.injEq] at h
      refine leaf ?_ ?_ ?_
      · rw [hk]; split <;> simp
      · rw [hk]; split <;> simp
      · unfold parseScalar at h
        split at h
        · simp only [Prod.mk.injEq] at h; rw [← h.2]; rfl
        · simp only [Prod.mk.injEq] at h; rw [← h.2]; rfl

theorem dict_set_self {α : Type} (d : List (Str × α)) (k : Str) (c : α) (h : Dict.get d k = some c) : Dict.set d k c = d := by
  induction d with
  | nil => simp at h
  | cons x r ih =>
    obtain ⟨k', v⟩ := x
    rw [Dict.get_cons] at h
    by_cases hkk : k' = k
    · simp only [hkk, if_true, Option.some.injEq] at h
      simp [Dict.set, hkk, h]
    · simp only [hkk, if_false] at h
      simp [Dict.set, hkk, ih h]

theorem put_idem (P : List Str) (t u : TitleTree) (h : subTree P t = some u) : putTree u P t = t := by
  induction P generalizing t with
  | nil => simp only [subTree, Option.some.injEq] at h; rw [putTree, h]
  | cons k ks ih =>
    obtain ⟨p, c0⟩ := t
    simp only [subTree, TitleTree.children] at h
    rw [putTree]
    simp only [TitleTree.children, TitleTree.prop]
    cases hgk : Dict.get c0 k with
    | none => rfl
    | some c =>
      rw [hgk] at h
      simp only [Option.bind_some] at h
      dsimp only
      rw [ih c h, dict_set_self _ _ _ hgk]

theorem learn_props {cfg : SchemaCfg} {s : Schema} (hg : GoodTitles cfg s) {ctx : SCtx} {ids : List Str}
    (ps : List (Str × Schema)) (hsub : ∀ x ∈ ps, x ∈ s.properties.getD []) (hnd : (Dict.keys ps).Nodup)
    (hp : ∀ n p, (n, p) ∈ ps → Learns cfg p ∧ ∀ i, p.items = some i → Learns cfg i)
    (st : SState) (ys : List Yield) (st' : SState) (pr : Str) (cs : List (Str × TitleTree)) 
    (h : parseProps cfg ctx ids ps st = .ok (ys, st')) (hcs : subTree ctx.place st.lookup = some (.node pr cs)) :
    ∃ cs', st'.lookup = putTree (.node pr cs') ctx.place st.lookup ∧
      (∀ k, (∀ n p a, (n, p) ∈ ps → (cfg.noDeprecated = true → ¬ Deprecated p) → titleOf p = some a → k ≠ normTitle a) →
        Dict.get cs' k = Dict.get cs k) ∧ MirrorProps cfg cs' ps := by
  induction ps generalizing st ys st' cs with
  | nil =>
    simp only [parseProps, Except.ok.injEq, Prod.mk.injEq] at h
    rw [← h.2]
    exact ⟨cs, (put_idem _ _ _ hcs).symm, fun k _ => rfl, by simp [MirrorProps]⟩
  | cons x r ih =>
    obtain ⟨n, p⟩ := x
    simp only [Dict.keys, List.map_cons, List.nodup_cons] at hnd
    replace ih := ih (fun x hx => hsub x (by simp [hx])) hnd.2 (fun n p hm => hp n p (by simp [hm]))
    simp only [parseProps] at h
    split at h
    · next hsk =>
      have hd : ¬ (cfg.noDeprecated = true → ¬ Deprecated p) := fun hc => by
        rw [skipped_iff.2 hc] at hsk; cases hsk
      obtain ⟨cs', e1, e4, e5⟩ := ih _ _ _ _ h hcs
      refine ⟨cs', e1, fun k hk => e4 k (fun n p a hm => hk n p a (by simp [hm])), fun n' p' hm hd' => ?_⟩
      rcases List.mem_cons.1 hm with hm | hm
      · cases hm; exact absurd hd' hd
      · exact e5 n' p' hm hd'
    · next hsk =>
      have hd := skipped_iff.1 (by simpa using hsk)
      obtain ⟨y1, st1, h1, h2⟩ := sThen_ok.1 h
      obtain ⟨y2, st2, h3, h4⟩ := sThen_ok.1 h2
      simp only [Except.ok.injEq, Prod.mk.injEq] at h4
      rw [← h4.2]
      have hf : Field cfg s n p := ⟨hsub _ (by simp), hd⟩
      obtain ⟨hlp, hli⟩ := hp n p (by simp)
      have hone := learn_prop hlp hli hg hf h1 hcs
      cases hta : titleOf p with
      | none =>
        rw [hta] at hone
        dsimp only at hone
        obtain ⟨cs', e1, e4, e5⟩ := ih st1 _ _ cs h3 (by rw [hone]; exact hcs)
        rw [hone] at e1
        refine ⟨cs', e1, fun k hk => e4 k (fun n p a hm => hk n p a (by simp [hm])), fun n' p' hm hd' a ha => ?_⟩
        rcases List.mem_cons.1 hm with hm | hm
        · cases hm; rw [hta] at ha; cases ha
        · exact e5 n' p' hm hd' a ha
      | some a =>
        rw [hta] at hone
        obtain ⟨c, f1, f2, f3, f4⟩ := hone
        obtain ⟨cs', e1, e4, e5⟩ := ih st1 _ _ (Dict.set cs (normTitle a) c) h3
          (by rw [f1]; exact sub_put _ _ _ (by simp [hcs]))
        refine ⟨cs', by rw [e1, f1, put_put], fun k hk => ?_, fun n' p' hm hd' a' ha' => ?_⟩
        · rw [e4 k (fun n p a hm => hk n p a (by simp [hm])), Dict.get_set_other]
          exact fun hc => hk n p a (by simp) hd hta hc.symm
        · rcases List.mem_cons.1 hm with hm | hm
          · cases hm
            rw [hta] at ha'; cases ha'
            refine ⟨c, ?_, f2, f3, f4⟩
            rw [e4 _ (fun n2 p2 a2 hm2 hd2 ha2 hc => ?_)]
            · simp
            · have := hg.different [] s n p a n2 p2 a2 (.here s) hf ⟨hsub _ (by simp [hm2]), hd2⟩ hta ha2 hc
              subst this
              exact hnd.1 (List.mem_map_of_mem (f := (·.1)) hm2)
          · exact e5 n' p' hm hd' a' ha'

theorem learns (cfg : SchemaCfg) (s : Schema) : Learns cfg s := by
  suffices h : Learns cfg s ∧ ∀ i, s.items = some i → Learns cfg i from h.1
  induction s using Schema.ind with
  | h info props items one ih1 ih2 =>
  refine ⟨?_, fun i hi => (ih2 i hi).1⟩
  intro ctx st ys st' pr hg hno h hsub
  simp only [Schema.info, Schema.items] at hno
  simp only [parseSchema, hno] at h
  cases props with
  | none =>
    simp only [parseBody, if_neg Bool.false_ne_true, Except.ok.injEq, Prod.mk.injEq] at h
    refine ⟨[], ?_, mirror_of_props (by simp [MirrorProps, Schema.properties]) (fun _ _ => rfl)⟩
    rw [← h.2]
    exact (put_idem _ _ _ hsub).symm
  | some ps =>
    simp only [parseBody, if_neg Bool.false_ne_true] at h
    obtain ⟨cs', e1, e4, e5⟩ := learn_props hg ps (fun x hx => hx) (hg.dict [] _ (.here _)) ih1 _ _ _ _ _ h hsub
    exact ⟨cs', e1, mirror_of_props e5 (fun k hk => e4 k hk)⟩

/-! ### C36 -/

theorem not_oneOf_of_starts {s : Schema} (h : Starts s s) : isOneOfArray s.info s.items = false := by
  cases hb : isOneOfArray s.info s.items with
  | false => rfl
  | true =>
    exfalso
    unfold isOneOfArray at hb
    unfold Starts at h
    split at hb
    · next t i p it alts hty hit =>
      rw [hty, hit] at h
      simp only [decide_eq_true_eq] at hb
      simp only [hb, if_true] at h
      have h1 := List.sizeOf_lt_of_mem h.1
      obtain ⟨a, b, c, d⟩ := s
      simp only [Schema.items] at hit
      subst hit
      simp at h1
      omega
    · cases hb

/-- C36: a heading made of the titles of a field and of the objects and arrays above it
(in any spelling that counts as the same, with or without indices) is converted to the
field's path, with the indices where they stood. -/
theorem C36_heading_to_path (cfg : SchemaCfg) (s : Schema) (sp : Parsed) (h : parseRoot cfg s = .ok sp) (hs : Starts s s)
    (hg : GoodTitles cfg s) (steps : List Hop) (q : Schema) (n : Str) (p : Schema) (ht : Trail cfg s steps q) (hf : Field cfg q n p)
    (parts fields : List Str) (hh : Heading (steps.map (fun x => (x.name, x.prop)) ++ [(n, p)]) parts fields)
    (hc : ∀ x ∈ parts, ':' ∉ x) :
    lookupHeader sp.lookup (Py.join s%":" parts) = Py.join s%"/" fields := by
  obtain ⟨ys, st, h1, _, _, _, h2⟩ := parseRoot_ok h
  obtain ⟨cs, e1, e2⟩ := learns cfg s {} {} ys st [] hg (not_oneOf_of_starts hs) h1 rfl
  unfold lookupHeader
  rw [Py.split_join hh.ne_nil.1 hc, h2, e1]
  exact e2.1 steps q n p ht hf parts fields hh

/-- C36: what is no title is kept: a heading that leads to some object or array of objects (or nowhere) by titles, and goes on with a part that is the title of none of
its fields, is converted to the path so far, with the other parts as they stand (without spaces around them). -/
theorem C36_unknown_kept (cfg : SchemaCfg) (s : Schema) (sp : Parsed) (h : parseRoot cfg s = .ok sp) (hs : Starts s s)
    (hg : GoodTitles cfg s) (steps : List Hop) (q : Schema) (ht : Trail cfg s steps q) (parts fields : List Str)
    (hl : Leading (steps.map (fun x => (x.name, x.prop))) parts fields) (w : Str) (rest : List Str) (hi : isint w = false)
    (hno : ∀ n p a, Field cfg q n p → titleOf p = some a → ¬ SameTitle a w) (hc : ∀ x ∈ parts ++ w :: rest, ':' ∉ x) :
    lookupHeader sp.lookup (Py.join s%":" (parts ++ w :: rest)) = Py.join s%"/" (fields ++ (w :: rest).map (Py.strip (· = ' '))) := by
  obtain ⟨ys, st, h1, _, _, _, h2⟩ := parseRoot_ok h
  obtain ⟨cs, e1, e2⟩ := learns cfg s {} {} ys st [] hg (not_oneOf_of_starts hs) h1 rfl
  unfold lookupHeader
  rw [Py.split_join (by simp) hc, h2, e1]
  exact e2.2 steps q ht parts fields w rest hl hi hno

/-- The titles of a heading. -/
theorem titlesText_heading (l : List (Str × Schema)) (c : Str) (h : titlesText (l.map (·.2)) = some c)
    (hok : ∀ x ∈ l, ∀ a, titleOf x.2 = some a → ':' ∉ a ∧ isint a = false) :
    ∃ parts, c = Py.join s%":" parts ∧ (∀ x ∈ parts, ':' ∉ x) ∧ Heading l parts (l.map (·.1)) := by
  induction l generalizing c with
  | nil => simp [titlesText] at h
  | cons x r ih =>
    obtain ⟨n, p⟩ := x
    cases r with
    | nil =>
      simp only [List.map_cons, List.map_nil, titlesText] at h
      obtain ⟨h1, h2⟩ := hok _ (List.mem_singleton.2 rfl) c h
      exact ⟨[c], by simp [Py.join], by simpa using h1, .last h rfl h2⟩
    | cons y r =>
      rw [List.map_cons, List.map_cons, titlesText] at h
      · cases ha : titleOf p with
        | none => rw [ha] at h; simp at h
        | some a =>
          rw [ha] at h
          simp only [Option.bind_some, Option.map_eq_some_iff] at h
          obtain ⟨b, hb, rfl⟩ := h
          obtain ⟨parts, h1, h2, h3⟩ := ih b (by simpa using hb) (fun x hx => hok x (by simp [hx]))
          obtain ⟨g1, g2⟩ := hok (n, p) (by simp) a ha
          refine ⟨a :: parts, ?_, ?_, .step ha rfl g2 h3⟩
          · rw [join_cons a h3.ne_nil.1, h1]; simp
          · intro x hx
            rcases List.mem_cons.1 hx with rfl | hx
            · exact g1
            · exact h2 x hx
      · simp

/-- C36 for the heading by titles itself: it is converted to the field's path. -/
theorem C36_titles_to_path (cfg : SchemaCfg) (s : Schema) (sp : Parsed) (h : parseRoot cfg s = .ok sp) (hs : Starts s s)
    (hg : GoodTitles cfg s) (hp : PlainTitles cfg s) (steps : List Hop) (n : Str) (p : Schema) (hr : Reached cfg s steps n p)
    (c : Str) (hc : titlePath steps p = some c) :
    lookupHeader sp.lookup c = plainPath steps n := by
  obtain ⟨r, q, h0, ht, hf⟩ := hr
  have hrs : r = s := by
    have h1 := not_oneOf_of_starts hs
    unfold Starts at h0
    unfold isOneOfArray at h1
    split at h0
    · next t i p it alts hty hit =>
      rw [hty, hit] at h1
      simp only [decide_eq_false_iff_not] at h1
      rw [if_neg h1] at h0
      exact h0
    · exact h0
  subst hrs
  have e : (steps.map (fun x => (x.name, x.prop)) ++ [(n, p)]).map (·.2) = steps.map (·.prop) ++ [p] := by simp
  have e2 : (steps.map (fun x => (x.name, x.prop)) ++ [(n, p)]).map (·.1) = steps.map (·.name) ++ [n] := by simp
  obtain ⟨parts, h1, h2, h3⟩ := titlesText_heading _ c (by rw [e]; exact hc) (fun x hx a ha => by
    rcases List.mem_append.1 hx with hx | hx
    · obtain ⟨y, hy, rfl⟩ := List.mem_map.1 hx
      obtain ⟨l1, l2, q', _, g1, g2⟩ := ht.fields y hy
      exact hp l1 y.name y.prop a ⟨r, q', hs, g1, g2⟩ ha
    · rw [List.mem_singleton.1 hx] at ha
      exact hp steps n p a ⟨r, q, hs, ht, hf⟩ ha)
  rw [e2] at h3
  rw [h1, C36_heading_to_path cfg r sp h hs hg steps q n p ht hf parts _ h3 h2]
  rfl

/-- C36 for a template: every column written with titles (other than id columns), on
every sheet, is converted back to the path of the field it stands for. -/
theorem C36_template_columns (cfg : SchemaCfg) (s : Schema) (sp : Parsed) (h : parseRoot cfg s = .ok sp) (hs : Starts s s)
    (hu : cfg.useTitles = true) (hg : GoodTitles cfg s) (hp : PlainTitles cfg s) (hw : WellNamed cfg s) (c : Str)
    (hc : c ∈ sp.main.columns ∨ ∃ nm sh, (nm, sh) ∈ sp.subs ∧ c ∈ sh.columns) :
    ∃ steps n p, Reached cfg s steps n p ∧ titlePath steps p = some c ∧ lookupHeader sp.lookup c = plainPath steps n := by
  obtain ⟨steps, n, p, h1, h2⟩ := columns_stand_for cfg s sp h hw c hc
  unfold StandsFor at h2
  rw [if_pos hu] at h2
  exact ⟨steps, n, p, h1, h2, C36_titles_to_path cfg s sp h hs hg hp steps n p h1 c h2⟩

/-- C36 for a line: the cell under a heading stands, after conversion, under the path, if
no other heading of the line is converted to the same path. -/
theorem C36_line (t : TitleTree) (l : Line) (hd : Str) (v : Atom) (hm : (some hd, v) ∈ l) (hn : (Dict.keys l).Nodup)
    (h1 : ∀ k w, (some k, w) ∈ l → lookupHeader t k = lookupHeader t hd → k = hd) :
    Dict.get (convertTitles t l) (some (lookupHeader t hd)) = some v := by
  unfold convertTitles
  rw [dictOf_get]
  have key : ∀ (ps : List (Option Str × Atom)) (k : Option Str), (k, v) ∈ ps → (∀ w, (k, w) ∈ ps → w = v) → Dict.get ps k = some v := by
    intro ps k hm hw
    cases hg : Dict.get ps k with
    | none => 
      have := (Dict.get_isSome_iff (d := ps) (k := k)).2 (List.mem_map_of_mem (f := (·.1)) hm)
      rw [hg] at this; cases this
    | some w => rw [hw w (Dict.get_eq_some_mem hg)]
  refine key _ _ ?_ (fun w hw => ?_)
  · rw [List.mem_reverse, List.mem_map]
    exact ⟨_, hm, rfl⟩
  · rw [List.mem_reverse, List.mem_map] at hw
    obtain ⟨⟨k, x⟩, hx, he⟩ := hw
    simp only [Prod.mk.injEq] at he
    obtain ⟨he1, rfl⟩ := he
    cases k with
    | none => simp at he1
    | some k =>
      simp only [Option.map_some, Option.some.injEq] at he1
      have := h1 k x hx he1
      subst this
      have g1 := Dict.get_of_mem hn hx
      rw [Dict.get_of_mem hn hm] at g1
      cases g1; rfl

/-! ### Examples -/

theorem goodTitles_of_inside {cfg : SchemaCfg} {s : Schema} (h1 : ∀ x ∈ inside s, (names x).Nodup)
    (h2 : ∀ x ∈ inside s, ∀ a ∈ x.properties.getD [], ∀ b ∈ x.properties.getD [], ∀ t ∈ titleOf a.2, ∀ u ∈ titleOf b.2,
      SameTitle t u → a.1 = b.1)
    (h3 : ∀ x ∈ inside s, ∀ a ∈ x.properties.getD [], HasType a.2 s%"object" ∨ HasType a.2 s%"array" → (titleOf a.2).isSome) :
    GoodTitles cfg s := by
  refine ⟨dicts_of_inside h1, fun steps q n p a n' p' a' ht hf hf' => ?_, fun steps q n p ht hf hk => ?_⟩
  · intro ha ha' hsame
    exact h2 q (inside_trail ht (inside_self q)) _ hf.1 _ hf'.1 a ha a' ha' hsame
  · have := h3 q (inside_trail ht (inside_self q)) _ hf.1 (by
      unfold kind at hk
      split at hk
      · next h => exact .inl h
      · split at hk
        · next h => exact .inr h
        · exfalso
          split at hk
          · simp at hk
          · split at hk
            · simp at hk
            · split at hk
              · simp at hk
              · split at hk <;> simp at hk)
    exact Option.isSome_iff_exists.1 this

theorem plainTitles_of_inside {cfg : SchemaCfg} {s : Schema}
    (h : ∀ x ∈ inside s, ∀ a ∈ x.properties.getD [], ∀ t ∈ titleOf a.2, ':' ∉ t ∧ isint t = false) : PlainTitles cfg s := by
  rintro steps n p a ⟨r, q, hr, ht, hf⟩ ha
  exact h q (inside_starts hr (inside_trail ht (inside_self q))) _ hf.1 a ha

/-- A schema with titles at every level. -/
def titledOrders : Schema :=
  .mk { type := .one s%"object" } (some [
    (s%"id", .mk { type := .one s%"string", title := some s%"Identifier" } none none none),
    (s%"buyer", .mk { type := .many [s%"object", s%"null"], title := some s%"The Buyer" } (some [
      (s%"since", .mk { type := .one s%"string", isDate := true, title := some s%"Since" } none none none),
      (s%"note", .mk { type := .one s%"string" } none none none)]) none none),
    (s%"lines", .mk { type := .one s%"array", title := some s%"Lines" } none (some
      (.mk { type := .one s%"object" } (some [
        (s%"id", .mk { type := .one s%"string", title := some s%"Line Id" } none none none),
        (s%"price", .mk { type := .one s%"number", title := some s%"Unit Price" } none none none)]) none none)) none)]) none none

example (cfg : SchemaCfg) : Starts titledOrders titledOrders ∧ GoodTitles cfg titledOrders ∧ PlainTitles cfg titledOrders ∧
    WellNamed cfg titledOrders :=
  ⟨rfl, goodTitles_of_inside (by decide +kernel) (by unfold SameTitle; decide +kernel) (by decide +kernel), plainTitles_of_inside (by decide +kernel),
   wellNamed_of_inside (by decide +kernel)⟩

/-- The conversions of some headings. -/
def converted (cfg : SchemaCfg) (s : Schema) (hs : List Str) : Option (List Str) :=
  (parseRoot cfg s).toOption.map (fun sp => hs.map (lookupHeader sp.lookup))

example : templateOf { useTitles := true } titledOrders = some
    ([s%"Identifier", s%"The Buyer:Since"], [(s%"Lines", [s%"Identifier", s%"Lines:Line Id", s%"Lines:Unit Price"])]) := by decide +kernel

example : converted {} titledOrders [s%"Identifier", s%"The Buyer:Since", s%"Lines:Unit Price", s%"Lines:2:Unit Price",
      s%"thebuyer: SINCE", s%"no such title", s%"The Buyer:no such"] =
    some [s%"id", s%"buyer/since", s%"lines/price", s%"lines/2/price", s%"buyer/since", s%"no such title", s%"buyer/no such"] := by decide +kernel

/-- Why every object needs a title: the title of a field below an object without one is
recorded for the root, and can hide a field of the root. -/
example : converted {} (.mk { type := .one s%"object" } (some [
      (s%"name", .mk { type := .one s%"string", title := some s%"Name" } none none none),
      (s%"x", .mk { type := .one s%"object" } (some [
        (s%"label", .mk { type := .one s%"string", title := some s%"Name" } none none none)]) none none)]) none none) [s%"Name"] =
    some [s%"label"] := by decide +kernel

end Verif
