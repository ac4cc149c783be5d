import Verif.Proofs.SchemaWalk
import Verif.Props.Titles
import Verif.Spec.TitledTrip
/-! The titles that the schema parser notes for the sheets. -/
namespace Verif
open Spec

/-! ### Lookup trees -/

mutual
/-- Every entry of the tree (a key and the name found there) is good. -/
def TreeAll (P : Str → Str → Prop) : TitleTree → Prop
  | .node _ cs => TreesAll P cs
/-- The entries below. -/
def TreesAll (P : Str → Str → Prop) : List (Str × TitleTree) → Prop
  | [] => True
  | (k, t) :: r => (P k t.prop ∧ TreeAll P t) ∧ TreesAll P r
end

theorem TreeAll.children {P : Str → Str → Prop} {t : TitleTree} (h : TreeAll P t) : TreesAll P t.children := by
  cases t; simpa [TreeAll, TitleTree.children] using h

theorem TreesAll.get {P : Str → Str → Prop} {cs : List (Str × TitleTree)} (h : TreesAll P cs) {k : Str} {t : TitleTree} (hg : Dict.get cs k = some t) :
    P k t.prop ∧ TreeAll P t := by
  induction cs with
  | nil => cases hg
  | cons e r ih =>
    obtain ⟨k', t'⟩ := e
    rw [TreesAll] at h
    rw [Dict.get_cons] at hg
    split at hg
    · next he => cases hg; subst he; exact h.1
    · exact ih h.2 hg

theorem TreesAll.set {P : Str → Str → Prop} {cs : List (Str × TitleTree)} (h : TreesAll P cs) {k : Str} {t : TitleTree} (hk : P k t.prop) (ht : TreeAll P t) :
    TreesAll P (Dict.set cs k t) := by
  induction cs with
  | nil => simp [Dict.set, TreesAll, hk, ht]
  | cons e r ih =>
    obtain ⟨k', t'⟩ := e
    rw [TreesAll] at h
    unfold Dict.set
    split
    · next he => subst he; rw [TreesAll]; exact ⟨⟨hk, ht⟩, h.2⟩
    · rw [TreesAll]; exact ⟨h.1, ih h.2⟩

theorem titleSet_prop (key prop : Str) (ks : List Str) (t : TitleTree) : (titleSet key prop ks t).prop = t.prop := by
  obtain ⟨p, cs⟩ := t
  cases ks <;> rfl

theorem treeAll_set {P : Str → Str → Prop} {key prop : Str} (hp : P key prop) (ks : List Str) (t : TitleTree) (h : TreeAll P t) :
    TreeAll P (titleSet key prop ks t) := by
  induction ks generalizing t with
  | nil =>
    obtain ⟨p, cs⟩ := t
    rw [titleSet, TreeAll]
    rw [TreeAll] at h
    exact h.set hp (by simp [TreeAll, TreesAll])
  | cons k ks ih =>
    obtain ⟨p, cs⟩ := t
    rw [titleSet, TreeAll]
    rw [TreeAll] at h
    induction cs with
    | nil => simp [titleSetIn, TreesAll]
    | cons e r ihr =>
      obtain ⟨k', t'⟩ := e
      rw [TreesAll] at h
      rw [titleSetIn]
      split
      · rw [TreesAll, titleSet_prop]; exact ⟨⟨h.1.1, ih _ h.1.2⟩, h.2⟩
      · rw [TreesAll]; exact ⟨h.1, ihr h.2⟩

theorem treeAll_at {P : Str → Str → Prop} (ks : List Str) (t : TitleTree) (h : TreeAll P t) : TreeAll P (titleAt ks t) := by
  induction ks generalizing t with
  | nil => exact h
  | cons k ks ih =>
    unfold titleAt
    split
    · next hg => exact ih _ (h.children.get hg).2
    · simp [TreeAll, TreesAll]

/-- A heading is looked up part by part: each part becomes the name found for it, or stays (without spaces around it). -/
theorem lookup_parts {P : Str → Str → Prop} (parts : List Str) (hne : parts ≠ []) (hi : ∀ x ∈ parts, isint x = false) (t : TitleTree) (h : TreeAll P t) :
    ∃ comps, lookupHeaderList t parts = Py.join s%"/" comps ∧ All₂ (fun x c => c = Py.strip (· = ' ') x ∨ P (normTitle x) c) parts comps := by
  induction parts generalizing t with
  | nil => exact absurd rfl hne
  | cons x r ih =>
    have hx := hi x (by simp)
    rw [lookupHeaderList, if_neg (by simp [hx])]
    cases hg : Dict.get t.children (normTitle x) with
    | some c =>
      obtain ⟨h1, h2⟩ := h.children.get hg
      dsimp only
      cases hr : r with
      | nil => exact ⟨[c.prop], by simp [Py.join], .cons (.inr h1) .nil⟩
      | cons y ys =>
        rw [← hr]
        have hrne : r ≠ [] := by simp [hr]
        obtain ⟨comps, h3, h4⟩ := ih hrne (fun z hz => hi z (by simp [hz])) c h2
        have hc : comps ≠ [] := by
          intro hc; subst hc; cases h4; exact hrne rfl
        refine ⟨c.prop :: comps, ?_, .cons (.inr h1) h4⟩
        have : r.isEmpty = false := by simp [hrne]
        rw [this, join_cons _ hc, h3]
        rfl
    | none =>
      refine ⟨(x :: r).map (Py.strip (· = ' ')), rfl, ?_⟩
      have key : ∀ l : List Str, All₂ (fun x c => c = Py.strip (· = ' ') x ∨ P (normTitle x) c) l (l.map (Py.strip (· = ' '))) := by
        intro l
        induction l with
        | nil => exact .nil
        | cons y ys ih => exact .cons (.inl rfl) ih
      exact key _

/-! ### Stripping -/

theorem takeWhile_all (p : Char → Bool) (x : Str) : ∀ c ∈ x.takeWhile p, p c := by
  induction x with
  | nil => simp
  | cons d ds ih =>
    intro c hc
    rw [List.takeWhile_cons] at hc
    split at hc
    · next hp =>
      rcases List.mem_cons.1 hc with rfl | hc
      · exact hp
      · exact ih c hc
    · simp at hc

theorem strip_parts (p : Char → Bool) (x : Str) : ∃ a b, x = a ++ Py.strip p x ++ b ∧ (∀ c ∈ a, p c) ∧ ∀ c ∈ b, p c := by
  have hr : ∀ y : Str, ∃ b, y = Py.rstrip p y ++ b ∧ ∀ c ∈ b, p c := by
    intro y
    induction y with
    | nil => exact ⟨[], rfl, by simp⟩
    | cons c cs ih =>
      obtain ⟨b, h1, h2⟩ := ih
      unfold Py.rstrip
      cases hc : Py.rstrip p cs with
      | nil =>
        rw [hc] at h1
        dsimp only
        split
        · next hp =>
          refine ⟨c :: b, by rw [h1]; simp, ?_⟩
          intro d hd
          rcases List.mem_cons.1 hd with rfl | hd
          · exact hp
          · exact h2 d hd
        · exact ⟨b, by rw [h1]; simp, h2⟩
      | cons d ds =>
        rw [hc] at h1
        exact ⟨b, by rw [h1]; simp, h2⟩
  obtain ⟨b, h1, h2⟩ := hr (Py.lstrip p x)
  refine ⟨x.takeWhile p, b, ?_, takeWhile_all p x, h2⟩
  have := List.takeWhile_append_dropWhile (p := p) (l := x)
  rw [List.append_assoc]
  unfold Py.strip
  rw [← h1]
  exact this.symm

theorem strip_zero {x : Str} (h : Py.strip (· = ' ') x = s%"0") : isint x = true := by
  obtain ⟨a, b, h1, h2, h3⟩ := strip_parts (· = ' ') x
  rw [h] at h1
  have hl : ∀ (l : Str), (∀ c ∈ l, (decide (c = ' ')) = true) → ∀ r, Py.lstrip Py.isIntSpace (l ++ '0' :: r) = '0' :: r := by
    intro l
    induction l with
    | nil => intro _ r; rfl
    | cons c cs ih =>
      intro hc r
      have : c = ' ' := by simpa using hc c (by simp)
      subst this
      have e := ih (fun d hd => hc d (by simp [hd])) r
      unfold Py.lstrip at e ⊢
      rw [List.cons_append, List.dropWhile_cons, if_pos (by decide), e]
  have hrs : ∀ (l : Str), (∀ c ∈ l, (decide (c = ' ')) = true) → Py.rstrip Py.isIntSpace l = [] := by
    intro l
    induction l with
    | nil => intro _; rfl
    | cons c cs ih =>
      intro hc
      have : c = ' ' := by simpa using hc c (by simp)
      subst this
      rw [Py.rstrip, ih (fun d hd => hc d (by simp [hd]))]
      rfl
  have e : Py.strip Py.isIntSpace x = s%"0" := by
    rw [h1]
    unfold Py.strip
    rw [show a ++ s%"0" ++ b = a ++ '0' :: b by simp, hl a h2, Py.rstrip, hrs b h3]
    rfl
  unfold isint Py.int?
  rw [e]
  rfl

theorem mem_strip {p : Char → Bool} {x : Str} {c : Char} (h : c ∈ Py.strip p x) : c ∈ x := by
  obtain ⟨a, b, h1, _, _⟩ := strip_parts p x
  rw [h1]
  simp [h]

theorem normTitle_strip (x : Str) : normTitle (Py.strip (· = ' ') x) = normTitle x := by
  obtain ⟨a, b, h1, h2, h3⟩ := strip_parts (· = ' ') x
  have e : ∀ l : Str, (∀ c ∈ l, (decide (c = ' ')) = true) → l.filter (fun c => decide (c ≠ ' ')) = [] := by
    intro l hl
    rw [List.filter_eq_nil_iff]
    intro c hc
    have := hl c hc
    simpa using this
  unfold normTitle
  conv => rhs; rw [h1]
  rw [List.filter_append, List.filter_append, e a h2, e b h3]
  simp

/-! ### The invariant -/

variable {cfg : SchemaCfg} {s : Schema} {idName : Str} {rootId : Option Str}

/-- An entry of the lookup: the title of a property leads to its name. -/
def GoodEntry (cfg : SchemaCfg) (s : Schema) (key name : Str) : Prop :=
  ∃ steps p a, Reached cfg s steps name p ∧ titleOf p = some a ∧ normTitle a = key

theorem _root_.Verif.Spec.TitlesReturn.named {cfg : SchemaCfg} {s : Schema} {idName : Str} {rootId : Option Str} (h : TitlesReturn cfg s idName rootId) :
    WellNamed cfg s := by
  intro steps n p hr
  have hk := h.keys steps n p hr
  refine ⟨hk.1, hk.2.1, fun e => ?_⟩
  have := hk.2.2.1
  rw [e] at this
  revert this; decide +kernel

/-- The heading of an id column. -/
def IsId (cfg : SchemaCfg) (s : Schema) (f : Str) : Prop :=
  ∃ steps q p pt, Trail cfg s steps q ∧ (s%"id", p) ∈ q.properties.getD [] ∧ titlePrefix (some []) steps = some pt ∧ f = pt ++ (titleOf p).getD s%"id"

/-- The title of a property below an array. -/
def Own (cfg : SchemaCfg) (s : Schema) (k v : Str) : Prop :=
  ∃ steps n p, Reached cfg s steps n p ∧ k = columnPath steps n ∧ titlePath steps p = some v ∧ ∃ x ∈ steps, x.list = true

/-- The title of an id. -/
def IdKey (cfg : SchemaCfg) (s : Schema) (k v : Str) : Prop :=
  IsId cfg s v ∧ ∃ t, TreeAll (GoodEntry cfg s) t ∧ k = lookupHeader t v

/-- The place of the parser. -/
def AtPlace (cfg : SchemaCfg) (s : Schema) (ctx : SCtx) (x : Schema) : Prop :=
  (∃ steps, Trail cfg s steps x ∧ ctx = ctxAt cfg {} s steps) ∧ ∀ f ∈ ctx.idFields, IsId cfg s f

structure TitlesInv (cfg : SchemaCfg) (s : Schema) (st : SState) : Prop where
  tree : TreeAll (GoodEntry cfg s) st.lookup
  entry : ∀ nm sh, Dict.get st.subs nm = some sh → ∀ k v, Dict.get sh.titles k = some v → Own cfg s k v ∨ IdKey cfg s k v
  column : ∀ nm sh, Dict.get st.subs nm = some sh → ∀ c ∈ sh.columns, ∃ k, Dict.get sh.titles k = some c ∧ Own cfg s k c
  sheet : ∀ key v, Dict.get st.subTitles key = some v → ∃ steps q n p, Trail cfg s steps q ∧ Field cfg q n p ∧ kind cfg.wkt p = .objects ∧
    key = ((ctxAt cfg {} s steps).parentPath, n) ∧ v = subNameOf cfg (ctxAt cfg {} s steps) n (titleOf p)

theorem ctxAt_snoc (cfg : SchemaCfg) {ctx : SCtx} {s q : Schema} {steps : List Hop} (h : Trail cfg s steps q) (x : Hop) :
    ctxAt cfg ctx s (steps ++ [x]) = childCtx (ctxAt cfg ctx s steps)
      ((ctxAt cfg ctx s steps).parentPath ++ (if x.list then x.name ++ s%"/0" else x.name)) (idsBelow cfg (ctxAt cfg ctx s steps) q) (titleOf x.prop) := by
  induction h generalizing ctx with
  | here => rfl
  | object h1 h2 h3 ih => simpa [ctxAt, stepTo] using ih
  | list h1 h2 h0 h3 ih => simpa [ctxAt, stepTo, h0] using ih

theorem reached_of {steps : List Hop} {q p : Schema} {n : Str} (hs : Starts s s) (ht : Trail cfg s steps q) (hf : Field cfg q n p) :
    Reached cfg s steps n p := ⟨s, q, hs, ht, hf⟩

theorem isId_below (h : TitlesReturn cfg s idName rootId) (hu : cfg.useTitles = true) {ctx : SCtx} {x : Schema} (hC : AtPlace cfg s ctx x) :
    ∀ f ∈ idsBelow cfg ctx x, IsId cfg s f := by
  intro f hf
  obtain ⟨⟨steps, ht, rfl⟩, hid⟩ := hC
  unfold idsBelow childIds at hf
  split at hf
  · exact hid f hf
  · next p hg =>
    rw [if_pos hu] at hf
    rcases List.mem_append.1 hf with hf | hf
    · exact hid f hf
    · rw [List.mem_singleton.1 hf]
      have hm := Dict.get_eq_some_mem hg
      have htl := (h.ids steps x p ht hm).2
      have hpt : ∃ pt, titlePrefix (some []) steps = some pt := by
        have key : ∀ {s q : Schema} {steps : List Hop}, Trail cfg s steps q → GoodTitles cfg s → ∀ a, ∃ pt, titlePrefix (some a) steps = some pt := by
          intro s q steps ht
          induction ht with
          | here => intro _ a; exact ⟨a, rfl⟩
          | object h1 h2 h3 ih =>
            intro hg a
            obtain ⟨b, hb⟩ := hg.titled [] _ _ _ (.here _) h1 (.inl h2)
            obtain ⟨pt, h⟩ := ih (good_object hg h1 h2) (a ++ (b ++ s%":"))
            exact ⟨pt, by simpa [titlePrefix, hb] using h⟩
          | list h1 h2 h0 h3 ih =>
            intro hg a
            obtain ⟨b, hb⟩ := hg.titled [] _ _ _ (.here _) h1 (.inr h2)
            obtain ⟨pt, h⟩ := ih (good_list hg h1 h2 h0) (a ++ (b ++ s%":"))
            exact ⟨pt, by simpa [titlePrefix, hb] using h⟩
        exact key ht h.good []
      obtain ⟨pt, hpt⟩ := hpt
      refine ⟨steps, x, p, pt, ht, hm, hpt, ?_⟩
      have e : (ctxAt cfg {} s steps).parentTitle = some pt := by rw [ctxAt_title]; exact hpt
      rw [e]
      simp only [Option.getD_some, List.append_cancel_left_eq]
      rw [htl]
      unfold ownTitle
      cases p.info.title with
      | none => rfl
      | some t => cases t <;> rfl

theorem walk_titles_place (h : TitlesReturn cfg s idName rootId) (hu : cfg.useTitles = true) {ctx : SCtx} {x p : Schema} {n : Str} (hC : AtPlace cfg s ctx x) :
    (Field cfg x n p → kind cfg.wkt p = .object → AtPlace cfg s (childCtx ctx (ctx.parentPath ++ n) (idsBelow cfg ctx x) (titleOf p)) p) ∧
    (∀ i, Field cfg x n p → kind cfg.wkt p = .objects → p.items = some i →
      AtPlace cfg s (childCtx ctx (ctx.parentPath ++ (n ++ s%"/0")) (idsBelow cfg ctx x) (titleOf p)) i) := by
  have hb := isId_below h hu hC
  obtain ⟨⟨steps, ht, rfl⟩, hid⟩ := hC
  refine ⟨fun hf hk => ⟨⟨steps ++ [⟨n, p, false⟩], ht.append (.object hf hk (.here _)), ?_⟩, hb⟩,
    fun i hf hk hi => ⟨⟨steps ++ [⟨n, p, true⟩], ht.append (.list hf hk hi (.here _)), ?_⟩, hb⟩⟩
  · rw [ctxAt_snoc cfg ht]; rfl
  · rw [ctxAt_snoc cfg ht]; rfl

/-! ### Uniqueness -/

theorem field_unique {q : Schema} {n : Str} {p p' : Schema} (hnd : (names q).Nodup) (h1 : Field cfg q n p) (h2 : Field cfg q n p') : p = p' := by
  have e1 := Dict.get_of_mem hnd h1.1
  have e2 := Dict.get_of_mem hnd h2.1
  rw [e1] at e2; exact Option.some.inj e2

theorem trail_unique_steps {q q' : Schema} {a b : List Hop}
    (hd : ∀ steps x, Trail cfg s steps x → (names x).Nodup) (h : Trail cfg s a q) (h' : Trail cfg s b q')
    (hn : a.map (·.name) = b.map (·.name)) : a = b := by
  induction h generalizing b with
  | here =>
    cases h' with
    | here => rfl
    | object => simp at hn
    | list => simp at hn
  | object h1 h2 h3 ih =>
    cases h' with
    | here => simp at hn
    | object g1 g2 g3 =>
      simp only [List.map_cons, List.cons.injEq] at hn
      obtain ⟨hn1, hn2⟩ := hn
      subst hn1
      obtain rfl := field_unique (hd [] _ (.here _)) h1 g1
      rw [ih (fun steps x hx => hd _ x (.object h1 h2 hx)) g3 hn2]
    | list g1 g2 g3 g4 =>
      simp only [List.map_cons, List.cons.injEq] at hn
      obtain ⟨hn1, hn2⟩ := hn
      subst hn1
      obtain rfl := field_unique (hd [] _ (.here _)) h1 g1
      rw [h2] at g2; cases g2
  | list h1 h2 h0 h3 ih =>
    cases h' with
    | here => simp at hn
    | object g1 g2 g3 =>
      simp only [List.map_cons, List.cons.injEq] at hn
      obtain ⟨hn1, hn2⟩ := hn
      subst hn1
      obtain rfl := field_unique (hd [] _ (.here _)) h1 g1
      rw [h2] at g2; cases g2
    | list g1 g2 g3 g4 =>
      simp only [List.map_cons, List.cons.injEq] at hn
      obtain ⟨hn1, hn2⟩ := hn
      subst hn1
      obtain rfl := field_unique (hd [] _ (.here _)) h1 g1
      rw [h0] at g3; cases g3
      rw [ih (fun steps x hx => hd _ x (.list h1 h2 h0 hx)) g4 hn2]

theorem starts_only (hs : Starts s s) {r : Schema} (hr : Starts s r) : r = s := by
  have h1 := not_oneOf_of_starts hs
  unfold Starts at hr
  unfold isOneOfArray at h1
  split at hr
  · next t i p it alts hty hit =>
    rw [hty, hit] at h1
    simp only [decide_eq_false_iff_not] at h1
    rw [if_neg h1] at hr
    exact hr
  · exact hr

theorem reached_unique (h : TitlesReturn cfg s idName rootId) {a b : List Hop} {n m : Str} {p p' : Schema} (h1 : Reached cfg s a n p)
    (h2 : Reached cfg s b m p') (hn : a.map (·.name) ++ [n] = b.map (·.name) ++ [m]) : a = b ∧ n = m ∧ p = p' := by
  obtain ⟨r, q, hr, ht, hf⟩ := h1
  obtain ⟨r', q', hr', ht', hf'⟩ := h2
  obtain rfl := starts_only h.start hr
  obtain rfl := starts_only h.start hr'
  obtain ⟨e1, e2⟩ := List.append_inj' hn rfl
  simp only [List.cons.injEq, and_true] at e2
  subst e2
  have e3 := trail_unique_steps h.good.dict ht ht' e1
  subst e3
  obtain rfl := trail_unique h.good.dict ht ht' rfl
  exact ⟨rfl, rfl, field_unique (h.good.dict _ _ ht) hf hf'⟩

theorem reached_name (h : TitlesReturn cfg s idName rootId) {a : List Hop} {n : Str} {p : Schema} (h1 : Reached cfg s a n p) :
    NameOK n ∧ ∀ x ∈ a, NameOK x.name := by
  refine ⟨h.named _ _ _ h1, ?_⟩
  obtain ⟨r, q, hr, ht, hf⟩ := h1
  exact names_ok h.named hr ht

theorem indexed_ne {a : List Hop} {n : Str} (ha : ∀ x ∈ a, NameOK x.name) (hn : NameOK n) : ∀ y ∈ indexed a ++ [n], '/' ∉ y := by
  intro y hy
  rcases List.mem_append.1 hy with hy | hy
  · exact indexed_slash a ha y hy
  · rw [List.mem_singleton.1 hy]; exact hn.2.1

theorem columnPath_inj (h : TitlesReturn cfg s idName rootId) {a b : List Hop} {n m : Str} {p p' : Schema} (h1 : Reached cfg s a n p)
    (h2 : Reached cfg s b m p') (he : columnPath a n = columnPath b m) : a = b ∧ n = m ∧ p = p' := by
  obtain ⟨hn, ha⟩ := reached_name h h1
  obtain ⟨hm, hb⟩ := reached_name h h2
  have e := Py.join_inj (by simp) (by simp) (indexed_ne ha hn) (indexed_ne hb hm) he
  obtain ⟨e1, e2⟩ := List.append_inj' e rfl
  refine reached_unique h h1 h2 ?_
  rw [e2, ← indexed_filter a ha, ← indexed_filter b hb, e1]

theorem own_unique (h : TitlesReturn cfg s idName rootId) {k v v' : Str} (h1 : Own cfg s k v) (h2 : Own cfg s k v') : v = v' := by
  obtain ⟨a, n, p, hr, rfl, ht, _⟩ := h1
  obtain ⟨b, m, p', hr', he, ht', _⟩ := h2
  obtain ⟨rfl, rfl, rfl⟩ := columnPath_inj h hr hr' he
  rw [ht] at ht'
  exact Option.some.inj ht'

/-- The parts of the heading of an id: titles, and `id` for an id without a title. -/
theorem isId_parts (h : TitlesReturn cfg s idName rootId) {v : Str} (hv : IsId cfg s v) :
    ∃ steps q p ts, Trail cfg s steps q ∧ Field cfg q s%"id" p ∧ ts.length = steps.length ∧ v = Py.join s%":" (ts ++ [(titleOf p).getD s%"id"]) ∧
      (∀ x ∈ ts ++ [(titleOf p).getD s%"id"], ':' ∉ x ∧ isint x = false ∧ '/' ∉ x) := by
  obtain ⟨steps, q, p, pt, ht, hm, hpt, rfl⟩ := hv
  have hf := (h.ids steps q p ht hm).1
  have hlast : ':' ∉ (titleOf p).getD s%"id" ∧ isint ((titleOf p).getD s%"id") = false ∧ '/' ∉ (titleOf p).getD s%"id" := by
    cases htl : titleOf p with
    | none => exact ⟨by decide, by decide +kernel, by decide⟩
    | some a =>
      have h1 := h.plain steps s%"id" p a (reached_of h.start ht hf) htl
      exact ⟨h1.1, h1.2, h.noSlash steps s%"id" p a (reached_of h.start ht hf) htl⟩
  have key : ∀ (l : List Hop) (a pt : Str), titlePrefix (some a) l = some pt →
      (∀ x ∈ l, ∀ b, titleOf x.prop = some b → ':' ∉ b ∧ isint b = false ∧ '/' ∉ b) → ∀ last : Str,
      ∃ ts, ts.length = l.length ∧ pt ++ last = a ++ Py.join s%":" (ts ++ [last]) ∧ ∀ x ∈ ts, ':' ∉ x ∧ isint x = false ∧ '/' ∉ x := by
    intro l
    induction l with
    | nil =>
      intro a pt hp _ last
      simp only [titlePrefix, List.foldl_nil, Option.some.injEq] at hp
      exact ⟨[], rfl, by simp [hp, Py.join], by simp⟩
    | cons x r ih =>
      intro a pt hp hx last
      cases ht : titleOf x.prop with
      | none =>
        have : titlePrefix none r = some pt := by simpa [titlePrefix, ht] using hp
        rw [titlePrefix_none] at this; cases this
      | some b =>
        have hp' : titlePrefix (some (a ++ (b ++ s%":"))) r = some pt := by simpa [titlePrefix, ht] using hp
        obtain ⟨ts, e1, e2, e3⟩ := ih _ _ hp' (fun y hy => hx y (by simp [hy])) last
        refine ⟨b :: ts, by simp [e1], ?_, ?_⟩
        · rw [e2, List.cons_append, join_cons _ (by simp)]
          simp
        · intro y hy
          rcases List.mem_cons.1 hy with rfl | hy
          · exact hx x (by simp) _ ht
          · exact e3 y hy
  obtain ⟨ts, e1, e2, e3⟩ := key steps [] pt hpt (fun x hx b hb => by
    obtain ⟨l1, l2, q', _, g1, g2⟩ := ht.fields x hx
    have h1 := h.plain l1 x.name x.prop b (reached_of h.start g1 g2) hb
    exact ⟨h1.1, h1.2, h.noSlash l1 x.name x.prop b (reached_of h.start g1 g2) hb⟩) ((titleOf p).getD s%"id")
  refine ⟨steps, q, p, ts, ht, hf, e1, by simpa using e2, ?_⟩
  intro x hx
  rcases List.mem_append.1 hx with hx | hx
  · exact e3 x hx
  · rw [List.mem_singleton.1 hx]; exact hlast

theorem all₂_ne_nil {α β : Type} {R : α → β → Prop} {a : List α} {b : List β} (h : All₂ R a b) (ha : a ≠ []) : b ≠ [] := by
  cases h with
  | nil => exact absurd rfl ha
  | cons => simp

theorem all₂_right {α β : Type} {R : α → β → Prop} {a : List α} {b : List β} (h : All₂ R a b) : ∀ y ∈ b, ∃ x ∈ a, R x y := by
  induction h with
  | nil => simp
  | cons h1 _ ih =>
    intro y hy
    rcases List.mem_cons.1 hy with rfl | hy
    · exact ⟨_, by simp, h1⟩
    · obtain ⟨x, hx, hr⟩ := ih y hy
      exact ⟨x, by simp [hx], hr⟩

/-- The key of an id: its components are no `0`. -/
theorem idKey_parts (h : TitlesReturn cfg s idName rootId) {k v : Str} (hk : IdKey cfg s k v) :
    ∃ steps q p ts comps, Trail cfg s steps q ∧ Field cfg q s%"id" p ∧ ts.length = steps.length ∧ v = Py.join s%":" (ts ++ [(titleOf p).getD s%"id"]) ∧
      k = Py.join s%"/" comps ∧ comps ≠ [] ∧ (∀ c ∈ comps, '/' ∉ c ∧ c ≠ s%"0") ∧
      All₂ (fun x c => c = Py.strip (· = ' ') x ∨ GoodEntry cfg s (normTitle x) c) (ts ++ [(titleOf p).getD s%"id"]) comps := by
  obtain ⟨hv, t, ht, rfl⟩ := hk
  obtain ⟨steps, q, p, ts, h1, h2, h3, h4, h5⟩ := isId_parts h hv
  obtain ⟨comps, h6, h7⟩ := lookup_parts (P := GoodEntry cfg s) (ts ++ [(titleOf p).getD s%"id"]) (by simp) (fun x hx => (h5 x hx).2.1) t ht
  refine ⟨steps, q, p, ts, comps, h1, h2, h3, h4, ?_, all₂_ne_nil h7 (by simp), ?_, h7⟩
  · unfold lookupHeader
    rw [h4, Py.split_join (by simp) (fun x hx => (h5 x hx).1), h6]
  · intro c hc
    obtain ⟨x, hx, hr⟩ := all₂_right h7 c hc
    obtain ⟨g1, g2, g3⟩ := h5 x hx
    rcases hr with rfl | ⟨st, p', a, hre, _, _⟩
    · refine ⟨fun hc => g3 (mem_strip hc), fun hc => ?_⟩
      rw [strip_zero hc] at g2; cases g2
    · exact ⟨(h.named _ _ _ hre).2.1, (h.named _ _ _ hre).2.2⟩

theorem own_not_id (h : TitlesReturn cfg s idName rootId) {k v v' : Str} (h1 : Own cfg s k v) (h2 : IdKey cfg s k v') : False := by
  obtain ⟨a, n, p, hr, rfl, ht, x, hx, hxl⟩ := h1
  obtain ⟨steps, q, p', ts, comps, _, _, _, _, e, hne, hc, _⟩ := idKey_parts h h2
  obtain ⟨hn, ha⟩ := reached_name h hr
  have e2 := Py.join_inj (by simp) hne (indexed_ne ha hn) (fun c h => (hc c h).1) e
  have : s%"0" ∈ indexed a := by
    obtain ⟨l1, l2, rfl⟩ := List.append_of_mem hx
    rw [indexed_append, indexed, if_pos hxl]
    simp
  exact (hc s%"0" (by rw [← e2]; simp [this])).2 rfl

/-! ### The parser keeps it -/

theorem TitlesInv.modSub {st : SState} (hI : TitlesInv cfg s st) (nm : Str) (g : Sheet → Sheet)
    (hg : ∀ sh, (∀ k v, Dict.get sh.titles k = some v → Own cfg s k v ∨ IdKey cfg s k v) → (∀ c ∈ sh.columns, ∃ k, Dict.get sh.titles k = some c ∧ Own cfg s k c) →
      (∀ k v, Dict.get (g sh).titles k = some v → Own cfg s k v ∨ IdKey cfg s k v) ∧ ∀ c ∈ (g sh).columns, ∃ k, Dict.get (g sh).titles k = some c ∧ Own cfg s k c) :
    TitlesInv cfg s (st.modSub nm g) := by
  unfold SState.modSub
  split
  · next sh hsh =>
    obtain ⟨g1, g2⟩ := hg sh (hI.entry nm sh hsh) (hI.column nm sh hsh)
    refine ⟨hI.tree, ?_, ?_, hI.sheet⟩
    · intro nm' sh' hs'
      rw [Dict.get_set] at hs'
      split at hs'
      · cases hs'; exact g1
      · exact hI.entry nm' sh' hs'
    · intro nm' sh' hs'
      rw [Dict.get_set] at hs'
      split at hs'
      · cases hs'; exact g2
      · exact hI.column nm' sh' hs'
  · exact hI

theorem TitlesInv.addId (h : TitlesReturn cfg s idName rootId) {st : SState} (hI : TitlesInv cfg s st) (nm f : Str) (hf : IsId cfg s f) (lk : TitleTree)
    (hlk : TreeAll (GoodEntry cfg s) lk) : TitlesInv cfg s (addIdColumn lk nm st f) := by
  have hid : IdKey cfg s (lookupHeader lk f) f := ⟨hf, lk, hlk, rfl⟩
  refine hI.modSub nm _ (fun sh h1 h2 => ⟨?_, ?_⟩)
  · intro k v hg
    simp only [Dict.get_set] at hg
    split at hg
    · next he => cases hg; subst he; exact .inr hid
    · exact h1 k v hg
  · intro c hc
    have hc' : c ∈ sh.columns := by rw [← addField_cols' sh f]; exact hc
    obtain ⟨k, g1, g2⟩ := h2 c hc'
    refine ⟨k, ?_, g2⟩
    simp only [Dict.get_set]
    split
    · next he => subst he; exact (own_not_id h g2 hid).elim
    · exact g1

theorem TitlesInv.addOwn (h : TitlesReturn cfg s idName rootId) {st : SState} (hI : TitlesInv cfg s st) (nm k v : Str) (hk : Own cfg s k v) :
    TitlesInv cfg s (st.modSub nm (fun s => { s.addField v with titles := Dict.set s.titles k v })) := by
  refine hI.modSub nm _ (fun sh h1 h2 => ⟨?_, ?_⟩)
  · intro k' v' hg
    simp only [Dict.get_set] at hg
    split at hg
    · next he => cases hg; subst he; exact .inl hk
    · exact h1 k' v' hg
  · intro c hc
    have hc' : c ∈ sh.columns ∨ c = v := (addField_cols sh v c).1 hc
    rcases hc' with hc' | rfl
    · obtain ⟨k', g1, g2⟩ := h2 c hc'
      refine ⟨k', ?_, g2⟩
      simp only [Dict.get_set]
      split
      · next he => subst he; rw [own_unique h hk g2]
      · exact g1
    · exact ⟨k, by simp [Dict.get_set], hk⟩

theorem walk_titles (h : TitlesReturn cfg s idName rootId) (hu : cfg.useTitles = true) : Walk cfg (AtPlace cfg s) (TitlesInv cfg s) where
  object := fun hC hf hk => (walk_titles_place h hu hC).1 hf hk
  list := fun hC hf hk hi => (walk_titles_place h hu hC).2 _ hf hk hi
  title := by
    intro ctx x n p st hC hf hI
    obtain ⟨⟨steps, ht, rfl⟩, _⟩ := hC
    unfold noteTitle
    split
    · next a ha =>
      rw [effTitle_eq] at ha
      exact ⟨treeAll_set ⟨steps, p, a, reached_of h.start ht hf, ha, rfl⟩ _ _ hI.tree, hI.entry, hI.column, hI.sheet⟩
    · exact hI
  type := fun hI => ⟨hI.tree, hI.entry, hI.column, hI.sheet⟩
  warn := fun hI => ⟨hI.tree, hI.entry, hI.column, hI.sheet⟩
  opened := by
    intro ctx x n p st hC hf hk hI
    have hids := isId_below h hu hC
    obtain ⟨⟨steps, ht, rfl⟩, _⟩ := hC
    unfold openSubSheet
    dsimp only
    have hlk := treeAll_at (ctxAt cfg {} s steps).place st.lookup hI.tree
    have fold : ∀ (ids : List Str), (∀ f ∈ ids, IsId cfg s f) → ∀ st, TitlesInv cfg s st →
        ∀ lk, TreeAll (GoodEntry cfg s) lk → ∀ nm, TitlesInv cfg s (ids.foldl (addIdColumn lk nm) st) := by
      intro ids
      induction ids with
      | nil => intro _ st h _ _ _; exact h
      | cons f r ih =>
        intro hid st hI lk hlk nm
        exact ih (fun f hf => hid f (by simp [hf])) _ (hI.addId h nm f (hid f (by simp)) lk hlk) lk hlk nm
    refine fold _ hids _ ?_ _ hlk _
    have h1 : TitlesInv cfg s (noteSubTitle cfg (ctxAt cfg {} s steps) n (subNameOf cfg (ctxAt cfg {} s steps) n (titleOf p)) st) := by
      unfold noteSubTitle
      split
      · refine ⟨hI.tree, hI.entry, hI.column, ?_⟩
        intro key v hg
        simp only [Dict.get_set] at hg
        split at hg
        · next he => cases hg; exact ⟨steps, x, n, p, ht, hf, hk, he.symm, rfl⟩
        · exact hI.sheet key v hg
      · exact hI
    unfold ensureSub
    split
    · exact h1
    · refine ⟨h1.tree, ?_, ?_, h1.sheet⟩
      · intro nm sh hg
        simp only [Dict.get_set] at hg
        split at hg
        · cases hg; intro k v hg; cases hg
        · exact h1.entry nm sh hg
      · intro nm sh hg
        simp only [Dict.get_set] at hg
        split at hg
        · cases hg; intro c hc; cases hc
        · exact h1.column nm sh hg
  column := by
    intro ctx x n p i f t st hC hf hk hi hsh hI
    obtain ⟨⟨steps, ht, rfl⟩, _⟩ := hC
    have key : TitlesInv cfg s (addColumn cfg (ctxAt cfg {} s steps).parentPath n (titleOf p) (ctxAt cfg {} s steps).parentTitle
        (subNameOf cfg (ctxAt cfg {} s steps) n (titleOf p)) st f (truthy t)) := by
      unfold addColumn
      rw [if_pos hu]
      split
      · next c pt htr hpt =>
        have htc : t = some c := by
          have := shown_title hsh
          unfold truthy at htr
          split at htr
          · cases htr
          · exact htr
        subst htc
        split
        · next a ha =>
          refine hI.addOwn h _ _ _ ?_
          obtain ⟨st2, q2, n2, p2, ty, ht2, hf2, hk2, rfl, ht3, _⟩ := shown_trail hsh
          have htr2 : Trail cfg s (steps ++ ⟨n, p, true⟩ :: st2) q2 := ht.append (.list hf hk hi ht2)
          refine ⟨steps ++ ⟨n, p, true⟩ :: st2, n2, p2, reached_of h.start htr2 hf2, ?_, ?_, ⟨⟨n, p, true⟩, by simp, rfl⟩⟩
          · rw [ctxAt_path cfg steps {} s (fun x hx => (names_ok h.named h.start ht x hx).1)]
            rw [columnPath_eq, columnPath_eq, indexed_append, pnOf_append]
            simp [indexed, pnOf]
          · rw [ctxAt_title] at hpt
            have h2 : titlePath (⟨n, p, true⟩ :: st2) p2 = some (a ++ s%":" ++ c) := by
              rw [titlePath_cons, ← ht3, ha]; rfl
            obtain ⟨c', hc1, hc2⟩ := titlePrefix_some steps [] pt hpt _ _ _ h2
            rw [hc1]
            simp only [List.nil_append] at hc2
            rw [hc2]; simp
        · exact ⟨hI.tree, hI.entry, hI.column, hI.sheet⟩
      · exact ⟨hI.tree, hI.entry, hI.column, hI.sheet⟩
    unfold arrayField
    dsimp only
    split
    · exact ⟨key.tree, key.entry, key.column, key.sheet⟩
    · exact key

/-- What is noted at the end. -/
theorem parsed_titles (h : TitlesReturn cfg s idName rootId) (hu : cfg.useTitles = true) {sp : Parsed} (hp : parseRoot cfg s = .ok sp) :
    (∀ nm sh, Dict.get sp.subs nm = some sh → ∀ k v, Dict.get sh.titles k = some v → Own cfg s k v ∨ IdKey cfg s k v) ∧
    (∀ nm sh, Dict.get sp.subs nm = some sh → ∀ c ∈ sh.columns, ∃ k, Dict.get sh.titles k = some c ∧ Own cfg s k c) ∧
    ∀ steps q n p, Trail cfg s steps q → Field cfg q n p → kind cfg.wkt p = .objects →
      Dict.get sp.subTitles (pnOf (indexed steps), n) = some (subNameOf cfg (ctxAt cfg {} s steps) n (titleOf p)) := by
  unfold parseRoot at hp
  split at hp
  · cases hp
  · next ys st he =>
    simp only [Except.ok.injEq] at hp
    subst hp
    have hno := not_oneOf_of_starts h.start
    have hI := walks (walk_titles h hu) s _ _ _ _ hno ⟨⟨[], .here s, rfl⟩, fun _ h => (by cases h)⟩
      ⟨by simp [TreeAll, TreesAll], fun _ _ h => (by cases h), fun _ _ h => (by cases h), fun _ _ h => (by cases h)⟩ he
    refine ⟨hI.entry, hI.column, ?_⟩
    intro steps q n p ht hf hk
    have hpath : ∀ {steps q}, Trail cfg s steps q → (ctxAt cfg {} s steps).parentPath = pnOf (indexed steps) :=
      fun ht => ctxAt_path cfg _ {} s (fun x hx => (names_ok h.named h.start ht x hx).1)
    have hpt : (ctxAt cfg {} s steps).parentTitle ≠ none := by
      rw [ctxAt_title]
      have key : ∀ {s q : Schema} {steps : List Hop}, Trail cfg s steps q → GoodTitles cfg s → ∀ a, titlePrefix (some a) steps ≠ none := by
        intro s q steps ht
        induction ht with
        | here => intro _ a; simp [titlePrefix]
        | object h1 h2 h3 ih =>
          intro hg a
          obtain ⟨b, hb⟩ := hg.titled [] _ _ _ (.here _) h1 (.inl h2)
          have h := ih (good_object hg h1 h2) (a ++ (b ++ s%":"))
          simpa [titlePrefix, hb] using h
        | list h1 h2 h0 h3 ih =>
          intro hg a
          obtain ⟨b, hb⟩ := hg.titled [] _ _ _ (.here _) h1 (.inr h2)
          have h := ih (good_list hg h1 h2 h0) (a ++ (b ++ s%":"))
          simpa [titlePrefix, hb] using h
      exact key ht h.good []
    have hn := notes cfg s {} {} ys st steps q n p hno he ht hf hk hu hpt
    rw [hpath ht] at hn
    cases hg : Dict.get st.subTitles (pnOf (indexed steps), n) with
    | none => exact absurd hn (Dict.get_none_iff.1 hg)
    | some v =>
      obtain ⟨steps', q', n', p', ht', hf', hk', he1, rfl⟩ := hI.sheet _ _ hg
      rw [hpath ht'] at he1
      simp only [Prod.mk.injEq] at he1
      obtain ⟨he1, rfl⟩ := he1
      obtain ⟨rfl, _, rfl⟩ := columnPath_inj h (reached_of h.start ht hf) (reached_of h.start ht' hf') (by rw [columnPath_eq, columnPath_eq, he1])
      rfl

/-! ### What the titles of the sheets are -/

theorem title_inj (h : TitlesReturn cfg s idName rootId) {sp : Parsed} (hp : parseRoot cfg s = .ok sp) {a b : List Hop} {n m : Str} {p p' : Schema} {c : Str}
    (h1 : Reached cfg s a n p) (h2 : Reached cfg s b m p') (t1 : titlePath a p = some c) (t2 : titlePath b p' = some c) : a = b ∧ n = m ∧ p = p' := by
  have e1 := C36_titles_to_path cfg s sp hp h.start h.good h.plain a n p h1 c t1
  have e2 := C36_titles_to_path cfg s sp hp h.start h.good h.plain b m p' h2 c t2
  rw [e1, plainPath_eq, plainPath_eq] at e2
  obtain ⟨hn, ha⟩ := reached_name h h1
  obtain ⟨hm, hb⟩ := reached_name h h2
  exact reached_unique h h1 h2 (plain_inj ha hb hn hm e2)

/-- The title of a column of a sub-sheet. -/
theorem sub_title (h : TitlesReturn cfg s idName rootId) (hu : cfg.useTitles = true) {sp : Parsed} (hp : parseRoot cfg s = .ok sp)
    {pre suf : List Hop} {m n : Str} {x q p : Schema} (ht : Trail cfg s (pre ++ ⟨m, x, true⟩ :: suf) q) (hl : ∀ y ∈ suf, y.list = false) (hf : Field cfg q n p)
    {ty : CType} (hk : kind cfg.wkt p = .column ty) {c : Str} (hc : titlePath (pre ++ ⟨m, x, true⟩ :: suf) p = some c) :
    ∃ nm sh, Dict.get sp.subTitles (pnOf (indexed pre), m) = some nm ∧ Dict.get sp.subs nm = some sh ∧
      Dict.get sh.titles (columnPath (pre ++ ⟨m, x, true⟩ :: suf) n) = some c := by
  obtain ⟨h1, h2, h3⟩ := parsed_titles h hu hp
  obtain ⟨y, hpre, hrest⟩ := ht.split
  cases hrest with
  | @list _ _ i _ _ _ g1 g2 g3 g4 =>
    have hsh := trail_shown g4 hl hf hk
    have hst := h3 pre y m x hpre g1 g2
    refine ⟨subNameOf cfg (ctxAt cfg {} s pre) m (titleOf x), ?_⟩
    rw [hst]
    obtain ⟨pt, hpt, hce⟩ : ∃ pt, (ctxAt cfg {} s pre).parentTitle = some pt ∧ ∃ a b, titleOf x = some a ∧ titlePath suf p = some b ∧ c = pt ++ (a ++ s%":" ++ b) := by
      rw [ctxAt_title]
      have key : ∀ (l r : List Hop) (z : List Hop) (pfx c : Str), titlePath (l ++ ⟨m, x, true⟩ :: suf) p = some c →
          ∃ pt a b, titlePrefix (some pfx) l = some pt ∧ titleOf x = some a ∧ titlePath suf p = some b ∧ pfx ++ c = pt ++ (a ++ s%":" ++ b) := by
        intro l r z
        induction l with
        | nil =>
          intro pfx c hc
          rw [List.nil_append, titlePath_cons] at hc
          cases ha : titleOf x with
          | none => rw [ha] at hc; cases hc
          | some a =>
            rw [ha] at hc
            cases hb : titlePath suf p with
            | none => rw [hb] at hc; cases hc
            | some b =>
              rw [hb] at hc
              simp only [Option.bind_some, Option.map_some, Option.some.injEq] at hc
              exact ⟨pfx, a, b, rfl, rfl, rfl, by rw [hc]⟩
        | cons w l ih =>
          intro pfx c hc
          rw [List.cons_append, titlePath_cons] at hc
          cases ha : titleOf w.prop with
          | none => rw [ha] at hc; cases hc
          | some a =>
            rw [ha] at hc
            cases hb : titlePath (l ++ ⟨m, x, true⟩ :: suf) p with
            | none => rw [hb] at hc; cases hc
            | some b =>
              rw [hb] at hc
              simp only [Option.bind_some, Option.map_some, Option.some.injEq] at hc
              obtain ⟨pt, a', b', e1, e2, e3, e4⟩ := ih (pfx ++ (a ++ s%":")) b hb
              refine ⟨pt, a', b', ?_, e2, e3, ?_⟩
              · simpa [titlePrefix, ha] using e1
              · rw [← e4, ← hc]; simp
      obtain ⟨pt, a, b, e1, e2, e3, e4⟩ := key pre [] [] [] c hc
      exact ⟨pt, e1, a, b, e2, e3, by simpa using e4⟩
    obtain ⟨a, b, ha, hb, rfl⟩ := hce
    rw [hb] at hsh
    have hcol := ((sub_event hp (subNameOf cfg (ctxAt cfg {} s pre) m (titleOf x))).2.1 (pt ++ (a ++ s%":" ++ b))).2
      ⟨s, h.start, pev_trail.2 ⟨pre, y, m, x, hpre, g1, .col g2 g3 hsh (by
        have := ColOf.titled (cfg := cfg) (pp := (ctxAt cfg {} s pre).parentPath) (name := m) (title := titleOf x)
          (pt := (ctxAt cfg {} s pre).parentTitle) (f := columnPath suf n) (t := some b) hu hpt ha rfl
        simpa using this)⟩⟩
    obtain ⟨sh, hs1, hs2⟩ := hcol
    refine ⟨sh, rfl, hs1, ?_⟩
    obtain ⟨k, k1, k2⟩ := h2 _ sh hs1 _ hs2
    obtain ⟨steps', n', p', k3, rfl, k4, _⟩ := k2
    obtain ⟨rfl, rfl, rfl⟩ := title_inj h hp (reached_of h.start ht hf) k3 hc k4
    exact k1

/-- The titles of the main sheet. -/
theorem main_titles_get (hu : cfg.useTitles = true) (ys : List Yield) (sh : Sheet) (w : List SWarn) (k v : Str)
    (hg : Dict.get (mainFields cfg ys (sh, w)).1.titles k = some v) : Dict.get sh.titles k = some v ∨ (k, some v) ∈ ys := by
  induction ys generalizing sh w with
  | nil => exact .inl hg
  | cons y r ih =>
    obtain ⟨f, t⟩ := y
    simp only [mainFields, hu, if_true] at hg
    split at hg
    · next d ds =>
      rcases ih _ _ hg with hg | hg
      · simp only [Dict.get_set] at hg
        split at hg
        · next he => cases hg; subst he; exact .inr (by simp)
        · exact .inl hg
      · exact .inr (by simp [hg])
    · rcases ih _ _ hg with hg | hg
      · exact .inl hg
      · exact .inr (by simp [hg])

theorem main_titles_has (hu : cfg.useTitles = true) (ys : List Yield) (sh : Sheet) (w : List SWarn) (k v : Str)
    (hy : k ∈ Dict.keys sh.titles ∨ ((k, some v) ∈ ys ∧ v ≠ [])) : k ∈ Dict.keys (mainFields cfg ys (sh, w)).1.titles := by
  induction ys generalizing sh w with
  | nil => exact hy.resolve_right (by simp)
  | cons y r ih =>
    obtain ⟨f, t⟩ := y
    simp only [mainFields, hu, if_true]
    split
    · next d ds =>
      refine ih _ _ ?_
      rcases hy with hy | ⟨hy, hv⟩
      · exact .inl (Dict.mem_keys_set.2 (.inr hy))
      · rcases List.mem_cons.1 hy with hy | hy
        · simp only [Prod.mk.injEq] at hy
          exact .inl (Dict.mem_keys_set.2 (.inl hy.1))
        · exact .inr ⟨hy, hv⟩
    · next hno =>
      refine ih _ _ ?_
      rcases hy with hy | ⟨hy, hv⟩
      · exact .inl hy
      · rcases List.mem_cons.1 hy with hy | hy
        · simp only [Prod.mk.injEq] at hy
          cases v with
          | nil => exact absurd rfl hv
          | cons d ds => exact absurd hy.2.symm (hno d ds)
        · exact .inr ⟨hy, hv⟩

/-- The title of a column of the main sheet. -/
theorem main_title (h : TitlesReturn cfg s idName rootId) (hu : cfg.useTitles = true) {sp : Parsed} (hp : parseRoot cfg s = .ok sp)
    {steps : List Hop} {n : Str} {q p : Schema} (ht : Trail cfg s steps q) (hl : ∀ y ∈ steps, y.list = false) (hf : Field cfg q n p)
    {ty : CType} (hk : kind cfg.wkt p = .column ty) {c : Str} (hc : titlePath steps p = some c) :
    Dict.get sp.main.titles (columnPath steps n) = some c := by
  obtain ⟨ys, st, h1, h2, _⟩ := parseRoot_ok hp
  obtain ⟨hys, _⟩ := parseSchema_root h1
  have hsh := trail_shown ht hl hf hk
  have hm := (hys _ _).2 ⟨s, h.start, hsh⟩
  rw [hc] at hm hsh
  have hne : c ≠ [] := fun e => shown_title hsh (by rw [e])
  have hkey := main_titles_has hu ys {} [] (columnPath steps n) c (.inr ⟨hm, hne⟩)
  rw [h2]
  cases hg : Dict.get (mainFields cfg ys ({}, [])).1.titles (columnPath steps n) with
  | none => exact absurd hkey (Dict.get_none_iff.1 hg)
  | some v =>
    rcases main_titles_get hu ys {} [] _ _ hg with hg | hg
    · cases hg
    · obtain ⟨r, hr, hs⟩ := (hys _ _).1 hg
      obtain rfl := starts_only h.start hr
      obtain ⟨st2, q2, n2, p2, ty2, ht2, hf2, hk2, e1, e2, _⟩ := shown_trail hs
      obtain ⟨rfl, rfl, rfl⟩ := columnPath_inj h (reached_of h.start ht hf) (reached_of h.start ht2 hf2) e1
      rw [← e2] at hc
      exact hc

/-- Titles of ids are not titles of anything else. -/
theorem id_title (h : TitlesReturn cfg s idName rootId) (hu : cfg.useTitles = true) {sp : Parsed} (hp : parseRoot cfg s = .ok sp)
    {steps : List Hop} {n : Str} {p : Schema} (hr : Reached cfg s steps n p) (hn : n = idName ∨ rootId = some n)
    {c : Str} (hc : titlePath steps p = some c) {nm : Str} {sh : Sheet} (hs : Dict.get sp.subs nm = some sh) {v : Str} (hv : Dict.get sh.titles c = some v) : v = c := by
  obtain ⟨h1, _, _⟩ := parsed_titles h hu hp
  -- the parts of the heading
  obtain ⟨r, q, hr0, ht, hf⟩ := id hr
  obtain rfl := starts_only h.start hr0
  obtain ⟨parts, e1, e2, e3⟩ := titlesText_heading (steps.map (fun x => (x.name, x.prop)) ++ [(n, p)]) c (by simpa [titlePath, Function.comp_def] using hc) (fun x hx a ha => by
    rcases List.mem_append.1 hx with hx | hx
    · obtain ⟨y, hy, rfl⟩ := List.mem_map.1 hx
      obtain ⟨l1, l2, q', _, g1, g2⟩ := ht.fields y hy
      exact h.plain l1 y.name y.prop a (reached_of h.start g1 g2) ha
    · rw [List.mem_singleton.1 hx] at ha
      exact h.plain steps n p a hr ha)
  have hslash : '/' ∉ c := by
    have key : ∀ (l : List Schema) (c : Str), (∀ x ∈ l, ∀ a, titleOf x = some a → '/' ∉ a) → titlesText l = some c → '/' ∉ c := by
      intro l
      induction l with
      | nil => intro c _ hc; simp [titlesText] at hc
      | cons x t ih =>
        intro c hx hc
        cases t with
        | nil => exact hx x (by simp) c hc
        | cons y t' =>
          rw [titlesText] at hc
          · cases ha : titleOf x with
            | none => rw [ha] at hc; cases hc
            | some a =>
              rw [ha] at hc
              simp only [Option.bind_some, Option.map_eq_some_iff] at hc
              obtain ⟨b, hb, rfl⟩ := hc
              have k1 := hx x (by simp) a ha
              have k2 := ih b (fun z hz => hx z (by simp [hz])) hb
              simp [k1, k2]
          · simp
    refine key _ c ?_ hc
    intro x hx a ha
    rcases List.mem_append.1 hx with hx | hx
    · obtain ⟨y, hy, rfl⟩ := List.mem_map.1 hx
      obtain ⟨l1, l2, q', _, g1, g2⟩ := ht.fields y hy
      exact h.noSlash l1 y.name y.prop a (reached_of h.start g1 g2) ha
    · rw [List.mem_singleton.1 hx] at ha
      exact h.noSlash steps n p a hr ha
  rcases h1 nm sh hs c v hv with hown | hid
  · exfalso
    obtain ⟨a, m, p', k1, k2, k3, x, hx, hxl⟩ := hown
    have : '/' ∈ columnPath a m := by
      obtain ⟨l1, l2, rfl⟩ := List.append_of_mem hx
      rw [columnPath_eq, indexed_append, indexed, if_pos hxl, pnOf_append]
      simp [pnOf]
    rw [← k2] at this
    exact hslash this
  · obtain ⟨steps', q', p', ts, comps, k1, k2, k3, k4, k5, k6, k7, k8⟩ := idKey_parts h hid
    -- one component
    have hone : ∃ y, comps = [y] := by
      cases comps with
      | nil => exact absurd rfl k6
      | cons y r =>
        cases r with
        | nil => exact ⟨y, rfl⟩
        | cons z r =>
          exfalso
          apply hslash
          rw [k5, join_cons _ (by simp)]
          simp
    obtain ⟨y, rfl⟩ := hone
    have hts : ts = [] := by
      cases ts with
      | nil => rfl
      | cons t ts => cases k8 with | cons _ h => cases ts <;> cases h
    subst hts
    have hcy : c = y := by rw [k5]; simp [Py.join]
    subst hcy
    have hsteps : steps' = [] := by simpa using k3.symm
    subst hsteps
    cases k1
    simp only [List.nil_append] at k8 k4
    have hv' : v = (titleOf p').getD s%"id" := by rw [k4]; simp [Py.join]
    -- the heading has no colon, so it is a title of a root property
    cases k8 with
    | cons hyy _ =>
    have hre : Reached cfg r [] s%"id" p' := reached_of h.start (.here _) k2
    rcases hyy with hyy | ⟨st2, p2, a2, g1, g2, g3⟩
    · -- the title of the id, without spaces at its ends
      have hcolon : ':' ∉ c := by
        intro hcc
        rw [hyy] at hcc
        have := mem_strip hcc
        cases htl : titleOf p' with
        | none => rw [htl] at this; revert this; decide
        | some a => rw [htl] at this; exact (h.plain _ _ _ _ hre htl).1 this
      have hst : steps = [] := by
        cases steps with
        | nil => rfl
        | cons w l =>
          exfalso
          rw [titlePath_cons] at hc
          cases ha : titleOf w.prop with
          | none => rw [ha] at hc; cases hc
          | some a =>
            rw [ha] at hc
            simp only [Option.bind_some, Option.map_eq_some_iff] at hc
            obtain ⟨b, _, rfl⟩ := hc
            apply hcolon; simp
      subst hst
      cases ht
      have hcp : titleOf p = some c := by simpa [titlePath, titlesText] using hc
      cases htl : titleOf p' with
      | none =>
        rw [htl] at hyy hv'
        rw [hv', hyy]
        decide +kernel
      | some a =>
        rw [htl] at hyy hv'
        have hsame : SameTitle c a := by
          have := normTitle_strip a
          rw [hyy]; exact this
        have hnn := h.good.different [] r n p c s%"id" p' a (.here _) hf k2 hcp htl hsame
        subst hnn
        have := field_unique (h.good.dict [] r (.here _)) hf k2
        subst this
        rw [hcp] at htl
        cases htl
        exact hv'
    · by_cases hcase : steps ≠ [] ∨ n ≠ s%"id"
      · exact absurd hc (h.apart p' k2 steps n p hr hcase hn st2 c p2 a2 g1 g2 g3)
      · have hst : steps = [] := by grind
        have hnn : n = s%"id" := by grind
        subst hst hnn
        cases ht
        have := field_unique (h.good.dict [] r (.here _)) hf k2
        subst this
        have hcp : titleOf p = some c := by simpa [titlePath, titlesText] using hc
        rw [hv', hcp]; rfl

end Verif
