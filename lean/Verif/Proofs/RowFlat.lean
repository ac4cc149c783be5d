import Verif.Proofs.Label
import Verif.Proofs.Built
/-! The object of a row whose columns fit together, with labels for its array items. -/
namespace Verif
open Spec

/-! ### Placing cannot fail when the value fits -/

theorem mapW_of_ok {f : RFields → RFields} {w w0 : List Warn} {r : Except Err (RFields × List Warn)} {c : RFields}
    (h : r = .ok (c, w0)) : mapW f w r = .ok (f c, w ++ w0) := by rw [h]; rfl

theorem place_ok {cfg : RowCfg} (hx : cfg.xml = false) {path : Str} (a : Addr) : ∀ {pre comps : List Str} {cell : Cell} {cur cur' : RFields}
    {v : Val} {w' : List Warn}, address cfg.types (keysOf pre) comps = some a →
    convertCell cfg (cfg.types (Py.join s%"/" (keysOf pre ++ a.keys))) cell.value = .ok (v, w') → v.blank = false →
    putAt a { cell with value := v } cur = some cur' → place cfg path pre comps cell cur = .ok (cur', w') := by
  induction a with
  | nil => intro pre comps cell cur cur' v w' ha; exact (good_of_address _ _ _ ha).elim
  | cons s a ih =>
    intro pre comps cell cur cur' v w' ha hv hb hput
    obtain ⟨key, rest, rfl, hkey, hcase⟩ := address_some ha
    have hct : ∀ till next, currentType cfg path till cell next = cfg.types till := by
      intro till next; unfold currentType; split <;> simp [hx]
    have hkp : keysOf (pre ++ [key]) = keysOf pre ++ [key] := by rw [keysOf_append, keysOf_single (by simp [hkey])]
    rw [place]
    simp only [hkey, Bool.false_eq_true, if_false, hct, pathTillNow_keys, hkp, hx, Bool.not_false, Bool.true_or, if_true]
    rcases hcase with ⟨rfl, hna, hno, hs⟩ | ⟨next, rest', i, a', rfl, hi, hty, ha', hs⟩ | ⟨a', hi, hne, hty, ha', hs⟩ | ⟨a', hi, hne, hty, ha', hs⟩
    · injection hs with hs1 hs2
      subst hs1 hs2
      have hint : Py.int? ([] : Str) = none := by decide
      simp only [List.headD_nil, hint, Option.isSome_none, Bool.false_and, Bool.false_eq_true, if_false, arrayIndex, hna, hno, ne_eq,
        not_true, and_false, or_false, if_false]
      have hk1 : keysOf pre ++ Addr.keys [(key, none)] = keysOf pre ++ [key] := rfl
      rw [hk1] at hv
      simp only [putAt, if_true] at hput
      by_cases hbl : leafBlocked false (Dict.get cur key) = true
      · rw [if_pos hbl] at hput; cases hput
      · rw [if_neg hbl] at hput
        simp only [Option.some.injEq] at hput
        subst hput
        simp [placeLeaf, hx, hbl, hv, hb, putCell, place, mapW]
    · injection hs with hs1 hs2
      subst hs1 hs2
      have hty' : ((Py.int? ((next :: rest').headD [])).isSome && !(cfg.types (Py.join s%"/" (keysOf pre ++ [key])) == none || cfg.types (Py.join s%"/" (keysOf pre ++ [key])) == some .array)) = false := by
        rcases hty with e | e <;> simp [e]
      rw [hty']
      have hai : arrayIndex ((next :: rest').headD []) (cfg.types (Py.join s%"/" (keysOf pre ++ [key]))) = some i := by simp [arrayIndex, hi]
      rw [hai]
      simp only [Bool.false_eq_true, if_false]
      simp only [putAt] at hput
      cases hl : ladAt cur key with
      | none => rw [hl] at hput; simp at hput
      | some is =>
        rw [hl] at hput; simp only at hput ⊢
        cases hp : putAt a { cell with value := v } ((Dict.get is i).getD []) with
        | none => rw [hp] at hput; simp at hput
        | some inner' =>
          rw [hp] at hput
          simp only [Option.map_some, Option.some.injEq] at hput
          subst hput
          have hnint : isint next = true := by simp [isint, hi]
          have hpe : (pre ++ [key]).isEmpty = false := by cases pre <;> rfl
          have hk3 : keysOf (pre ++ [key] ++ [next]) = keysOf pre ++ [key] := by rw [keysOf_append, hkp, keysOf_single_int hnint]; simp
          have hkk : keysOf pre ++ [key] ++ Addr.keys a = keysOf pre ++ Addr.keys ((key, some i) :: a) := by simp [Addr.keys]
          have hw := ih (pre := pre ++ [key] ++ [next]) (by rw [hk3]; exact ha') (by rw [hk3, hkk]; exact hv) hb hp
          have hw2 : place cfg path (pre ++ [key]) (next :: rest') cell ((Dict.get is i).getD []) = .ok (inner', w') := by
            rw [place]
            simp only [hnint, if_true, hpe, Bool.false_eq_true, if_false]
            rw [hw]; rfl
          rw [hw2]; rfl
    · injection hs with hs1 hs2
      subst hs1 hs2
      have hai : arrayIndex (rest.headD []) (cfg.types (Py.join s%"/" (keysOf pre ++ [key]))) = some (-1) := by simp only [arrayIndex, hi, hty]; rfl
      rw [hai]
      simp only [hi, Option.isSome_none, Bool.false_and, Bool.false_eq_true, if_false]
      simp only [putAt] at hput
      cases hl : ladAt cur key with
      | none => rw [hl] at hput; simp at hput
      | some is =>
        rw [hl] at hput; simp only at hput ⊢
        cases hp : putAt a { cell with value := v } ((Dict.get is (-1)).getD []) with
        | none => rw [hp] at hput; simp at hput
        | some inner' =>
          rw [hp] at hput
          simp only [Option.map_some, Option.some.injEq] at hput
          subst hput
          have hkk : keysOf pre ++ [key] ++ Addr.keys a = keysOf pre ++ Addr.keys ((key, some (-1)) :: a) := by simp [Addr.keys]
          have hw := ih (pre := pre ++ [key]) (by rw [hkp]; exact ha') (by rw [hkp, hkk]; exact hv) hb hp
          rw [hw]; rfl
    · injection hs with hs1 hs2
      subst hs1 hs2
      have hna : cfg.types (Py.join s%"/" (keysOf pre ++ [key])) ≠ some .array := by rcases hty with e | e <;> rw [e] <;> simp
      have hai : arrayIndex (rest.headD []) (cfg.types (Py.join s%"/" (keysOf pre ++ [key]))) = none := by simp only [arrayIndex, hi, hna, if_false]
      rw [hai]
      have hcond : cfg.types (Py.join s%"/" (keysOf pre ++ [key])) = some .object ∨
          (cfg.types (Py.join s%"/" (keysOf pre ++ [key])) = none ∧ rest.headD [] ≠ []) := by
        rcases hty with e | e
        · exact .inr ⟨e, hne⟩
        · exact .inl e
      simp only [hi, Option.isSome_none, Bool.false_and, Bool.false_eq_true, if_false]
      rw [if_pos hcond]
      have hane : a ≠ [] := by
        intro h; subst h; exact (good_of_address _ _ _ ha').elim
      simp only [putAt, hane, if_false] at hput
      cases hl : objAt cur key with
      | none => rw [hl] at hput; simp at hput
      | some is =>
        rw [hl] at hput; simp only at hput ⊢
        cases hp : putAt a { cell with value := v } is with
        | none => rw [hp] at hput; simp at hput
        | some inner' =>
          rw [hp] at hput
          simp only [Option.map_some, Option.some.injEq] at hput
          subst hput
          have hkk : keysOf pre ++ [key] ++ Addr.keys a = keysOf pre ++ Addr.keys ((key, none) :: a) := by simp [Addr.keys]
          have hw := ih (pre := pre ++ [key]) (by rw [hkp]; exact ha') (by rw [hkp, hkk]; exact hv) hb hp
          rw [hw]; rfl

theorem contentOf_addr {cfg : RowCfg} {cs : List Column} {a : Addr} {v : Val} (h : contentOf cfg cs a = some v) :
    ∃ c ∈ cs, c.addr cfg = some a ∧ ∃ w, c.value cfg = .ok (v, w) := by
  unfold contentOf at h
  split at h
  · next c hc =>
    have h1 := List.mem_of_find?_eq_some hc
    have h2 := List.find?_some hc
    simp only [beq_iff_eq] at h2
    split at h
    · next v' w hv => simp only [Option.some.injEq] at h; subst h; exact ⟨c, h1, h2, w, hv⟩
    · cases h
  · cases h

theorem placeAll_ok {cfg : RowCfg} (hx : cfg.xml = false) (cells : List (Str × Cell)) :
    ∀ {done : List Column} {cur : RFields},
    (∀ c ∈ cells, ∃ a, c.2.value = .atom a) →
    (∀ c ∈ done ++ cellColumns cells, c.addr cfg ≠ none) →
    (∀ c ∈ cellColumns cells, ∃ v w, c.value cfg = .ok (v, w) ∧ v.blank = false) →
    ((done ++ cellColumns cells).map (fun c => (c.addr cfg).getD [])).Pairwise Compatible →
    PutInv cfg done cur → ∃ cur' w, placeAll cfg cells cur = .ok (cur', w) ∧ PutInv cfg (done ++ cellColumns cells) cur' ∧
      ∀ x ∈ w, ∃ c ∈ cellColumns cells, ∃ v w', c.value cfg = .ok (v, w') ∧ x ∈ w' := by
  induction cells with
  | nil =>
    intro done cur _ _ _ _ hinv
    exact ⟨cur, [], rfl, by simpa [cellColumns] using hinv, by simp⟩
  | cons e cells ih =>
    intro done cur hatom haddr hconv hcom hinv
    obtain ⟨path, cell⟩ := e
    rw [placeAll]
    by_cases hb : cell.value.blank = true
    · rw [if_pos hb]
      have hcc : cellColumns ((path, cell) :: cells) = cellColumns cells := by simp [cellColumns, hb]
      rw [hcc] at haddr hconv hcom ⊢
      exact ih (fun c hc => hatom c (List.mem_cons_of_mem _ hc)) haddr hconv hcom hinv
    · rw [if_neg hb]
      have hb' : cell.value.blank = false := by simpa using hb
      obtain ⟨at0, hat⟩ := hatom (path, cell) List.mem_cons_self
      simp only at hat
      have hcc : cellColumns ((path, cell) :: cells) = ⟨path, at0⟩ :: cellColumns cells := by
        rw [cellColumns, List.filter_cons_of_pos (by simp [hb'])]; simp [hat, atomOf, cellColumns]
      rw [hcc] at haddr hconv hcom ⊢
      obtain ⟨a0, ha0⟩ : ∃ a0, (⟨path, at0⟩ : Column).addr cfg = some a0 := by
        have := haddr ⟨path, at0⟩ (by simp)
        cases h : (⟨path, at0⟩ : Column).addr cfg with
        | none => exact absurd h this
        | some a => exact ⟨a, rfl⟩
      have hgood := good_of_address _ _ _ ha0
      obtain ⟨v, w', hv, hvb⟩ := hconv ⟨path, at0⟩ (by simp)
      have hval : ∀ t, convertCell cfg (cfg.types t) cell.value = convertType cfg.conv ((cfg.types t).getD .untyped) at0 := by
        intro t; rw [hat]; simp [convertCell, hx]
      have hcv : convertCell cfg (cfg.types (Py.join s%"/" (keysOf [] ++ a0.keys))) cell.value = .ok (v, w') := by
        rw [hval]
        have := hv
        unfold Column.value at this
        rw [ha0] at this
        exact this
      have hcom' : ∀ d ∈ done, Compatible ((d.addr cfg).getD []) a0 := by
        intro d hd
        rw [List.map_append, List.pairwise_append] at hcom
        have := hcom.2.2 _ (List.mem_map.2 ⟨d, hd, rfl⟩) a0 (by simp [ha0])
        exact this
      obtain ⟨cur1, hput⟩ : ∃ cur1, putAt a0 { cell with value := v } cur = some cur1 := by
        cases hp : putAt a0 { cell with value := v } cur with
        | some c => exact ⟨c, rfl⟩
        | none =>
          exfalso
          obtain ⟨b, c', h1, h2⟩ := putAt_none hinv.full hgood hp
          have h3 := hinv.content b
          rw [h1] at h3
          obtain ⟨d, hd, h4, _⟩ := contentOf_addr h3.symm
          have := hcom' d hd
          rw [h4] at this
          exact h2 (Spec.Compatible.symm _ _ this)
      have hpl := place_ok hx (path := path) a0 (pre := []) ha0 hcv hvb hput
      have hnew : ∀ d ∈ done, d.addr cfg ≠ some a0 := by
        intro d hd he
        have := hcom' d hd
        rw [he] at this
        exact compatible_irrefl _ this
      have hinv1 : PutInv cfg (done ++ [⟨path, at0⟩]) cur1 := by
        refine ⟨(putAt_full hinv.full hput).1, ?_⟩
        intro a
        rw [rget_putAt hgood hput, contentOf_snoc done _ ha0 hv hnew]
        by_cases h : a = a0
        · simp [h]
        · simp only [if_neg h]; exact hinv.content a
      obtain ⟨cur2, w2, h1, h2, h3⟩ := ih (done := done ++ [⟨path, at0⟩]) (fun c hc => hatom c (List.mem_cons_of_mem _ hc))
        (by simpa using haddr) (fun c hc => hconv c (List.mem_cons_of_mem _ hc)) (by simpa using hcom) hinv1
      refine ⟨cur2, w' ++ w2, ?_, by simpa using h2, ?_⟩
      · rw [hpl]; simp only [h1]
      · intro x hx
        rcases List.mem_append.1 hx with hx | hx
        · exact ⟨_, by simp, v, w', hv, hx⟩
        · obtain ⟨c, hc, h⟩ := h3 x hx
          exact ⟨c, by simp [hc], h⟩

/-! ### Labels for the items of a row -/

mutual
/-- The tree of a row, with the items of arrays labelled by depth. -/
def labT (ls : List Val) : RTree → Tree
  | .cell c => .cell c
  | .obj fs => .obj (labF ls fs)
  | .lad is => .tmp (labI ls is) []
def labF (ls : List Val) : List (Str × RTree) → List (Str × Tree)
  | [] => []
  | (k, t) :: r => (k, labT ls t) :: labF ls r
def labI (ls : List Val) : List (Int × List (Str × RTree)) → List (Val × List (Str × Tree))
  | [] => []
  | (_, fs) :: r => (ls.headD (.atom .none), labF ls.tail fs) :: labI ls r
end

theorem labF_map (ls : List Val) (fs : RFields) : labF ls fs = fs.map (fun e => (e.1, labT ls e.2)) := by
  induction fs with
  | nil => rfl
  | cons e r ih => obtain ⟨k, t⟩ := e; simp [labF, ih]

theorem get_labF (ls : List Val) (fs : RFields) (k : Str) : Dict.get (labF ls fs) k = (Dict.get fs k).map (labT ls) := by
  rw [labF_map, Dict.get_map_snd]

theorem keys_labF (ls : List Val) (fs : RFields) : Dict.keys (labF ls fs) = Dict.keys fs := by
  rw [labF_map]; simp [Dict.keys, List.map_map, Function.comp_def]

/-- The label of an item is its id, or it has no id. -/
def IdIs (n : Str) (l : Val) (g : RFields) : Prop :=
  l.hashable = true ∧ (∃ c, Dict.get g n = some (.cell c) ∧ c.value = l) ∨ l.hashable = false ∧ Dict.get g n = none

/-- Arrays have one item, labelled according to its id. -/
inductive Shape (n : Str) : List Val → RTree → Prop
  | cell {ls c} : Shape n ls (.cell c)
  | obj {ls g} : (∀ e ∈ g, Shape n ls e.2) → Shape n ls (.obj g)
  | lad {l ls g} : (∀ e ∈ g, Shape n ls e.2) → IdIs n l g → l.pyEq l = true → Shape n (l :: ls) (.lad [(0, g)])

/-- How many arrays a position crosses. -/
def crossed (a : Addr) : Nat := (a.filter (fun s => s.2.isSome)).length

/-- The content fits the labels: only index 0 is used, and each item has its label as id, or neither. -/
structure LabC (n : Str) (ls : List Val) (f : Content) : Prop where
  zero : ∀ a v, f a = some v → ∀ s ∈ a, ∀ i, s.2 = some i → i = 0
  depth : ∀ a v, f a = some v → crossed a ≤ ls.length
  label : ∀ A k B v l, f (A ++ (k, some 0) :: B) = some v → ls[crossed A]? = some l →
    l.pyEq l = true ∧ (l.hashable = true ∧ f (A ++ [(k, some 0), (n, none)]) = some l ∨
      l.hashable = false ∧ ∀ ix B', f (A ++ (k, some 0) :: (n, ix) :: B') = none)

theorem LabC.lift {n : Str} {ls : List Val} {rf : RFields} (h : LabC n ls (content rf)) {k : Str} {t : RTree} (hk : Dict.get rf k = some t) :
    LabC n ls (Verif.lift t) := by
  have key : ∀ k' ix rest, Verif.lift t ((k', ix) :: rest) = content rf ((k, ix) :: rest) := fun k' ix rest => (content_cons hk ix rest).symm
  refine ⟨?_, ?_, ?_⟩
  · intro a v ha s hs i hi
    cases a with
    | nil => cases hs
    | cons x a =>
      obtain ⟨k', ix⟩ := x
      rw [key] at ha
      rcases List.mem_cons.1 hs with rfl | hs
      · exact h.zero _ _ ha (k, ix) (List.mem_cons_self ..) i hi
      · exact h.zero _ _ ha s (List.mem_cons_of_mem _ hs) i hi
  · intro a v ha
    cases a with
    | nil => simp [crossed]
    | cons x a =>
      obtain ⟨k', ix⟩ := x
      rw [key] at ha
      have := h.depth _ _ ha
      cases ix <;> simpa [crossed, List.filter_cons] using this
  · intro A k' B v l ha hl
    cases A with
    | nil =>
      simp only [List.nil_append] at ha ⊢
      rw [key] at ha
      have := h.label [] k B v l ha hl
      simpa only [List.nil_append, key] using this
    | cons x A =>
      obtain ⟨k2, ix⟩ := x
      simp only [List.cons_append] at ha ⊢
      rw [key] at ha
      have := h.label ((k, ix) :: A) k' B v l ha (by cases ix <;> simpa [crossed, List.filter_cons] using hl)
      simpa only [List.cons_append, key] using this

theorem LabC.obj {n : Str} {ls : List Val} {g : RFields} (h : LabC n ls (Verif.lift (.obj g))) : LabC n ls (content g) := by
  have key : ∀ rest, content g rest = Verif.lift (.obj g) (([], none) :: rest) := fun rest => by simp [Verif.lift, ct, content]
  refine ⟨?_, ?_, ?_⟩
  · intro a v ha s hs i hi
    rw [key] at ha
    exact h.zero _ _ ha s (List.mem_cons_of_mem _ hs) i hi
  · intro a v ha
    rw [key] at ha
    simpa [crossed] using h.depth _ _ ha
  · intro A k' B v l ha hl
    rw [key] at ha
    have := h.label (([], none) :: A) k' B v l ha (by simpa [crossed] using hl)
    simpa only [key, List.cons_append] using this

theorem LabC.lad {n : Str} {l : Val} {ls : List Val} {g : RFields} (h : LabC n (l :: ls) (Verif.lift (.lad [(0, g)]))) : LabC n ls (content g) := by
  have key : ∀ rest, content g rest = Verif.lift (.lad [(0, g)]) (([], some 0) :: rest) := fun rest => by simp [Verif.lift, ct, content, Dict.get_cons]
  refine ⟨?_, ?_, ?_⟩
  · intro a v ha s hs i hi
    rw [key] at ha
    exact h.zero _ _ ha s (List.mem_cons_of_mem _ hs) i hi
  · intro a v ha
    rw [key] at ha
    simpa [crossed] using h.depth _ _ ha
  · intro A k' B v l' ha hl
    rw [key] at ha
    have := h.label (([], some 0) :: A) k' B v l' ha (by simpa [crossed] using hl)
    simpa only [key, List.cons_append] using this

theorem shape_of (n : Str) (t : RTree) : ∀ ls, RFull t → LabC n ls (lift t) → Shape n ls t := by
  induction t using RTree.ind with
  | cell c => intro ls _ _; exact .cell
  | obj g ih =>
    intro ls hf hl
    obtain ⟨_, hg⟩ := hf
    refine .obj fun e he => ?_
    have hge : Dict.get g e.1 = some e.2 := Dict.get_of_mem (rfullF_iff.1 hg).1 he
    exact ih e he ls ((rfullF_iff.1 hg).2 _ _ hge) (hl.obj.lift hge)
  | lad is ih =>
    intro ls hf hl
    obtain ⟨hne, hi⟩ := hf
    rw [rfullI_iff] at hi
    have hcell : ∀ e ∈ is, ∃ a c, lift (.lad is) (([], some e.1) :: a) = some c := by
      intro e he
      have hge : Dict.get is e.1 = some e.2 := Dict.get_of_mem hi.1 he
      obtain ⟨h1, h2⟩ := hi.2 _ _ hge
      obtain ⟨a, c, hac⟩ := exists_rget h2 h1
      exact ⟨a, c.value, by simp [Verif.lift, ct, hge, hac]⟩
    have h0 : ∀ e ∈ is, e.1 = 0 := by
      intro e he
      obtain ⟨a, c, hac⟩ := hcell e he
      exact hl.zero _ _ hac _ (List.mem_cons_self ..) e.1 rfl
    have hone : ∃ g, is = [(0, g)] := by
      cases is with
      | nil => exact absurd rfl hne
      | cons e r =>
        cases r with
        | nil => exact ⟨e.2, by have := h0 e (by simp); rw [← this]⟩
        | cons e' r =>
          exfalso
          have h1 := h0 e (by simp)
          have h2 := h0 e' (by simp)
          have := hi.1
          simp [Dict.keys, h1, h2] at this
    obtain ⟨g, rfl⟩ := hone
    obtain ⟨a, c, hac⟩ := hcell (0, g) (by simp)
    obtain ⟨hgne, hg⟩ := hi.2 0 g (by simp [Dict.get_cons])
    cases ls with
    | nil =>
      have := hl.depth _ _ hac
      simp [crossed] at this
    | cons l ls =>
      obtain ⟨hs, hlab⟩ := hl.label [] [] a c l hac (by simp [crossed])
      have hgc : ∀ rest, Verif.lift (.lad [(0, g)]) (([], some 0) :: rest) = content g rest := fun rest => by simp [Verif.lift, ct, content, Dict.get_cons]
      simp only [List.nil_append, hgc] at hlab
      refine .lad (fun e he => ?_) ?_ hs
      · have hge : Dict.get g e.1 = some e.2 := Dict.get_of_mem (rfullF_iff.1 hg).1 he
        exact ih (0, g) (by simp) e he ls ((rfullF_iff.1 hg).2 _ _ hge) (hl.lad.lift hge)
      · rcases hlab with ⟨h1, h2⟩ | ⟨h1, h2⟩
        · left
          refine ⟨h1, ?_⟩
          cases hgn : Dict.get g n with
          | none => rw [content_none hgn] at h2; cases h2
          | some t =>
            rw [content_cons hgn] at h2
            cases t with
            | cell c => simp only [ct, and_self, if_true, Option.some.injEq] at h2; exact ⟨c, rfl, h2⟩
            | obj f => simp [ct, rget] at h2
            | lad i => simp [ct] at h2
        · right
          refine ⟨h1, ?_⟩
          cases hgn : Dict.get g n with
          | none => rfl
          | some t =>
            exfalso
            obtain ⟨ix, a', c', hc'⟩ := exists_cell t ((rfullF_iff.1 hg).2 _ _ hgn)
            have := h2 ix a'
            unfold content at this
            rw [hc' g n hgn] at this
            simp at this

theorem shapes_of (n : Str) (ls : List Val) (rf : RFields) (hf : RFullF rf) (h : LabC n ls (content rf)) : ∀ e ∈ rf, Shape n ls e.2 := by
  intro e he
  have hge : Dict.get rf e.1 = some e.2 := Dict.get_of_mem (rfullF_iff.1 hf).1 he
  exact shape_of n e.2 ls ((rfullF_iff.1 hf).2 _ _ hge) (h.lift hge)

/-- The row as the program builds it: the labelled row without the labels. -/
theorem toTemp_lab {n : Str} {ls : List Val} {t : RTree} (h : Shape n ls t) : RFull t → ∀ k r,
    ∀ r', toTemp (some n) false r = .ok r' → toTemp (some n) false ((k, t) :: r) = .ok ((k, forget (labT ls t)) :: r') := by
  have fields : ∀ (ls : List Val) (g : RFields), RFullF g → (∀ e ∈ g, RFull e.2 → ∀ k r,
      ∀ r', toTemp (some n) false r = .ok r' → toTemp (some n) false ((k, e.2) :: r) = .ok ((k, forget (labT ls e.2)) :: r')) →
      toTemp (some n) false g = .ok (forgetF (labF ls g)) := by
    intro ls g
    induction g with
    | nil => intro _ _; simp [toTemp, labF, forgetF]
    | cons e r ih =>
      obtain ⟨k, t⟩ := e
      intro hf h
      rw [h (k, t) (by simp) hf.2.1 _ _ _ (ih hf.2.2 (fun e he => h e (by simp [he])))]
      simp [labF, forgetF]
  induction h with
  | cell => intro _ k r r' hr; simp [toTemp, labT, forget, hr]
  | @obj ls g _ ih =>
    intro hf k r r' hr
    have he : g.isEmpty = false := by cases g with | nil => exact absurd rfl hf.1 | cons _ _ => rfl
    simp only [toTemp, he, Bool.false_eq_true, if_false, fields ls g hf.2 ih, labT, forget, hr]
  | @lad l ls g _ hid _ ih =>
    intro hf k r r' hr
    obtain ⟨hgne, hg⟩ := (rfullI_iff.1 hf.2).2 0 g (by simp [Dict.get_cons])
    have he : g.isEmpty = false := by cases g with | nil => exact absurd rfl hgne | cons _ _ => rfl
    have hget : Dict.get (forgetF (labF ls g)) n = (Dict.get g n).map (fun t => forget (labT ls t)) := by
      rw [get_forgetF, get_labF, Option.map_map]; rfl
    simp only [toTemp, toTempItems, he, Bool.false_eq_true, if_false, fields ls g hg ih, sortIdx, insertIdx, List.map_cons, List.map_nil,
      appendAll, TDict.append, itemKey, hget, labT, labI, List.headD_cons, List.tail_cons, forget, forgetK, forgetU, hr]
    rcases hid with ⟨h1, c, h2, h3⟩ | ⟨h1, h2⟩
    · simp only [h2, Option.map_some, labT, forget, h3, h1]; simp
    · simp only [h2, Option.map_none, h1]; simp

theorem toTemp_labF {n : Str} {ls : List Val} {g : RFields} (hf : RFullF g) (h : ∀ e ∈ g, Shape n ls e.2) :
    toTemp (some n) false g = .ok (forgetF (labF ls g)) := by
  induction g with
  | nil => simp [toTemp, labF, forgetF]
  | cons e r ih =>
    obtain ⟨k, t⟩ := e
    rw [toTemp_lab (h (k, t) (by simp)) hf.2.1 _ _ _ (ih hf.2.2 (fun e he => h e (by simp [he])))]
    simp [labF, forgetF]

/-! ### The positions of a labelled row -/

/-- A position of a row with labels for the items. -/
def pos (ls : List Val) : Addr → List PKey
  | [] => []
  | (k, none) :: a => .field k :: pos ls a
  | (k, some _) :: a => .field k :: .item (ls.headD (.atom .none)) :: pos ls.tail a

/-- The same step, up to equality of ids. -/
def PKey.same : PKey → PKey → Prop
  | .field k, .field k' => k = k'
  | .item v, .item v' => v.pyEq v' = true
  | _, _ => False

/-- The same position, up to equality of ids. -/
def SamePos (p q : List PKey) : Prop := All₂ PKey.same p q

theorem sub_same {p q : List PKey} (h : SamePos p q) : ∀ t : Tree, t.sub p = t.sub q := by
  induction h with
  | nil => intro t; rfl
  | @cons a b l m hab _ ih =>
    intro t
    cases a with
    | field k =>
      cases b with
      | item v => exact absurd hab id
      | field k' =>
        cases hab
        cases t with
        | obj fs => simp only [Tree.sub]; cases Dict.get fs k <;> simp [ih]
        | cell c => simp [Tree.sub]
        | tmp ks rs => simp [Tree.sub]
    | item v =>
      cases b with
      | field k => exact absurd hab id
      | item v' =>
        cases t with
        | obj fs => simp [Tree.sub]
        | cell c => simp [Tree.sub]
        | tmp ks rs => simp only [Tree.sub]; rw [keyGet_congr hab]; cases keyGet ks v' <;> simp [ih]

theorem sub_cell (c : Cell) {p : List PKey} {u : Tree} (h : Tree.sub p (.cell c) = some u) : p = [] ∧ u = .cell c := by
  cases p with
  | nil => simp only [Tree.sub, Option.some.injEq] at h; exact ⟨rfl, h.symm⟩
  | cons s p => cases s <;> simp [Tree.sub] at h

/-- The cells of a labelled row come from the row. -/
theorem sub_labT {n : Str} {ls : List Val} {t : RTree} (h : Shape n ls t) : ∀ p c, (labT ls t).sub p = some (.cell c) →
    ∃ ix a, (∀ (fs : RFields) k, Dict.get fs k = some t → rget fs ((k, ix) :: a) = some c) ∧
      SamePos (.field [] :: p) (pos ls (([], ix) :: a)) := by
  have fields : ∀ (ls : List Val) (g : RFields), (∀ e ∈ g, ∀ p c, (labT ls e.2).sub p = some (.cell c) →
      ∃ ix a, (∀ (fs : RFields) k, Dict.get fs k = some e.2 → rget fs ((k, ix) :: a) = some c) ∧
        SamePos (.field [] :: p) (pos ls (([], ix) :: a))) →
      ∀ p c, Tree.sub p (.obj (labF ls g)) = some (.cell c) → ∃ a, rget g a = some c ∧ SamePos p (pos ls a) := by
    intro ls g ih p c hp
    cases p with
    | nil => simp [Tree.sub] at hp
    | cons s p =>
      cases s with
      | item v => simp [Tree.sub] at hp
      | field k =>
        simp only [Tree.sub, get_labF] at hp
        cases hk : Dict.get g k with
        | none => rw [hk] at hp; simp at hp
        | some t =>
          rw [hk] at hp
          simp only [Option.map_some, Option.bind_some] at hp
          obtain ⟨ix, a, h1, h2⟩ := ih (k, t) (Dict.get_eq_some_mem hk) p c hp
          refine ⟨(k, ix) :: a, h1 g k hk, ?_⟩
          cases ix with
          | none => cases h2 with | cons _ h2 => exact .cons rfl h2
          | some i => cases h2 with | cons _ h2 => exact .cons rfl h2
  induction h with
  | @cell ls c =>
    intro p c' hp
    obtain ⟨rfl, he⟩ := sub_cell c hp
    cases he
    exact ⟨none, [], fun fs k hk => by simp [rget, hk], .cons rfl .nil⟩
  | @obj ls g _ ih =>
    intro p c hp
    simp only [labT] at hp
    obtain ⟨a, h1, h2⟩ := fields ls g ih p c hp
    refine ⟨none, a, fun fs k hk => ?_, .cons rfl h2⟩
    simp [rget, hk, h1]
  | @lad l ls g _ _ hs ih =>
    intro p c hp
    simp only [labT, labI, List.headD_cons, List.tail_cons] at hp
    cases p with
    | nil => simp [Tree.sub] at hp
    | cons s p =>
      cases s with
      | field k => simp [Tree.sub] at hp
      | item v =>
        simp only [Tree.sub, keyGet_cons, keyGet_nil] at hp
        by_cases hv : l.pyEq v = true
        · rw [if_pos hv] at hp
          simp only [Option.bind_some] at hp
          obtain ⟨a, h1, h2⟩ := fields ls g ih p c hp
          refine ⟨some 0, a, fun fs k hk => ?_, .cons rfl (.cons (Val.pyEq_symm hv) h2)⟩
          simp [rget, hk, Dict.get_cons, h1]
        · rw [if_neg hv] at hp; simp at hp

theorem sub_labF {n : Str} {ls : List Val} {g : RFields} (h : ∀ e ∈ g, Shape n ls e.2) {p : List PKey} {c : Cell}
    (hp : Tree.sub p (.obj (labF ls g)) = some (.cell c)) : ∃ a, rget g a = some c ∧ SamePos p (pos ls a) := by
  cases p with
  | nil => simp [Tree.sub] at hp
  | cons s p =>
    cases s with
    | item v => simp [Tree.sub] at hp
    | field k =>
      simp only [Tree.sub, get_labF] at hp
      cases hk : Dict.get g k with
      | none => rw [hk] at hp; simp at hp
      | some t =>
        rw [hk] at hp
        simp only [Option.map_some, Option.bind_some] at hp
        obtain ⟨ix, a, h1, h2⟩ := sub_labT (h (k, t) (Dict.get_eq_some_mem hk)) p c hp
        refine ⟨(k, ix) :: a, h1 g k hk, ?_⟩
        cases ix with
        | none => cases h2 with | cons _ h2 => exact .cons rfl h2
        | some i => cases h2 with | cons _ h2 => exact .cons rfl h2

/-- The cells of a row are in the labelled row. -/
theorem sub_pos {n : Str} (a : Addr) : ∀ {ls : List Val} {g : RFields} {c : Cell}, (∀ e ∈ g, Shape n ls e.2) → rget g a = some c →
    Tree.sub (pos ls a) (.obj (labF ls g)) = some (.cell c) := by
  induction a with
  | nil => intro ls g c _ h; simp [rget] at h
  | cons s a ih =>
    intro ls g c hs h
    obtain ⟨k, ix⟩ := s
    simp only [rget] at h
    cases hk : Dict.get g k with
    | none => rw [hk] at h; simp at h
    | some t =>
      rw [hk] at h
      have hst := hs (k, t) (Dict.get_eq_some_mem hk)
      cases t with
      | cell d =>
        simp only at h
        split at h
        · next hh =>
          obtain ⟨rfl, rfl⟩ := hh
          cases h
          simp [pos, Tree.sub, get_labF, hk, labT]
        · cases h
      | obj f =>
        simp only at h
        split at h
        · next hh =>
          subst hh
          cases hst with
          | obj hst =>
            have := ih hst h
            simp [pos, Tree.sub, get_labF, hk, labT, this]
        · cases h
      | lad is =>
        cases hst with
        | @lad l ls' f hst hid hl =>
          cases ix with
          | none => simp at h
          | some i =>
            simp only [Dict.get_cons] at h
            by_cases hi : (0 : Int) = i
            · rw [if_pos hi] at h
              simp only at h
              have := ih hst h
              simp [pos, Tree.sub, get_labF, hk, labT, labI, keyGet_cons, hl, this]
            · rw [if_neg hi] at h; simp at h

/-! ### The labelled row is in order -/

theorem clean_obj_of {fs : Fields} (hn : (Dict.keys fs).Nodup) (h : ∀ k t, Dict.get fs k = some t → Clean t) : Clean (.obj fs) := by
  intro p u hu
  cases p with
  | nil => cases hu; exact hn
  | cons s p =>
    cases s with
    | item v => simp [Tree.sub] at hu
    | field k =>
      simp only [Tree.sub] at hu
      cases hk : Dict.get fs k with
      | none => rw [hk] at hu; simp at hu
      | some t => rw [hk] at hu; exact h k t hk p u hu

theorem clean_tmp_of {ks : List (Val × Fields)} (hd : KeysDistinct ks) (hs : ∀ e ∈ ks, e.1.pyEq e.1 = true)
    (h : ∀ e ∈ ks, Clean (.obj e.2)) : Clean (.tmp ks []) := by
  intro p u hu
  cases p with
  | nil => cases hu; exact ⟨rfl, hd, hs⟩
  | cons s p =>
    cases s with
    | field v => simp [Tree.sub] at hu
    | item k =>
      simp only [Tree.sub] at hu
      cases hk : keyGet ks k with
      | none => rw [hk] at hu; simp at hu
      | some t =>
        rw [hk] at hu
        obtain ⟨k', hm, _⟩ := keyGet_some_mem hk
        exact h (k', t) hm p u hu

theorem clean_cell {c : Cell} (h1 : c.value.pyEq c.value = true) (h2 : ∀ g, c.value ≠ .geo g) : Clean (.cell c) := by
  intro p u hu
  obtain ⟨rfl, rfl⟩ := sub_cell c hu
  exact ⟨h1, h2⟩

theorem clean_labT {n : Str} {ls : List Val} {t : RTree} (h : Shape n ls t) : RFull t →
    (∀ ix a c, (∀ (fs : RFields) k, Dict.get fs k = some t → rget fs ((k, ix) :: a) = some c) → c.value.pyEq c.value = true ∧ ∀ g, c.value ≠ .geo g) →
    Clean (labT ls t) := by
  have fields : ∀ (ls : List Val) (g : RFields), RFullF g → (∀ a c, rget g a = some c → c.value.pyEq c.value = true ∧ ∀ g, c.value ≠ .geo g) →
      (∀ e ∈ g, RFull e.2 →
        (∀ ix a c, (∀ (fs : RFields) k, Dict.get fs k = some e.2 → rget fs ((k, ix) :: a) = some c) → c.value.pyEq c.value = true ∧ ∀ g, c.value ≠ .geo g) →
        Clean (labT ls e.2)) → Clean (.obj (labF ls g)) := by
    intro ls g hf hc ih
    refine clean_obj_of (by rw [keys_labF]; exact (rfullF_iff.1 hf).1) ?_
    intro k t hk
    rw [get_labF] at hk
    cases hg : Dict.get g k with
    | none => rw [hg] at hk; cases hk
    | some t' =>
      rw [hg] at hk; cases hk
      exact ih (k, t') (Dict.get_eq_some_mem hg) ((rfullF_iff.1 hf).2 _ _ hg) (fun ix a c h => hc _ c (h g k hg))
  induction h with
  | @cell ls c =>
    intro _ hc
    obtain ⟨h1, h2⟩ := hc none [] c (fun fs k hk => by simp [rget, hk])
    exact clean_cell h1 h2
  | @obj ls g _ ih =>
    intro hf hc
    exact fields ls g hf.2 (fun a c ha => hc none a c (fun fs k hk => by simp [rget, hk, ha])) ih
  | @lad l ls g _ _ hs ih =>
    intro hf hc
    obtain ⟨hgne, hg⟩ := (rfullI_iff.1 hf.2).2 0 g (by simp [Dict.get_cons])
    refine clean_tmp1 hs ?_
    exact fields ls g hg (fun a c ha => hc (some 0) a c (fun fs k hk => by simp [rget, hk, ha, Dict.get_cons])) ih

theorem clean_labF {n : Str} {ls : List Val} {g : RFields} (hf : RFullF g) (h : ∀ e ∈ g, Shape n ls e.2)
    (hc : ∀ a c, rget g a = some c → c.value.pyEq c.value = true ∧ ∀ g, c.value ≠ .geo g) : Clean (.obj (labF ls g)) := by
  refine clean_obj_of (by rw [keys_labF]; exact (rfullF_iff.1 hf).1) ?_
  intro k t hk
  rw [get_labF] at hk
  cases hg : Dict.get g k with
  | none => rw [hg] at hk; cases hk
  | some t' =>
    rw [hg] at hk; cases hk
    exact clean_labT (h (k, t') (Dict.get_eq_some_mem hg)) ((rfullF_iff.1 hf).2 _ _ hg) (fun ix a c h => hc _ c (h g k hg))

/-! ### Trees by their cells -/

/-- Every node has a cell at or below it. -/
def Leafy (t : Tree) : Prop := ∀ p u, t.sub p = some u → ∃ q c, u.sub q = some (.cell c)

theorem sub_append (p q : List PKey) : ∀ t : Tree, t.sub (p ++ q) = (t.sub p).bind (Tree.sub q) := by
  induction p with
  | nil => intro t; rfl
  | cons s p ih =>
    intro t
    cases s with
    | field k =>
      cases t with
      | obj fs => simp only [List.cons_append, Tree.sub]; cases Dict.get fs k <;> simp [ih]
      | cell c => simp [Tree.sub]
      | tmp ks rs => simp [Tree.sub]
    | item v =>
      cases t with
      | obj fs => simp [Tree.sub]
      | cell c => simp [Tree.sub]
      | tmp ks rs => simp only [List.cons_append, Tree.sub]; cases keyGet ks v <;> simp [ih]

theorem leafy_cell (c : Cell) : Leafy (.cell c) := by
  intro p u hu
  obtain ⟨rfl, rfl⟩ := sub_cell c hu
  exact ⟨[], c, rfl⟩

theorem leafy_obj {fs : Fields} (hne : fs ≠ []) (h : ∀ e ∈ fs, Leafy e.2) : Leafy (.obj fs) := by
  intro p u hu
  cases p with
  | nil =>
    cases hu
    cases fs with
    | nil => exact absurd rfl hne
    | cons e r =>
      obtain ⟨k0, t0⟩ := e
      obtain ⟨q, c, hq⟩ := h (k0, t0) (by simp) [] t0 rfl
      exact ⟨.field k0 :: q, c, by simp [Tree.sub, Dict.get_cons, hq]⟩
  | cons s p =>
    cases s with
    | item v => simp [Tree.sub] at hu
    | field k =>
      simp only [Tree.sub] at hu
      cases hk : Dict.get fs k with
      | none => rw [hk] at hu; simp at hu
      | some t => rw [hk] at hu; exact h (k, t) (Dict.get_eq_some_mem hk) p u hu

theorem leafy_tmp {ks : List (Val × Fields)} (hne : ks ≠ []) (hs : ∀ e ∈ ks, e.1.pyEq e.1 = true) (h : ∀ e ∈ ks, Leafy (.obj e.2)) : Leafy (.tmp ks []) := by
  intro p u hu
  cases p with
  | nil =>
    cases hu
    cases ks with
    | nil => exact absurd rfl hne
    | cons e r =>
      obtain ⟨k0, t0⟩ := e
      obtain ⟨q, c, hq⟩ := h (k0, t0) (by simp) [] _ rfl
      exact ⟨.item k0 :: q, c, by simp [Tree.sub, keyGet_cons, hs (k0, t0) (by simp), hq]⟩
  | cons s p =>
    cases s with
    | field v => simp [Tree.sub] at hu
    | item k =>
      simp only [Tree.sub] at hu
      cases hk : keyGet ks k with
      | none => rw [hk] at hu; simp at hu
      | some t =>
        rw [hk] at hu
        obtain ⟨k', hm, _⟩ := keyGet_some_mem hk
        exact h (k', t) hm p u hu

/-- The nodes above cells are determined by the cells. -/
theorem same_of_cells {t u : Tree} (ht : Leafy t)
    (h : ∀ p c, t.sub p = some (.cell c) → ∃ d, u.sub p = some (.cell d) ∧ c.value = d.value) :
    ∀ p a, t.sub p = some a → ∃ b, u.sub p = some b ∧ NodeSame a b := by
  intro p a ha
  obtain ⟨q, c, hq⟩ := ht p a ha
  have hpq : t.sub (p ++ q) = some (.cell c) := by rw [sub_append, ha]; exact hq
  obtain ⟨d, hd, hv⟩ := h _ _ hpq
  rw [sub_append] at hd
  cases hb : u.sub p with
  | none => rw [hb] at hd; simp at hd
  | some b =>
    rw [hb] at hd
    simp only [Option.bind_some] at hd
    refine ⟨b, rfl, ?_⟩
    cases q with
    | nil =>
      simp only [Tree.sub, Option.some.injEq] at hq hd
      rw [hq, hd]; exact hv
    | cons s q =>
      cases s <;> cases a <;> simp [Tree.sub] at hq <;> cases b <;> simp [Tree.sub] at hd <;> trivial

theorem bel_of_cells {t u : Tree} (ht : Leafy t) (hc : Clean t)
    (h : ∀ p c, t.sub p = some (.cell c) → ∃ d, u.sub p = some (.cell d) ∧ c.value = d.value) : Bel t u := by
  intro p a ha
  obtain ⟨b, h1, h2⟩ := same_of_cells ht h p a ha
  refine ⟨b, h1, ?_⟩
  have := hc p a ha
  cases a <;> cases b <;> simp_all [NodeSame, NodeEq, Local]

theorem leafy_labT {n : Str} {ls : List Val} {t : RTree} (h : Shape n ls t) : RFull t → Leafy (labT ls t) := by
  have fields : ∀ (ls : List Val) (g : RFields), RFullF g → g ≠ [] → (∀ e ∈ g, RFull e.2 → Leafy (labT ls e.2)) → Leafy (.obj (labF ls g)) := by
    intro ls g hf hne ih
    rw [labF_map]
    refine leafy_obj (by simpa using hne) ?_
    intro e he
    obtain ⟨e', he', rfl⟩ := List.mem_map.1 he
    exact ih e' he' ((rfullF_iff.1 hf).2 _ _ (Dict.get_of_mem (rfullF_iff.1 hf).1 he'))
  induction h with
  | @cell ls c => intro _; exact leafy_cell c
  | @obj ls g _ ih => intro hf; exact fields ls g hf.2 hf.1 ih
  | @lad l ls g _ _ hs ih =>
    intro hf
    obtain ⟨hgne, hg⟩ := (rfullI_iff.1 hf.2).2 0 g (by simp [Dict.get_cons])
    refine leafy_tmp (by simp [labI]) ?_ ?_
    · intro e he; simp only [labI, List.mem_singleton] at he; subst he; exact hs
    · intro e he; simp only [labI, List.mem_singleton] at he; subst he; exact fields ls g hg hgne ih

theorem leafy_labF {n : Str} {ls : List Val} {g : RFields} (hf : RFullF g) (hne : g ≠ []) (h : ∀ e ∈ g, Shape n ls e.2) : Leafy (.obj (labF ls g)) := by
  rw [labF_map]
  refine leafy_obj (by simpa using hne) ?_
  intro e he
  obtain ⟨e', he', rfl⟩ := List.mem_map.1 he
  exact leafy_labT (h e' he') ((rfullF_iff.1 hf).2 _ _ (Dict.get_of_mem (rfullF_iff.1 hf).1 he'))

end Verif
