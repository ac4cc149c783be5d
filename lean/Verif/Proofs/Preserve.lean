import Verif.Proofs.FlatItems
/-! `preserve_fields`: the decision of the code is the documented one, for lists of paths that fit the document. -/
namespace Verif
open Spec

theorem contains_iff (sub s : Str) : Py.contains sub s = true ↔ ∃ a b, s = a ++ sub ++ b := by
  induction s with
  | nil =>
    rw [Py.contains, List.isEmpty_iff]
    constructor
    · rintro rfl; exact ⟨[], [], rfl⟩
    · rintro ⟨a, b, h⟩
      have := congrArg List.length h
      simp only [List.length_nil, List.length_append] at this
      exact List.length_eq_zero_iff.1 (by omega)
  | cons c r ih =>
    rw [Py.contains, Bool.or_eq_true, ih, List.isPrefixOf_iff_prefix]
    constructor
    · rintro (⟨b, h⟩ | ⟨a, b, rfl⟩)
      · exact ⟨[], b, by simp [h]⟩
      · exact ⟨c :: a, b, rfl⟩
    · rintro ⟨a, b, h⟩
      cases a with
      | nil => exact Or.inl ⟨b, by simpa using h.symm⟩
      | cons d a' =>
        simp only [List.cons_append, List.cons.injEq] at h
        exact Or.inr ⟨a', b, h.2⟩

/-! ### `replace("/0", "")` -/

theorem replace_pass {x : Str} (h : '/' ∉ x) (r : Str) :
    Py.replaceAux s%"/0" [] 0 (x ++ r) = x ++ Py.replaceAux s%"/0" [] 0 r := by
  induction x with
  | nil => rfl
  | cons c t ih =>
    simp only [List.mem_cons, not_or] at h
    rw [List.cons_append, Py.replaceAux]
    have : (s%"/0").isPrefixOf (c :: (t ++ r)) = false := by
      simp only [List.isPrefixOf, Bool.and_eq_false_iff, beq_eq_false_iff_ne]
      exact Or.inl h.1
    rw [if_neg (by simp [this]), ih h.2]
    rfl

theorem replace_tail (r : List Str) (h : ∀ x ∈ r, '/' ∉ x ∧ (x = s%"0" ∨ x.head? ≠ some '0')) :
    Py.replaceAux s%"/0" [] 0 (r.flatMap (fun x => '/' :: x) ++ s%"/") =
      (r.filter (· ≠ s%"0")).flatMap (fun x => '/' :: x) ++ s%"/" := by
  induction r with
  | nil => rfl
  | cons x t ih =>
    replace ih := ih (fun y hy => h y (by simp [hy]))
    obtain ⟨h1, h2⟩ := h x (by simp)
    by_cases hx : x = s%"0"
    · subst hx
      simp only [List.flatMap_cons, List.cons_append, List.nil_append, ne_eq, not_true_eq_false, decide_false, Bool.false_eq_true,
        not_false_eq_true, List.filter_cons_of_neg]
      rw [← ih]
      simp [Py.replaceAux]
    · replace h2 := h2.resolve_left hx
      have hnp : (s%"/0").isPrefixOf ('/' :: (x ++ (t.flatMap (fun x => '/' :: x) ++ s%"/"))) = false := by
        simp only [List.isPrefixOf, Bool.and_eq_false_iff]
        right
        cases x with
        | nil => cases t <;> simp [List.isPrefixOf]
        | cons c u =>
          simp only [List.head?_cons, ne_eq, Option.some.injEq] at h2
          simp only [List.cons_append, List.isPrefixOf, Bool.and_true, beq_eq_false_iff_ne]
          exact fun hc => h2 hc.symm
      rw [List.flatMap_cons, List.cons_append, List.cons_append, List.append_assoc, Py.replaceAux, if_neg (by simp [hnp]),
        replace_pass h1, ih, List.filter_cons_of_pos (by simpa using hx)]
      simp

theorem pnOf_cons (x : Str) (r : List Str) : pnOf (x :: r) = x ++ (r.flatMap (fun x => '/' :: x) ++ s%"/") := by
  have : pnOf r = (r.flatMap (fun x => '/' :: x) ++ s%"/").tail := by
    induction r with
    | nil => rfl
    | cons y t ih =>
      have h2 : pnOf (y :: t) = y ++ ('/' :: pnOf t) := by simp [pnOf]
      rw [h2, ih, List.flatMap_cons]
      cases t <;> simp
  have h2 : pnOf (x :: r) = x ++ ('/' :: pnOf r) := by simp [pnOf]
  rw [h2, this]
  cases r <;> simp

/-- Path components: no slashes; `0` for arrays, and otherwise no leading `0`. -/
def CompOK (x : Str) : Prop := '/' ∉ x ∧ (x = s%"0" ∨ x.head? ≠ some '0')

theorem replace_pnOf (p : List Str) (h : ∀ x ∈ p, CompOK x) (h0 : p.head? ≠ some s%"0") :
    Py.replaceAll s%"/0" [] (pnOf p) = pnOf (p.filter (· ≠ s%"0")) := by
  cases p with
  | nil => rfl
  | cons x r =>
    have hx : x ≠ s%"0" := by simpa using h0
    rw [List.filter_cons_of_pos (by simpa using hx), pnOf_cons, pnOf_cons, Py.replaceAll, replace_pass (h x (by simp)).1,
      replace_tail r (fun y hy => h y (by simp [hy]))]

theorem pnOf_eq (p : List Str) (h : p ≠ []) : pnOf p = pathText p ++ s%"/" := by
  obtain ⟨q, k, rfl⟩ : ∃ q k, p = q ++ [k] := ⟨_, _, (List.dropLast_concat_getLast h).symm⟩
  rw [pathText_snoc, pnOf_append]
  simp [pnOf]

/-! ### The set of paths -/

theorem rstrip_last {p : Char → Bool} {x : Str} {c : Char} (hc : p c = false) : Py.rstrip p (x ++ [c]) = x ++ [c] := by
  apply Py.rstrip_of_not
  simp [hc]

theorem pathText_no_trail {l : List Str} (hl : l ≠ []) (h : ∀ x ∈ l, x ≠ [] ∧ '/' ∉ x) :
    Py.rstrip (· = '/') (pathText l) = pathText l := by
  obtain ⟨q, k, rfl⟩ : ∃ q k, l = q ++ [k] := ⟨_, _, (List.dropLast_concat_getLast hl).symm⟩
  obtain ⟨h1, h2⟩ := h k (by simp)
  obtain ⟨t, c, rfl⟩ : ∃ t c, k = t ++ [c] := ⟨_, _, (List.dropLast_concat_getLast h1).symm⟩
  rw [pathText_snoc, ← List.append_assoc]
  apply rstrip_last
  simp only [List.mem_append, List.mem_singleton, not_or] at h2
  simpa using Ne.symm h2.2

theorem mem_preserveSet {listed : List (List Str)} (hp : ∀ l ∈ listed, l ≠ [] ∧ ∀ x ∈ l, x ≠ [] ∧ '/' ∉ x)
    (ht : ∀ l ∈ listed, Py.strip Py.isSpace (pathText l) = pathText l) (f : Str) :
    f ∈ preserveSet (listed.map pathText) ↔
      ∃ l ∈ listed, f = pathText l ∨ ∃ q x, q ≠ [] ∧ l = q ++ [x] ∧ (f = pathText q ∨ f = x) := by
  unfold preserveSet
  simp only [List.mem_flatMap, List.mem_map]
  constructor
  · rintro ⟨s, ⟨l, hl, rfl⟩, hf⟩
    obtain ⟨h1, h2⟩ := hp l hl
    rw [ht l hl] at hf
    refine ⟨l, hl, ?_⟩
    have hs : Py.split '/' (pathText l) = l := Py.split_join h1 (fun x hx => (h2 x hx).2)
    rw [hs, pathText_no_trail h1 h2] at hf
    obtain ⟨q, k, rfl⟩ : ∃ q k, l = q ++ [k] := ⟨_, _, (List.dropLast_concat_getLast h1).symm⟩
    rw [List.reverse_append] at hf
    simp only [List.reverse_cons, List.reverse_nil, List.nil_append, List.singleton_append] at hf
    cases hq : q.reverse with
    | nil => rw [hq] at hf; simp at hf; exact Or.inl hf
    | cons a b =>
      rw [hq] at hf
      have hrev : b.reverse ++ [a] = q := by rw [← List.reverse_cons, ← hq, List.reverse_reverse]
      have hne : q ≠ [] := by rintro rfl; simp at hq
      simp only [List.reverse_cons, hrev, List.mem_append, List.mem_cons, List.not_mem_nil, or_false] at hf
      rcases hf with (hf | hf) | hf
      · exact Or.inr ⟨q, k, hne, rfl, Or.inl hf⟩
      · exact Or.inr ⟨q, k, hne, rfl, Or.inr hf⟩
      · exact Or.inl hf
  · rintro ⟨l, hl, hf⟩
    obtain ⟨h1, h2⟩ := hp l hl
    refine ⟨_, ⟨l, hl, rfl⟩, ?_⟩
    rw [ht l hl]
    have hs : Py.split '/' (pathText l) = l := Py.split_join h1 (fun x hx => (h2 x hx).2)
    rw [hs, pathText_no_trail h1 h2]
    rcases hf with rfl | ⟨q, x, hne, rfl, hf⟩
    · simp
    · rw [List.reverse_append]
      simp only [List.reverse_cons, List.reverse_nil, List.nil_append, List.singleton_append]
      cases hq : q.reverse with
      | nil => simp at hq; exact absurd hq hne
      | cons a b =>
        have hrev : b.reverse ++ [a] = q := by rw [← List.reverse_cons, ← hq, List.reverse_reverse]
        simp only [List.reverse_cons, hrev, List.mem_append, List.mem_cons, List.not_mem_nil, or_false]
        rcases hf with rfl | rfl
        · exact Or.inl (Or.inl rfl)
        · exact Or.inl (Or.inr rfl)

theorem pathText_append {q r : List Str} (hr : r ≠ []) : pathText (q ++ r) = pnOf q ++ pathText r := by
  obtain ⟨t, k, rfl⟩ : ∃ t k, r = t ++ [k] := ⟨_, _, (List.dropLast_concat_getLast hr).symm⟩
  rw [← List.append_assoc, pathText_snoc, pathText_snoc, pnOf_append, List.append_assoc]

/-! ### The decision -/

/-- The path of an object occurs in listed paths only as their beginning. -/
def Inside (listed : List (List Str)) (r : List Str) : Prop :=
  r ≠ [] → ∀ l ∈ listed, ∀ a b, pathText l = a ++ (pathText r ++ s%"/") ++ b → r <+: l

theorem siblings_iff {listed : List (List Str)} (hn : listed ≠ []) (hp : ∀ l ∈ listed, l ≠ [] ∧ ∀ x ∈ l, x ≠ [] ∧ '/' ∉ x)
    (ht : ∀ l ∈ listed, Py.strip Py.isSpace (pathText l) = pathText l) {r : List Str} (hin : Inside listed r) :
    (preserveSet (listed.map pathText)).any (fun f => Py.contains (pnOf r) f) = true ↔
      r = [] ∨ ∃ l ∈ listed, r <+: l ∧ r ≠ l := by
  rw [List.any_eq_true]
  by_cases hr : r = []
  · subst hr
    simp only [true_or, iff_true]
    obtain ⟨l, hl⟩ := List.exists_mem_of_ne_nil _ hn
    exact ⟨_, (mem_preserveSet hp ht _).2 ⟨l, hl, Or.inl rfl⟩, (contains_iff _ _).2 ⟨[], pathText l, by simp [pnOf]⟩⟩
  · have key : ∀ l ∈ listed, (∃ a b, pathText l = a ++ pnOf r ++ b) → r <+: l ∧ r ≠ l := by
      rintro l hl ⟨a, b, h⟩
      rw [pnOf_eq r hr] at h
      refine ⟨hin hr l hl a b h, ?_⟩
      rintro rfl
      have := congrArg List.length h
      simp only [List.length_append, List.length_cons, List.length_nil] at this
      omega
    simp only [hr, false_or, contains_iff]
    constructor
    · rintro ⟨f, hf, a, b, h⟩
      obtain ⟨l, hl, hf⟩ := (mem_preserveSet hp ht f).1 hf
      refine ⟨l, hl, ?_⟩
      rcases hf with rfl | ⟨q, x, hq, rfl, rfl | rfl⟩
      · exact key l hl ⟨a, b, h⟩
      · refine key _ hl ⟨a, b ++ (s%"/" ++ x), ?_⟩
        rw [pathText_snoc, pnOf_eq q hq, h]
        simp
      · exfalso
        have := ((hp _ hl).2 f (by simp)).2
        rw [h, pnOf_eq r hr] at this
        simp at this
    · rintro ⟨l, hl, ⟨t, rfl⟩, hne⟩
      have htn : t ≠ [] := by rintro rfl; simp at hne
      exact ⟨_, (mem_preserveSet hp ht _).2 ⟨_, hl, Or.inl rfl⟩, [], pathText t, by rw [pathText_append htn]; simp⟩

/-- The decision for field `k` of the object at `p` is the documented one, if the object was reached. -/
theorem decision {cfg : FCfg} {listed : List (List Str)} {root : List Json} (hg : GoodList listed root)
    (hcfg : cfg.preserve = preserveSet (listed.map pathText)) {p : List Str} {k : Str} (hc : ∀ x ∈ p, CompOK x)
    (h0 : p.head? ≠ some s%"0") (hk : '/' ∉ k) (hin : Inside listed (p.filter (· ≠ s%"0")))
    (hnames : p.filter (· ≠ s%"0") = [] → ∀ q, q ≠ [] → q ++ [k] ∈ listed → ∃ l ∈ listed, [k] <+: l)
    (hreach : p.filter (· ≠ s%"0") ≠ [] → Preserved listed (p.filter (· ≠ s%"0"))) :
    keepOf cfg p k = preserved listed p k := by
  rw [Bool.eq_iff_iff]
  unfold keepOf dropped preserved
  rw [hcfg, replace_pnOf p hc h0]
  have hclean : ∀ x ∈ p.filter (· ≠ s%"0"), '/' ∉ x := fun x hx => (hc x (List.mem_filter.1 hx).1).1
  generalize p.filter (· ≠ s%"0") = r at *
  have hmem : pnOf r ++ k ∈ preserveSet (listed.map pathText) ↔ ∃ l ∈ listed, r ++ [k] <+: l := by
    have hrk : ∀ x ∈ r ++ [k], '/' ∉ x := by
      intro x hx
      simp only [List.mem_append, List.mem_singleton] at hx
      rcases hx with hx | rfl
      · exact hclean x hx
      · exact hk
    rw [← pathText_snoc, mem_preserveSet hg.path hg.trim]
    constructor
    · rintro ⟨l, hl, h⟩
      obtain ⟨h1, h2⟩ := hg.path l hl
      rcases h with h | ⟨q, x, hq, rfl, h | h⟩
      · have := pathText_inj (by simp) h1 hrk (fun x hx => (h2 x hx).2) h
        exact ⟨l, hl, this ▸ List.prefix_rfl⟩
      · have := pathText_inj (by simp) hq hrk (fun x hx => (h2 x (by simp [hx])).2) h
        exact ⟨_, hl, this ▸ List.prefix_append _ _⟩
      · have hx : pathText [x] = x := rfl
        have := pathText_inj (b := [x]) (by simp) (by simp) hrk (fun y hy => by
          simp only [List.mem_singleton] at hy; subst hy; exact (h2 _ (by simp)).2) (h.trans hx.symm)
        obtain ⟨rfl, rfl⟩ : r = [] ∧ k = x := by
          cases r with
          | nil => simpa using this
          | cons a b => simp at this
        exact hnames rfl q hq hl
    · rintro ⟨l, hl, h⟩
      rcases hg.above l hl _ h (by simp) with h | ⟨x, h⟩
      · exact ⟨_, h, Or.inl rfl⟩
      · exact ⟨_, h, Or.inr ⟨_, x, by simp, rfl, Or.inl rfl⟩⟩
  have hsib := siblings_iff hg.some hg.path hg.trim hin
  simp only [Bool.not_eq_true', Bool.and_eq_false_iff, Bool.not_eq_false', List.contains_iff_mem, decide_eq_true_eq]
  rw [hmem, ← Bool.not_eq_true, hsib]
  constructor
  · rintro (h | h)
    · simp only [not_or, not_exists, not_and] at h
      obtain ⟨hr, hnone⟩ := h
      rcases hreach hr with h | ⟨l, hl, h⟩ | ⟨g, hg', h, hu⟩
      · exact Or.inr (Or.inr ⟨r, h, List.prefix_append _ _, fun l hl hp => by
          refine Classical.byContradiction (fun hne => hnone l hl hp (Ne.symm hne))⟩)
      · have : r = l := Classical.byContradiction (fun hne => hnone l hl h hne)
        subst this
        exact Or.inr (Or.inr ⟨r, hl, List.prefix_append _ _, fun l hl hp => by
          refine Classical.byContradiction (fun hne => hnone l hl hp (Ne.symm hne))⟩)
      · exact Or.inr (Or.inr ⟨g, hg', h.trans (List.prefix_append _ _), hu⟩)
    · exact Or.inr (Or.inl h)
  · rintro (h | h | ⟨g, hg', h, hu⟩)
    · exact Or.inr ⟨_, h, List.prefix_rfl⟩
    · exact Or.inr h
    · by_cases heq : g = r ++ [k]
      · subst heq; exact Or.inr ⟨_, hg', List.prefix_rfl⟩
      · left
        have hgr : g <+: r := by
          rcases List.prefix_concat_iff.1 h with h | h
          · exact absurd h heq
          · exact h
        simp only [not_or, not_exists, not_and]
        constructor
        · rintro rfl
          exact (hg.path g hg').1 (List.prefix_nil.1 hgr)
        · intro l hl hrl hne
          have := hu l hl (hgr.trans hrl)
          subst this
          exact hne (hrl.eq_of_length_le hgr.length_le)

/-! ### Through the document -/

mutual
theorem cells_congr {k1 k2 : List Str → Str → Bool} (Inv : List Str → Json → Prop)
    (h : ∀ p fs k v, Inv p (.obj fs) → (k, v) ∈ fs → k1 p k = k2 p k ∧ (k1 p k = true → Inv (p ++ [k]) v))
    (p : List Str) (fs : List (Str × Json)) (hi : ∀ k v, (k, v) ∈ fs → k1 p k = k2 p k ∧ (k1 p k = true → Inv (p ++ [k]) v)) :
    cells k1 p fs = cells k2 p fs := by
  match fs with
  | [] => rw [cells, cells]
  | (k, v) :: r =>
    rw [cells, cells, cells_congr Inv h p r (fun k v hm => hi k v (by simp [hm]))]
    obtain ⟨h1, h2⟩ := hi k v (by simp)
    rw [← h1]
    cases hk : k1 p k with
    | false => rfl
    | true => rw [if_pos rfl, if_pos rfl, valueCells_congr Inv h (p ++ [k]) v (h2 hk)]
termination_by structural fs
theorem valueCells_congr {k1 k2 : List Str → Str → Bool} (Inv : List Str → Json → Prop)
    (h : ∀ p fs k v, Inv p (.obj fs) → (k, v) ∈ fs → k1 p k = k2 p k ∧ (k1 p k = true → Inv (p ++ [k]) v))
    (p : List Str) (v : Json) (hi : Inv p v) : valueCells k1 p v = valueCells k2 p v := by
  match v with
  | .leaf a => rw [valueCells, valueCells]
  | .arr l => rw [valueCells, valueCells]
  | .obj fs => rw [valueCells, valueCells]; exact cells_congr Inv h p fs (fun k v hm => h p fs k v hi hm)
termination_by structural v
end

mutual
theorem items_congr {k1 k2 : List Str → Str → Bool} (Inv : List Str → Json → Prop)
    (h : ∀ p fs k v, Inv p (.obj fs) → (k, v) ∈ fs → k1 p k = k2 p k ∧ (k1 p k = true → Inv (p ++ [k]) v))
    (ha : ∀ p l fs, Inv p (.arr l) → .obj fs ∈ l → Inv (p ++ [s%"0"]) (.obj fs))
    (p : List Str) (ar : List (List Str × List (Str × Json))) (fs : List (Str × Json))
    (hi : ∀ k v, (k, v) ∈ fs → k1 p k = k2 p k ∧ (k1 p k = true → Inv (p ++ [k]) v)) :
    items k1 p ar fs = items k2 p ar fs ∧ ∀ i ∈ items k1 p ar fs, Inv (i.array ++ [s%"0"]) (.obj i.fields) := by
  match fs with
  | [] => rw [items, items]; simp
  | (k, v) :: r =>
    obtain ⟨h3, h4⟩ := items_congr Inv h ha p ar r (fun k v hm => hi k v (by simp [hm]))
    rw [items, items, ← h3]
    obtain ⟨h1, h2⟩ := hi k v (by simp)
    rw [← h1]
    cases hk : k1 p k with
    | false => simpa using h4
    | true =>
      obtain ⟨h5, h6⟩ := valueItems_congr Inv h ha (p ++ [k]) ar v (h2 hk)
      rw [if_pos rfl, if_pos rfl, ← h5]
      refine ⟨rfl, fun i hi => ?_⟩
      rcases List.mem_append.1 hi with hi | hi
      · exact h6 i hi
      · exact h4 i hi
termination_by structural fs
theorem valueItems_congr {k1 k2 : List Str → Str → Bool} (Inv : List Str → Json → Prop)
    (h : ∀ p fs k v, Inv p (.obj fs) → (k, v) ∈ fs → k1 p k = k2 p k ∧ (k1 p k = true → Inv (p ++ [k]) v))
    (ha : ∀ p l fs, Inv p (.arr l) → .obj fs ∈ l → Inv (p ++ [s%"0"]) (.obj fs))
    (p : List Str) (ar : List (List Str × List (Str × Json))) (v : Json) (hi : Inv p v) :
    valueItems k1 p ar v = valueItems k2 p ar v ∧ ∀ i ∈ valueItems k1 p ar v, Inv (i.array ++ [s%"0"]) (.obj i.fields) := by
  match v with
  | .leaf a => rw [valueItems, valueItems]; simp
  | .obj fs =>
    rw [valueItems, valueItems]
    exact items_congr Inv h ha p _ fs (fun k v hm => h p fs k v hi hm)
  | .arr l =>
    rw [valueItems, valueItems]
    split
    · simp
    · exact arrayItems_congr Inv h ha p ar l (fun fs hm => ha p l fs hi hm)
termination_by structural v
theorem arrayItems_congr {k1 k2 : List Str → Str → Bool} (Inv : List Str → Json → Prop)
    (h : ∀ p fs k v, Inv p (.obj fs) → (k, v) ∈ fs → k1 p k = k2 p k ∧ (k1 p k = true → Inv (p ++ [k]) v))
    (ha : ∀ p l fs, Inv p (.arr l) → .obj fs ∈ l → Inv (p ++ [s%"0"]) (.obj fs))
    (p : List Str) (ar : List (List Str × List (Str × Json))) (l : List Json) (hi : ∀ fs, .obj fs ∈ l → Inv (p ++ [s%"0"]) (.obj fs)) :
    arrayItems k1 p ar l = arrayItems k2 p ar l ∧ ∀ i ∈ arrayItems k1 p ar l, Inv (i.array ++ [s%"0"]) (.obj i.fields) := by
  match l with
  | [] => rw [arrayItems, arrayItems]; simp
  | .leaf a :: r =>
    rw [arrayItems, arrayItems]; exact arrayItems_congr Inv h ha p ar r (fun fs hm => hi fs (by simp [hm]))
  | .arr a :: r =>
    rw [arrayItems, arrayItems]; exact arrayItems_congr Inv h ha p ar r (fun fs hm => hi fs (by simp [hm]))
  | .obj fs :: r =>
    obtain ⟨h1, h2⟩ := arrayItems_congr Inv h ha p ar r (fun fs hm => hi fs (by simp [hm]))
    have hf := hi fs (by simp)
    obtain ⟨h3, h4⟩ := items_congr Inv h ha (p ++ [s%"0"]) (ar ++ [(p ++ [s%"0"], fs)]) fs (fun k v hm => h _ fs k v hf hm)
    rw [arrayItems, arrayItems, ← h1, ← h3]
    refine ⟨rfl, fun i hi => ?_⟩
    rcases List.mem_append.1 hi with hi | hi
    · exact h4 i hi
    · rcases List.mem_cons.1 hi with rfl | hi
      · exact hf
      · exact h2 i hi
termination_by structural l
end

end Verif
