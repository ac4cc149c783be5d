import Verif.Proofs.EmitCount
import Verif.Spec.Columns
/-! The sub-sheets that flattening makes are those of the arrays of the data. -/
namespace Verif
open Spec

theorem pnOf_snoc (p : List Str) (k : Str) : pnOf (p ++ [k]) = pnOf p ++ (k ++ s%"/") := by simp [pnOf]
theorem pnOf_snoc2 (p : List Str) (k : Str) : pnOf (p ++ [k, s%"0"]) = pnOf p ++ (k ++ s%"/0/") := by simp [pnOf]

/-- No WKT columns, and no XML. -/
structure NoGeoXml (cfg : FCfg) : Prop where
  wkt : cfg.wkt = false
  xml : cfg.xml = false

/-- Sub-sheets touched by the events. -/
def touched (ev : List Ev) (n : Str) : Prop := ∃ e ∈ ev, evSub e = some n

theorem touched_append {a b : List Ev} {n : Str} : touched (a ++ b) n ↔ touched a n ∨ touched b n := by
  simp only [touched, List.mem_append]
  constructor
  · rintro ⟨e, h | h, h'⟩; exact Or.inl ⟨e, h, h'⟩; exact Or.inr ⟨e, h, h'⟩
  · rintro (⟨e, h, h'⟩ | ⟨e, h, h'⟩); exact ⟨e, Or.inl h, h'⟩; exact ⟨e, Or.inr h, h'⟩

theorem touched_nil {n : Str} : ¬ touched [] n := by simp [touched]

theorem touched_key {ref : SheetRef} {k n : Str} : touched [.key ref k] n ↔ ref = some n := by
  cases ref <;> simp [touched, evSub]

theorem touched_parentIds {cfg : FCfg} (ref : SheetRef) (ps : List (Str × Json)) (flat fl : FLine) (ev : List Ev)
    (he : emitParentIds cfg ref ps flat = .ok (fl, ev)) (n : Str) (h : touched ev n) : ref = some n := by
  induction ps generalizing flat ev with
  | nil =>
    simp only [emitParentIds, Except.ok.injEq, Prod.mk.injEq] at he
    obtain ⟨rfl, rfl⟩ := he
    exact absurd h touched_nil
  | cons e r ih =>
    obtain ⟨k, v⟩ := e
    rw [emitParentIds] at he
    split at he
    · cases he
    · obtain ⟨e1, h1, rfl⟩ := Out.after_ok.1 he
      rcases touched_append.1 h with h | h
      · exact touched_key.1 h
      · exact ih _ _ h1 h

theorem touched_addId {cfg : FCfg} {ref : SheetRef} {name field : Str} {fs pids : List (Str × Json)} {n : Str}
    (h : touched (emitAddId cfg ref name field fs pids).2 n) : ref = some n := by
  unfold emitAddId at h
  split at h
  · exact absurd h touched_nil
  · exact touched_key.1 h

theorem touched_ids {cfg : FCfg} {ref : SheetRef} {pn : Str} {pids fs : List (Str × Json)} {n : Str}
    (h : touched (emitIds cfg ref pn pids fs).2 n) : ref = some n := by
  unfold emitIds at h
  rcases touched_append.1 h with h | h
  · unfold emitRootId at h
    split at h
    · exact absurd h touched_nil
    · exact touched_addId h
  · exact touched_addId h

theorem touched_prologue {cfg : FCfg} (h : NoGeoXml cfg) (ref : SheetRef) (pn : Str) (topSub : Bool) (pids fs : List (Str × Json))
    (flat : Option FLine) (s : Start) (ev : List Ev) (he : emitPrologue cfg ref pn topSub pids flat fs = .ok (s, ev)) :
    (filteredOut cfg pn fs = false → s ≠ none) ∧ (∀ pids' fl skip, s = some (pids', fl, skip) → skip = false) ∧ ∀ n, touched ev n → ref = some n := by
  unfold emitPrologue emitGeo at he
  simp only [h.wkt, Bool.false_and, Bool.false_eq_true, if_false] at he
  obtain ⟨g, e1, e2, h1, h2, rfl⟩ := Out.bind_ok.1 he
  simp only [Except.ok.injEq, Prod.mk.injEq] at h1
  obtain ⟨rfl, rfl⟩ := h1
  simp only [emitStart] at h2
  split at h2
  · next hf =>
    simp only [Except.ok.injEq, Prod.mk.injEq] at h2
    obtain ⟨rfl, rfl⟩ := h2
    exact ⟨fun h => (by rw [hf] at h; cases h), by simp, fun n h => absurd h (by simp [touched])⟩
  · obtain ⟨fl1, e3, e4, h3, h4, rfl⟩ := Out.bind_ok.1 h2
    simp only [Except.ok.injEq, Prod.mk.injEq] at h4
    obtain ⟨rfl, rfl⟩ := h4
    refine ⟨by simp, ?_, ?_⟩
    · intro pids' fl skip hs
      simp only [Option.some.injEq, Prod.mk.injEq] at hs
      exact hs.2.2.symm
    · intro n hn
      rw [List.nil_append] at hn
      rcases touched_append.1 hn with hn | hn
      · unfold emitStartLine at h3
        split at h3
        · exact touched_parentIds _ _ _ _ _ h3 n hn
        · simp only [Except.ok.injEq, Prod.mk.injEq] at h3
          obtain ⟨rfl, rfl⟩ := h3
          exact absurd hn touched_nil
      · exact touched_ids hn

theorem touched_rollupOnes {cfg : FCfg} (ref : SheetRef) (pn key : Str) (fs : List (Str × Json)) (flat fl : FLine) (ev : List Ev)
    (he : emitRollupOnes cfg ref pn key fs flat = .ok (fl, ev)) (n : Str) (h : touched ev n) : ref = some n := by
  induction fs generalizing flat fl ev with
  | nil =>
    simp only [emitRollupOnes, Except.ok.injEq, Prod.mk.injEq] at he
    rw [← he.2] at h
    exact absurd h touched_nil
  | cons e r ih =>
    obtain ⟨k, v⟩ := e
    rw [emitRollupOnes] at he
    obtain ⟨x, e1, e2, h1, h2, rfl⟩ := Out.bind_ok.1 he
    rcases touched_append.1 h with h | h
    · unfold emitRollupOne at h1
      split at h1
      · cases h1; exact absurd h touched_nil
      · split at h1
        · cases h1
        · split at h1
          · cases h1; exact touched_key.1 h
          · cases h1; exact absurd h touched_nil
    · exact ih _ _ _ h2 h

theorem touched_rollupMany {cfg : FCfg} (ref : SheetRef) (pn key : Str) (ks : List Str) (flat : FLine) (n : Str)
    (h : touched (emitRollupMany cfg ref pn key ks flat).2 n) : ref = some n := by
  induction ks generalizing flat with
  | nil => exact absurd h touched_nil
  | cons k r ih =>
    rw [emitRollupMany] at h
    split at h
    · obtain ⟨e, hm, he⟩ := h
      simp only [List.mem_cons] at hm
      rcases hm with rfl | rfl | hm
      · cases he
      · exact touched_key.1 ⟨_, List.mem_singleton.2 rfl, he⟩
      · exact ih _ ⟨e, hm, he⟩
    · exact ih _ h

theorem touched_rollup {cfg : FCfg} (ref : SheetRef) (pn key : Str) (is : List Json) (flat fl : FLine) (ev : List Ev)
    (he : emitRollup cfg ref pn key is flat = .ok (fl, ev)) (n : Str) (h : touched ev n) : ref = some n := by
  unfold emitRollup at he
  split at he
  · cases he; exact absurd h touched_nil
  · split at he
    · cases he
    · split at he
      · cases he; exact absurd h touched_nil
      · exact touched_rollupOnes _ _ _ _ _ _ _ he _ h
      · cases he
      · split at he
        · cases he
        · next ks _ =>
          simp only [Except.ok.injEq] at he
          refine touched_rollupMany (cfg := cfg) ref pn key (cfg.order (dedup ks)) flat n ?_
          rw [he]
          exact h

/-- The arrays of a field. -/
def ValueArray (p : List Str) (v : Json) (a : List Str) : Prop :=
  (∃ l, v = .arr l ∧ joinArray l = none ∧ (a = p ∨ ∃ gs, .obj gs ∈ l ∧ HasArray (p ++ [s%"0"]) gs a)) ∨ ∃ gs, v = .obj gs ∧ HasArray p gs a

theorem hasArray_iff {p : List Str} {fs : List (Str × Json)} {a : List Str} :
    HasArray p fs a ↔ ∃ k v, (k, v) ∈ fs ∧ ValueArray (p ++ [k]) v a := by
  constructor
  · rintro (⟨h1, h2⟩ | ⟨h1, h2⟩ | ⟨h1, h2, h3, h4⟩)
    · exact ⟨_, _, h1, Or.inl ⟨_, rfl, h2, Or.inl rfl⟩⟩
    · exact ⟨_, _, h1, Or.inr ⟨_, rfl, h2⟩⟩
    · exact ⟨_, _, h1, Or.inl ⟨_, rfl, h2, Or.inr ⟨_, h3, by simpa using h4⟩⟩⟩
  · rintro ⟨k, v, h1, (⟨l, rfl, h2, (rfl | ⟨gs, h3, h4⟩)⟩ | ⟨gs, rfl, h2⟩)⟩
    · exact .here h1 h2
    · exact .item h1 h2 h3 (by simpa using h4)
    · exact .deep h1 h2

/-- The sub-sheets touched are, besides the current one, those of the arrays. -/
def Touches (cfg : FCfg) (ref : SheetRef) (ev : List Ev) (A : List Str → Prop) : Prop :=
  (∀ n, touched ev n → ref = some n ∨ ∃ a, A a ∧ sheetOf cfg a = n) ∧ ∀ a, A a → touched ev (sheetOf cfg a)

theorem Touches.append {cfg : FCfg} {ref : SheetRef} {e1 e2 : List Ev} {A B C : List Str → Prop} (h1 : Touches cfg ref e1 A)
    (h2 : Touches cfg ref e2 B) (hc : ∀ a, C a ↔ A a ∨ B a) : Touches cfg ref (e1 ++ e2) C := by
  refine ⟨fun n hn => ?_, fun a ha => ?_⟩
  · rcases touched_append.1 hn with hn | hn
    · rcases h1.1 n hn with h | ⟨a, ha, hn⟩
      · exact Or.inl h
      · exact Or.inr ⟨a, (hc a).2 (Or.inl ha), hn⟩
    · rcases h2.1 n hn with h | ⟨a, ha, hn⟩
      · exact Or.inl h
      · exact Or.inr ⟨a, (hc a).2 (Or.inr ha), hn⟩
  · rcases (hc a).1 ha with h | h
    · exact touched_append.2 (Or.inl (h1.2 a h))
    · exact touched_append.2 (Or.inr (h2.2 a h))

theorem Touches.only {cfg : FCfg} {ref : SheetRef} {ev : List Ev} {A : List Str → Prop} (h : ∀ n, touched ev n → ref = some n)
    (hA : ∀ a, ¬ A a) : Touches cfg ref ev A :=
  ⟨fun n hn => Or.inl (h n hn), fun a ha => absurd ha (hA a)⟩

mutual
theorem touches_fields {cfg : FCfg} (h : NoGeoXml cfg) (hk : ∀ p k, dropped cfg p k = false) (ref : SheetRef) (p : List Str)
    (pids fs : List (Str × Json)) (flat fl : FLine) (ev : List Ev)
    (he : emitFields cfg ref (pnOf p) pids false fs flat = .ok (fl, ev)) : Touches cfg ref ev (HasArray p fs) := by
  match fs with
  | [] =>
    rw [emitFields] at he
    simp only [Except.ok.injEq, Prod.mk.injEq] at he
    obtain ⟨rfl, rfl⟩ := he
    exact .only (fun n hn => absurd hn touched_nil) (fun a ha => by obtain ⟨k, v, h, -⟩ := hasArray_iff.1 ha; cases h)
  | (key, value) :: rest =>
    rw [emitFields] at he
    simp only [Bool.false_and, Bool.false_eq_true, if_false, hk] at he
    obtain ⟨e0, h0, rfl⟩ := Out.after_ok.1 he
    obtain ⟨⟨pn', fl1⟩, e1, e2, h1, h2, rfl⟩ := Out.bind_ok.1 h0
    obtain ⟨rfl, h5⟩ := touches_value h hk ref p pids key value flat pn' fl1 e1 h1
    have h6 := touches_fields h hk ref p pids rest fl1 fl e2 h2
    refine Touches.append (A := fun _ => False) (B := HasArray p ((key, value) :: rest)) (.only (fun n hn => ?_) (by simp)) (h5.append h6 ?_) (by simp)
    · simp [touched, evSub] at hn
    · intro a
      simp only [hasArray_iff, List.mem_cons, Prod.mk.injEq]
      constructor
      · rintro ⟨k, v, (⟨rfl, rfl⟩ | hm), hv⟩
        · exact Or.inl hv
        · exact Or.inr ⟨k, v, hm, hv⟩
      · rintro (hv | ⟨k, v, hm, hv⟩)
        · exact ⟨key, value, Or.inl ⟨rfl, rfl⟩, hv⟩
        · exact ⟨k, v, Or.inr hm, hv⟩
termination_by structural fs
theorem touches_value {cfg : FCfg} (h : NoGeoXml cfg) (hk : ∀ p k, dropped cfg p k = false) (ref : SheetRef) (p : List Str)
    (pids : List (Str × Json)) (key : Str) (v : Json) (flat : FLine) (pn' : Str) (fl : FLine) (ev : List Ev)
    (he : emitValue cfg ref (pnOf p) pids key v flat = .ok ((pn', fl), ev)) :
    pn' = pnOf p ∧ Touches cfg ref ev (ValueArray (p ++ [key]) v) := by
  have hput : ∀ w, (∀ a, ¬ ValueArray (p ++ [key]) v a) →
      (emitPut cfg ref (pnOf p ++ key) w flat).bind (fun fl => .ok ((pnOf p, fl), [])) = .ok ((pn', fl), ev) →
      pn' = pnOf p ∧ Touches cfg ref ev (ValueArray (p ++ [key]) v) := by
    intro w hv h1
    simp only [emitPut, Out.bind, Except.ok.injEq, Prod.mk.injEq, List.append_nil] at h1
    obtain ⟨⟨rfl, rfl⟩, rfl⟩ := h1
    exact ⟨rfl, .only (fun n hn => touched_key.1 hn) hv⟩
  match v with
  | .leaf a =>
    rw [emitValue] at he
    split at he
    · simp only [h.xml, Bool.false_and, Bool.false_eq_true, if_false] at he
      exact hput _ (by rintro a (⟨l, h, -⟩ | ⟨gs, h, -⟩) <;> cases h) he
    · cases he
  | .obj gs =>
    rw [emitValue] at he
    obtain ⟨s, e1, e2, h1, h2, rfl⟩ := Out.bind_ok.1 he
    rw [← pnOf_snoc] at h1 h2
    obtain ⟨h3, h4, h5⟩ := touched_prologue h _ _ _ _ _ _ _ _ h1
    split at h2
    · exact absurd rfl (h3 (filteredOut_deep cfg (by simp) gs))
    · next pids' fl0 skip' =>
      obtain ⟨fl1, e3, e4, h6, h7, rfl⟩ := Out.bind_ok.1 h2
      simp only [Except.ok.injEq, Prod.mk.injEq] at h7
      obtain ⟨⟨rfl, rfl⟩, rfl⟩ := h7
      obtain rfl := h4 _ _ _ rfl
      refine ⟨rfl, ?_⟩
      have h9 := touches_fields h hk ref (p ++ [key]) pids' gs fl0 _ _ h6
      rw [List.append_nil]
      refine Touches.append (A := fun _ => False) (.only h5 (by simp)) h9 ?_
      intro a
      constructor
      · rintro (⟨l, h, -⟩ | ⟨gs', h, h'⟩)
        · cases h
        · cases h; exact Or.inr h'
      · rintro (h | h)
        · exact h.elim
        · exact Or.inr ⟨gs, rfl, h⟩
  | .arr items =>
    rw [emitValue] at he
    split at he
    · next t ht =>
      refine hput _ ?_ he
      rintro a (⟨l, h, hj, -⟩ | ⟨gs, h, -⟩)
      · cases h; rw [ht] at hj; cases hj
      · cases h
    · next hj =>
      obtain ⟨fl1, e1, e2, h1, h2, rfl⟩ := Out.bind_ok.1 he
      have hr := touched_rollup _ _ _ _ _ _ _ h1
      obtain ⟨e3, h5, rfl⟩ := Out.after_ok.1 h2
      obtain ⟨⟨⟩, e5, e6, h6, h7, rfl⟩ := Out.bind_ok.1 h5
      simp only [Except.ok.injEq, Prod.mk.injEq] at h7
      obtain ⟨⟨rfl, rfl⟩, rfl⟩ := h7
      refine ⟨rfl, ?_⟩
      rw [← pnOf_snoc2, subSheetName_sheetOf] at h6
      rw [subSheetName_sheetOf]
      obtain ⟨h8, h9⟩ := touches_items h hk (sheetOf cfg (p ++ [key])) (p ++ [key, s%"0"]) (by simp) pids items e5 h6
      have hval : ∀ a, ValueArray (p ++ [key]) (.arr items) a ↔ (a = p ++ [key] ∨ ∃ gs, .obj gs ∈ items ∧ HasArray (p ++ [key, s%"0"]) gs a) := by
        intro a
        constructor
        · rintro (⟨l, h, -, h'⟩ | ⟨gs, h, -⟩)
          · cases h; simpa using h'
          · cases h
        · intro h'; exact Or.inl ⟨items, rfl, hj, by simpa using h'⟩
      simp only [List.append_nil]
      refine Touches.append (A := fun _ => False) (B := ValueArray (p ++ [key]) (.arr items)) (.only hr (by simp)) ?_ (by simp)
      constructor
      · intro n hn
        rcases touched_append.1 hn with hn | hn
        · simp only [touched, List.mem_singleton, exists_eq_left, evSub, Option.some.injEq] at hn
          exact Or.inr ⟨_, (hval _).2 (Or.inl rfl), hn⟩
        · rcases h8 n hn with rfl | ⟨a, ha, rfl⟩
          · exact Or.inr ⟨_, (hval _).2 (Or.inl rfl), rfl⟩
          · exact Or.inr ⟨a, (hval a).2 (Or.inr ha), rfl⟩
      · intro a ha
        rcases (hval a).1 ha with rfl | ha
        · exact touched_append.2 (Or.inl ⟨.sheet _, by simp, rfl⟩)
        · exact touched_append.2 (Or.inr (h9 a ha))
termination_by structural v
theorem touches_items {cfg : FCfg} (h : NoGeoXml cfg) (hk : ∀ p k, dropped cfg p k = false) (name : Str) (p : List Str) (hp : p ≠ [])
    (pids : List (Str × Json)) (items : List Json) (ev : List Ev)
    (he : emitItems cfg name (pnOf p) pids items = .ok ((), ev)) :
    (∀ n, touched ev n → n = name ∨ ∃ a, (∃ gs, .obj gs ∈ items ∧ HasArray p gs a) ∧ sheetOf cfg a = n) ∧
      ∀ a, (∃ gs, .obj gs ∈ items ∧ HasArray p gs a) → touched ev (sheetOf cfg a) := by
  match items with
  | [] =>
    rw [emitItems] at he
    simp only [Except.ok.injEq, Prod.mk.injEq, true_and] at he
    subst he
    exact ⟨fun n hn => absurd hn touched_nil, by simp⟩
  | .leaf a :: r =>
    rw [emitItems] at he
    split at he
    · obtain ⟨h1, h2⟩ := touches_items h hk name p hp pids r ev he
      exact ⟨by simpa using h1, by simpa using h2⟩
    · cases he
  | .arr _ :: r => rw [emitItems] at he; cases he
  | .obj fs :: r =>
    have rec_ := fun ev he => touches_items h hk name p hp pids r ev he
    rw [emitItems] at he
    obtain ⟨s, e1, e2, h1, h2, rfl⟩ := Out.bind_ok.1 he
    obtain ⟨h3, h4, h5⟩ := touched_prologue h _ _ _ _ _ _ _ _ h1
    split at h2
    · exact absurd rfl (h3 (filteredOut_deep cfg hp fs))
    · next pids' fl0 skip' =>
      obtain ⟨fl1, e3, e4, h6, h7, rfl⟩ := Out.bind_ok.1 h2
      obtain ⟨e5, h8, rfl⟩ := Out.after_ok.1 h7
      obtain rfl := h4 _ _ _ rfl
      obtain ⟨h9, h10⟩ := touches_fields h hk (some name) p pids' fs fl0 _ _ h6
      obtain ⟨h11, h12⟩ := rec_ _ h8
      constructor
      · intro n hn
        simp only [touched_append] at hn
        rcases hn with hn | hn | hn | hn
        · exact Or.inl (Option.some.inj (h5 n hn)).symm
        · rcases h9 n hn with h | ⟨a, ha, hn⟩
          · exact Or.inl (Option.some.inj h).symm
          · exact Or.inr ⟨a, ⟨fs, by simp, ha⟩, hn⟩
        · simp only [touched, List.mem_singleton, exists_eq_left, evSub, Option.some.injEq] at hn
          exact Or.inl hn.symm
        · rcases h11 n hn with h | ⟨a, ⟨gs, h13, h14⟩, hn⟩
          · exact Or.inl h
          · exact Or.inr ⟨a, ⟨gs, by simp [h13], h14⟩, hn⟩
      · rintro a ⟨gs, hm, ha⟩
        simp only [touched_append]
        simp only [List.mem_cons, Json.obj.injEq] at hm
        rcases hm with rfl | hm
        · exact Or.inr (Or.inl (h10 a ha))
        · exact Or.inr (Or.inr (Or.inr (h12 a ⟨gs, hm, ha⟩)))
termination_by structural items
end

theorem touches_root {cfg : FCfg} (h : NoGeoXml cfg) (hf : cfg.filter = none) (hk : ∀ p k, dropped cfg p k = false) (n : Nat) (l : List Json)
    (ev : List Ev) (he : emitRootList cfg n l = .ok ((), ev)) :
    Touches cfg none ev (fun a => ∃ fs, .obj fs ∈ l ∧ HasArray [] fs a) := by
  induction l generalizing n ev with
  | nil =>
    rw [emitRootList] at he
    simp only [Except.ok.injEq, Prod.mk.injEq, true_and] at he
    subst he
    exact .only (fun n hn => absurd hn touched_nil) (by simp)
  | cons j r ih =>
    rw [emitRootList] at he
    obtain ⟨⟨⟩, e1, e2, h1, h2, rfl⟩ := Out.bind_ok.1 he
    have h3 := ih (n + 1) _ h2
    refine Touches.append (A := fun a => ∃ fs, j = .obj fs ∧ HasArray [] fs a) ?_ h3 ?_
    · unfold emitRootItem at h1
      split at h1
      · simp only [Except.ok.injEq, Prod.mk.injEq, true_and] at h1
        subst h1
        refine .only (fun n hn => ?_) (by simp)
        split at hn <;> simp [touched, evSub] at hn
      · simp only [Except.ok.injEq, Prod.mk.injEq, true_and] at h1
        subst h1
        exact .only (fun n hn => by simp [touched, evSub] at hn) (by simp)
      · next fs =>
        obtain ⟨s, e1, e2, h4, h5, rfl⟩ := Out.bind_ok.1 h1
        obtain ⟨h6, h7, h8⟩ := touched_prologue h _ _ _ _ _ _ _ _ h4
        split at h5
        · exact absurd rfl (h6 (by simp [filteredOut, hf]))
        · next pids' fl0 skip' =>
          obtain ⟨fl1, e3, e4, h9, h10, rfl⟩ := Out.bind_ok.1 h5
          simp only [Except.ok.injEq, Prod.mk.injEq, true_and] at h10
          subst h10
          obtain rfl := h7 _ _ _ rfl
          have h11 := touches_fields h hk none [] pids' fs fl0 _ _ h9
          refine Touches.append (A := fun _ => False) (.only h8 (by simp)) (B := HasArray [] fs) ?_ (by simp)
          refine Touches.append h11 (B := fun _ => False) (.only (fun n hn => by simp [touched, evSub] at hn) (by simp)) (by simp)
    · intro a
      constructor
      · rintro ⟨fs, hm, ha⟩
        simp only [List.mem_cons] at hm
        rcases hm with rfl | hm
        · exact Or.inl ⟨fs, rfl, ha⟩
        · exact Or.inr ⟨fs, hm, ha⟩
      · rintro (⟨fs, rfl, ha⟩ | ⟨fs, hm, ha⟩)
        · exact ⟨fs, by simp, ha⟩
        · exact ⟨fs, by simp [hm], ha⟩

end Verif
