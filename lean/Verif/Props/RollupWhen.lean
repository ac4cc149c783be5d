import Verif.Props.FlattenRollup
/-! C30: when flattening with rollup succeeds. -/
namespace Verif
open Spec

theorem basic_iff {v : Json} : v.basic = true ↔ ∃ a : Atom, v = .leaf a ∧ a.basic = true := by
  cases v <;> simp [Json.basic]

theorem emitRollupOnes_iff {cfg : FCfg} (hk : cfg.preserve = []) (ref : SheetRef) (pn key : Str) (fs : List (Str × Json)) (flat : FLine) :
    (∃ r, emitRollupOnes cfg ref pn key fs flat = .ok r) ↔ ∀ k v, (k, v) ∈ fs → v.basic = true := by
  induction fs generalizing flat with
  | nil => simp [emitRollupOnes]
  | cons e r ih =>
    obtain ⟨k0, v0⟩ := e
    have hd : rollupDropped cfg pn key k0 = false := by simp [rollupDropped, hk]
    have h1 : (∃ x, emitRollupOne cfg ref pn key k0 v0 flat = .ok x) ↔ v0.basic = true := by
      unfold emitRollupOne
      rw [hd]
      cases hb : v0.basic with
      | false => simp
      | true =>
        simp only [Bool.false_eq_true, if_false, Bool.not_true, iff_true]
        split
        · exact ⟨_, rfl⟩
        · exact ⟨_, rfl⟩
    rw [emitRollupOnes]
    constructor
    · rintro ⟨⟨a, ev⟩, h⟩ k v hm
      obtain ⟨x, e1, e2, h2, h3, -⟩ := Out.bind_ok.1 h
      rcases List.mem_cons.1 hm with hm | hm
      · cases hm; exact h1.1 ⟨_, h2⟩
      · exact (ih x).1 ⟨_, h3⟩ k v hm
    · intro h
      obtain ⟨⟨x, e1⟩, h2⟩ := h1.2 (h k0 v0 (by simp))
      obtain ⟨⟨y, e2⟩, h3⟩ := (ih x).2 (fun k v hm => h k v (by simp [hm]))
      exact ⟨_, Out.bind_ok.2 ⟨_, _, _, h2, h3, rfl⟩⟩

theorem allKeys_iff (l : List Json) : (allKeys l).isSome = true ↔ ∀ j ∈ l, ∃ gs, j = .obj gs := by
  induction l with
  | nil => simp [allKeys]
  | cons j r ih =>
    cases j with
    | obj fs =>
      rw [allKeys, Option.isSome_map, ih]
      simp
    | leaf a =>
      simp only [allKeys, Option.isSome_none, Bool.false_eq_true, false_iff]
      intro h
      obtain ⟨gs, hg⟩ := h (.leaf a) (by simp)
      cases hg
    | arr a =>
      simp only [allKeys, Option.isSome_none, Bool.false_eq_true, false_iff]
      intro h
      obtain ⟨gs, hg⟩ := h (.arr a) (by simp)
      cases hg

theorem emitRollup_iff {cfg : FCfg} (h : PlainR cfg) (hk : cfg.preserve = []) (key : Str) (l : List Json) (flat : FLine) :
    (∃ r, emitRollup cfg none [] key l flat = .ok r) ↔
      (∀ j ∈ l, ∃ gs, j = .obj gs) ∧ ∀ gs, l = [.obj gs] → ∀ k v, (k, v) ∈ gs → ∃ a : Atom, v = .leaf a ∧ a.basic = true := by
  unfold emitRollup
  rw [if_neg (by simp [h.rollup]), if_neg (by simp [h.titles])]
  match l with
  | [] => simp
  | [.obj fs] =>
    rw [emitRollupOnes_iff hk]
    simp only [basic_iff]
    constructor
    · intro h
      refine ⟨by simp, ?_⟩
      intro gs hg
      cases hg
      exact h
    · intro h
      exact h.2 fs rfl
  | [.leaf a] =>
    simp only [reduceCtorEq, exists_false, false_iff]
    intro h
    obtain ⟨gs, hg⟩ := h.1 (.leaf a) (by simp)
    cases hg
  | [.arr a] =>
    simp only [reduceCtorEq, exists_false, false_iff]
    intro h
    obtain ⟨gs, hg⟩ := h.1 (.arr a) (by simp)
    cases hg
  | a :: b :: r =>
    rw [← allKeys_iff]
    cases hk : allKeys (a :: b :: r) with
    | none => simp [hk]
    | some ks => simp [hk]

theorem emitFields_root_rollable {cfg : FCfg} (h : PlainR cfg) (hk : cfg.preserve = []) (pids : List (Str × Json))
    (fs : List (Str × Json)) (flat fl : FLine) (ev : List Ev)
    (he : emitFields cfg none [] pids false fs flat = .ok (fl, ev)) : Rollable fs := by
  induction fs generalizing flat ev with
  | nil => intro k l hm; cases hm
  | cons e r ih =>
    obtain ⟨k0, v0⟩ := e
    rw [emitFields, if_neg (by simp)] at he
    obtain ⟨ev1, he', rfl⟩ := Out.after_ok.1 he
    rw [if_neg (by simp [dropped_nil hk])] at he'
    obtain ⟨⟨pn', fl1⟩, e1, e2, h1, h2, rfl⟩ := Out.bind_ok.1 he'
    have hpn := (emitValue_counts h.wkt h.xml none [] [] pids k0 v0 flat pn' fl1 e1 h1).1
    rw [show pnOf [] = [] from rfl] at hpn
    subst hpn
    intro k l hm hj
    rcases List.mem_cons.1 hm with hm | hm
    · cases hm
      rw [emitValue, hj] at h1
      obtain ⟨fl2, e3, e4, h3, h4, rfl⟩ := Out.bind_ok.1 h1
      exact (emitRollup_iff h hk _ l flat).1 ⟨_, h3⟩
    · exact ih _ _ h2 k l hm hj

theorem emitFields_root_total {cfg : FCfg} (h : PlainR cfg) (hk : cfg.preserve = []) (pids : List (Str × Json))
    (fs : List (Str × Json)) (hf : FlattenableFields fs) (hr : Rollable fs) (flat : FLine) :
    ∃ r, emitFields cfg none [] pids false fs flat = .ok r := by
  induction fs generalizing flat with
  | nil => rw [emitFields]; exact ⟨_, rfl⟩
  | cons e r ih =>
    obtain ⟨k0, v0⟩ := e
    rw [FlattenableFields] at hf
    have hr' : Rollable r := fun key l hm => hr key l (by simp [hm])
    rw [emitFields, if_neg (by simp), if_neg (by simp [dropped_nil hk])]
    have hv : ∃ fl ev, emitValue cfg none [] pids k0 v0 flat = .ok (([], fl), ev) := by
      have ht := emitValue_total h.plain none [] pids k0 v0 hf.1 flat
      rw [show pnOf [] = [] from rfl] at ht
      cases v0 with
      | leaf a =>
        rw [emitValue] at ht ⊢
        exact ht
      | obj gs =>
        obtain ⟨fl, ev, ht⟩ := ht
        refine ⟨fl, ev, ?_⟩
        rw [emitValue] at ht ⊢
        rw [emitPrologue_noRollup] at ht
        have rec_ := fun pids' skip fl => emitFields_noRollup cfg [] cfg.order h.xml none ([] ++ (k0 ++ s%"/")) (by simp) pids' skip gs fl
        simp only [rec_] at ht
        exact ht
      | arr l =>
        rw [emitValue] at ht ⊢
        cases hj : joinArray l with
        | some t =>
          rw [hj] at ht
          exact ⟨_, _, rfl⟩
        | none =>
          rw [hj] at ht
          obtain ⟨⟨fl1, e1⟩, h1⟩ := (emitRollup_iff h hk k0 l flat).2 (hr k0 l (by simp) hj)
          obtain ⟨fl, ev, ht⟩ := ht
          obtain ⟨_, _, _, _, h3, -⟩ := Out.bind_ok.1 ht
          obtain ⟨_, h4, -⟩ := Out.after_ok.1 h3
          obtain ⟨_, _, _, h5, -, -⟩ := Out.bind_ok.1 h4
          rw [emitItems_noRollup cfg [] cfg.order h.xml _ _ (by simp)] at h5
          exact ⟨_, _, Out.bind_ok.2 ⟨_, _, _, h1, Out.after_ok.2 ⟨_, Out.bind_ok.2 ⟨_, _, _, h5, rfl, rfl⟩, rfl⟩, rfl⟩⟩
    obtain ⟨fl, ev, hv⟩ := hv
    obtain ⟨⟨x, e2⟩, h2⟩ := ih hf.2 hr' fl
    exact ⟨_, Out.after_ok.2 ⟨_, Out.bind_ok.2 ⟨_, _, _, hv, h2, rfl⟩, rfl⟩⟩

/-- C30: with rollup, exactly those documents are flattened that are flattened without rollup and whose root objects have no arrays that rollup
cannot deal with: arrays with `null`, and arrays of one object that has objects or arrays in it. -/
theorem C30_flatten_iff (cfg : FCfg) (ht : cfg.useTitles = false) (hw : cfg.wkt = false) (hx : cfg.xml = false) (hr : cfg.rollup ≠ [])
    (hf : cfg.filter = none) (hk : cfg.preserve = []) (root : List Json) :
    (∃ st, flatten cfg root = .ok st) ↔ ∀ fs ∈ objects root, FlattenableFields fs ∧ Rollable fs := by
  have hp : PlainR cfg := ⟨ht, hw, hx, hr⟩
  constructor
  · rintro ⟨st, h⟩
    obtain ⟨st', h1, -⟩ := C30_sub_sheets_unchanged cfg hx root st h
    have h2 := (C23_flatten_iff _ hp.plain hf hk root).1 ⟨st', h1⟩
    obtain ⟨ev, he, -⟩ := flatten_ok.1 h
    intro fs hfs
    refine ⟨h2 fs hfs, ?_⟩
    clear h2 h1 h
    generalize (0 : Nat) = n at he
    induction root generalizing n ev with
    | nil => cases hfs
    | cons j r ih =>
      rw [emitRootList] at he
      obtain ⟨⟨⟩, e1, e2, h1, h2, rfl⟩ := Out.bind_ok.1 he
      cases j with
      | leaf a => exact ih _ hfs _ h2
      | arr a => exact ih _ hfs _ h2
      | obj gs =>
        simp only [objects, List.mem_cons] at hfs
        rcases hfs with rfl | hfs
        · unfold emitRootItem at h1
          obtain ⟨s, e3, e4, h5, h6, rfl⟩ := Out.bind_ok.1 h1
          obtain ⟨ev0, h7, h8⟩ := emitPrologue_plain hp.plain none [] false [] fs none (by simp [filteredOut, withRollup, hf])
          rw [show pnOf [] = [] from rfl, emitPrologue_noRollup] at h7
          rw [h7] at h5
          simp only [Except.ok.injEq, Prod.mk.injEq] at h5
          rw [← h5.1] at h6
          obtain ⟨_, _, _, h9, -, -⟩ := Out.bind_ok.1 h6
          exact emitFields_root_rollable hp hk _ _ _ _ _ h9
        · exact ih _ hfs _ h2
  · intro h
    have key : ∀ n, ∃ ev, emitRootList cfg n root = .ok ((), ev) := by
      induction root with
      | nil => intro n; exact ⟨_, rfl⟩
      | cons j r ih =>
        intro n
        rw [emitRootList]
        have hr : ∀ fs ∈ objects r, FlattenableFields fs ∧ Rollable fs := by
          intro fs hfs; apply h; cases j <;> simp [objects, hfs]
        obtain ⟨ev2, hr2⟩ := ih hr (n + 1)
        have h1 : ∃ ev, emitRootItem cfg n j = .ok ((), ev) := by
          unfold emitRootItem
          cases j with
          | leaf a => exact ⟨_, rfl⟩
          | arr a => exact ⟨_, rfl⟩
          | obj fs =>
            obtain ⟨ev0, h7, -⟩ := emitPrologue_plain hp.plain none [] false [] fs none (by simp [filteredOut, withRollup, hf])
            rw [show pnOf [] = [] from rfl, emitPrologue_noRollup] at h7
            have hfs := h fs (by simp [objects])
            obtain ⟨⟨a, b⟩, hr⟩ := emitFields_root_total hp hk (idsBelow (idOpts cfg) [] fs []) fs hfs.1 hfs.2 []
            refine ⟨_, Out.bind_ok.2 ⟨_, _, _, h7, Out.bind_ok.2 ⟨a, b, _, hr, rfl, rfl⟩, rfl⟩⟩
        obtain ⟨ev1, h1⟩ := h1
        exact ⟨_, Out.bind_ok.2 ⟨(), ev1, ev2, h1, hr2, rfl⟩⟩
    obtain ⟨ev, hev⟩ := key 0
    exact ⟨_, flatten_ok.2 ⟨ev, hev, rfl⟩⟩

end Verif
