import Verif.Proofs.EmitPlain
import Verif.Proofs.Str
/-! Lemmas on the cells and items of the flattening specification. -/
namespace Verif
open Spec

/-! ### Flattening does not fail on flattenable documents -/

mutual
theorem emitFields_total {cfg : FCfg} (h : Plain cfg) (ref : SheetRef) (p : List Str) (pids : List (Str × Json))
    (fs : List (Str × Json)) (hf : FlattenableFields fs) (flat : FLine) :
    ∃ r, emitFields cfg ref (pnOf p) pids false fs flat = .ok r := by
  match fs with
  | [] => rw [emitFields]; exact ⟨_, rfl⟩
  | (k, v) :: r =>
    rw [FlattenableFields] at hf
    have rec_ := fun fl => emitFields_total h ref p pids r hf.2 fl
    rw [emitFields, if_neg (by simp)]
    split
    · obtain ⟨⟨a, b⟩, hr⟩ := rec_ flat
      exact ⟨_, by rw [hr]; rfl⟩
    · obtain ⟨fl, ev, hr⟩ := emitValue_total h ref p pids k v hf.1 flat
      obtain ⟨⟨a, b⟩, hr2⟩ := rec_ fl
      refine ⟨(a, [Ev.seen (Py.replaceAll s%"/0" [] (pnOf p) ++ k)] ++ (ev ++ b)), Out.after_ok.2 ⟨_, ?_, rfl⟩⟩
      exact Out.bind_ok.2 ⟨_, _, _, hr, hr2, rfl⟩
termination_by structural fs
theorem emitValue_total {cfg : FCfg} (h : Plain cfg) (ref : SheetRef) (p : List Str) (pids : List (Str × Json)) (k : Str)
    (v : Json) (hf : Flattenable v) (flat : FLine) :
    ∃ fl ev, emitValue cfg ref (pnOf p) pids k v flat = .ok ((pnOf p, fl), ev) := by
  match v with
  | .leaf a =>
    rw [Flattenable] at hf
    rw [emitValue, if_pos hf, if_neg (by simp [h.xml])]
    exact ⟨_, _, rfl⟩
  | .obj gs =>
    rw [Flattenable] at hf
    rw [emitValue]
    have hpn : pnOf p ++ (k ++ s%"/") = pnOf (p ++ [k]) := by simp [pnOf]
    rw [hpn]
    obtain ⟨ev0, h3, -⟩ := emitPrologue_plain h ref (p ++ [k]) false pids gs (some flat) (filteredOut_deep cfg (by simp) gs)
    obtain ⟨⟨a, b⟩, hr⟩ := emitFields_total h ref (p ++ [k]) (idsBelow (idOpts cfg) (p ++ [k]) gs pids) gs hf flat
    refine ⟨a, ev0 ++ (b ++ []), ?_⟩
    refine Out.bind_ok.2 ⟨_, _, _, h3, ?_, rfl⟩
    exact Out.bind_ok.2 ⟨a, b, [], hr, rfl, rfl⟩
  | .arr l =>
    rw [Flattenable] at hf
    rw [emitValue]
    cases hj : joinArray l with
    | some t => exact ⟨_, _, rfl⟩
    | none =>
      rw [hj] at hf
      have hf' : FlattenableItems l := by simpa using hf
      have hpn : pnOf p ++ (k ++ s%"/0/") = pnOf (p ++ [k] ++ [s%"0"]) := by simp [pnOf]
      obtain ⟨ev, hr⟩ := emitItems_total h (subSheetName cfg (pnOf p) k) (p ++ [k]) pids l hf'
      dsimp only
      rw [hpn]
      simp only [emitRollup, h.rollup, List.isEmpty_nil, Bool.true_or, if_true]
      exact ⟨flat, [] ++ ([Ev.sheet (subSheetName cfg (pnOf p) k)] ++ (ev ++ [])), Out.bind_ok.2
        ⟨flat, [], _, rfl, Out.after_ok.2 ⟨_, Out.bind_ok.2 ⟨(), ev, [], hr, rfl, rfl⟩, rfl⟩, rfl⟩⟩
termination_by structural v
theorem emitItems_total {cfg : FCfg} (h : Plain cfg) (name : Str) (p : List Str) (pids : List (Str × Json)) (l : List Json)
    (hf : FlattenableItems l) : ∃ ev, emitItems cfg name (pnOf (p ++ [s%"0"])) pids l = .ok ((), ev) := by
  match l with
  | [] => rw [emitItems]; exact ⟨_, rfl⟩
  | .leaf a :: r =>
    rw [FlattenableItems] at hf
    rw [emitItems, if_pos hf.1]
    exact emitItems_total h name p pids r hf.2
  | .arr _ :: r => rw [FlattenableItems] at hf; exact absurd hf id
  | .obj fs :: r =>
    rw [FlattenableItems] at hf
    obtain ⟨ev2, hr2⟩ := emitItems_total h name p pids r hf.2
    rw [emitItems]
    obtain ⟨ev0, h3, -⟩ := emitPrologue_plain h (some name) (p ++ [s%"0"]) true pids fs none
      (filteredOut_deep cfg (by simp) fs)
    obtain ⟨⟨a, b⟩, hr⟩ := emitFields_total h (some name) (p ++ [s%"0"]) (idsBelow (idOpts cfg) (p ++ [s%"0"]) fs pids) fs hf.1
      (Dict.update [] pids)
    exact ⟨ev0 ++ (b ++ ([Ev.line (some name) a] ++ ev2)), Out.bind_ok.2 ⟨_, _, _, h3,
      Out.bind_ok.2 ⟨a, b, _, hr, Out.after_ok.2 ⟨_, hr2, rfl⟩, rfl⟩, rfl⟩⟩
termination_by structural l
end

theorem emitRootList_total {cfg : FCfg} (h : Plain cfg) (n : Nat) (l : List Json)
    (hf : ∀ fs ∈ objects l, FlattenableFields fs) : ∃ ev, emitRootList cfg n l = .ok ((), ev) := by
  induction l generalizing n with
  | nil => exact ⟨_, rfl⟩
  | cons j r ih =>
    rw [emitRootList]
    have hr : ∀ fs ∈ objects r, FlattenableFields fs := by
      intro fs hfs; apply hf; cases j <;> simp [objects, hfs]
    obtain ⟨ev2, hr2⟩ := ih (n + 1) hr
    have h1 : ∃ ev, emitRootItem cfg n j = .ok ((), ev) := by
      unfold emitRootItem
      cases j with
      | leaf a => exact ⟨_, rfl⟩
      | arr a => exact ⟨_, rfl⟩
      | obj fs =>
        cases hfo : filteredOut cfg (pnOf []) fs with
        | false =>
          obtain ⟨ev0, h7, -⟩ := emitPrologue_plain h none [] false [] fs none hfo
          obtain ⟨⟨a, b⟩, hr⟩ := emitFields_total h none [] (idsBelow (idOpts cfg) [] fs []) fs (hf fs (by simp [objects])) []
          refine ⟨_, Out.bind_ok.2 ⟨_, _, _, h7, Out.bind_ok.2 ⟨a, b, _, hr, rfl, rfl⟩, rfl⟩⟩
        | true =>
          refine ⟨[], ?_⟩
          simp only [emitPrologue, emitGeo, h.wkt, Bool.false_and, Bool.false_eq_true, if_false, Out.bind, emitStart]
          rw [show pnOf [] = [] from rfl] at hfo
          simp [hfo]
    obtain ⟨ev1, h1⟩ := h1
    exact ⟨_, Out.bind_ok.2 ⟨(), ev1, ev2, h1, hr2, rfl⟩⟩

/-! ### … and only on them -/

theorem dropped_nil {cfg : FCfg} (h : cfg.preserve = []) (pn key : Str) : dropped cfg pn key = false := by simp [dropped, h]

mutual
theorem emitFields_only {cfg : FCfg} (h : Plain cfg) (hk : cfg.preserve = []) (ref : SheetRef) (p : List Str) (pids : List (Str × Json))
    (fs : List (Str × Json)) (flat : FLine) (r : FLine × List Ev) (hr : emitFields cfg ref (pnOf p) pids false fs flat = .ok r) :
    FlattenableFields fs := by
  match fs with
  | [] => trivial
  | (k, v) :: rest =>
    have rec_ := fun fl r => emitFields_only h hk ref p pids rest fl r
    rw [emitFields, if_neg (by simp)] at hr
    rw [dropped_nil hk, if_neg (by simp)] at hr
    obtain ⟨a, ev⟩ := r
    obtain ⟨ev1, h1, -⟩ := Out.after_ok.1 hr
    obtain ⟨⟨pn', fl⟩, e1, e2, h2, h3, -⟩ := Out.bind_ok.1 h1
    obtain ⟨hf, rfl⟩ := emitValue_only h hk ref p pids k v flat _ _ _ h2
    exact ⟨hf, rec_ _ _ h3⟩
termination_by structural fs
theorem emitValue_only {cfg : FCfg} (h : Plain cfg) (hk : cfg.preserve = []) (ref : SheetRef) (p : List Str) (pids : List (Str × Json)) (k : Str)
    (v : Json) (flat : FLine) (pn' : Str) (fl : FLine) (ev : List Ev) (hr : emitValue cfg ref (pnOf p) pids k v flat = .ok ((pn', fl), ev)) :
    Flattenable v ∧ pn' = pnOf p := by
  match v with
  | .leaf a =>
    rw [emitValue] at hr
    split at hr
    · next hb =>
      rw [if_neg (by simp [h.xml])] at hr
      obtain ⟨_, _, _, -, h2, -⟩ := Out.bind_ok.1 hr
      simp only [Except.ok.injEq, Prod.mk.injEq] at h2
      exact ⟨hb, h2.1.1.symm⟩
    · cases hr
  | .obj gs =>
    have rec_ := fun ids fl r => emitFields_only h hk ref (p ++ [k]) ids gs fl r
    rw [emitValue] at hr
    have hpn : pnOf p ++ (k ++ s%"/") = pnOf (p ++ [k]) := by simp [pnOf]
    rw [hpn] at hr
    obtain ⟨ev0, h3, -⟩ := emitPrologue_plain h ref (p ++ [k]) false pids gs (some flat) (filteredOut_deep cfg (by simp) gs)
    rw [h3] at hr
    obtain ⟨s, _, _, h4, h5, -⟩ := Out.bind_ok.1 hr
    simp only [Except.ok.injEq, Prod.mk.injEq] at h4
    rw [← h4.1] at h5
    obtain ⟨_, _, _, h6, h7, -⟩ := Out.bind_ok.1 h5
    simp only [Except.ok.injEq, Prod.mk.injEq] at h7
    exact ⟨rec_ _ _ _ h6, h7.1.1.symm⟩
  | .arr l =>
    have rec_ := fun name ev => emitItems_only h hk name (p ++ [k]) pids l ev
    rw [emitValue] at hr
    cases hj : joinArray l with
    | some t =>
      rw [hj] at hr
      obtain ⟨_, _, _, -, h2, -⟩ := Out.bind_ok.1 hr
      simp only [Except.ok.injEq, Prod.mk.injEq] at h2
      exact ⟨Or.inl (by rw [hj]; rfl), h2.1.1.symm⟩
    | none =>
      rw [hj] at hr
      have hpn : pnOf p ++ (k ++ s%"/0/") = pnOf (p ++ [k] ++ [s%"0"]) := by simp [pnOf]
      dsimp only at hr
      rw [hpn] at hr
      obtain ⟨_, _, _, -, h2, -⟩ := Out.bind_ok.1 hr
      obtain ⟨_, h3, -⟩ := Out.after_ok.1 h2
      obtain ⟨⟨⟩, _, _, h4, h5, -⟩ := Out.bind_ok.1 h3
      simp only [Except.ok.injEq, Prod.mk.injEq] at h5
      exact ⟨Or.inr (rec_ _ _ h4), h5.1.1.symm⟩
termination_by structural v
theorem emitItems_only {cfg : FCfg} (h : Plain cfg) (hk : cfg.preserve = []) (name : Str) (p : List Str) (pids : List (Str × Json)) (l : List Json)
    (ev : List Ev) (hr : emitItems cfg name (pnOf (p ++ [s%"0"])) pids l = .ok ((), ev)) : FlattenableItems l := by
  match l with
  | [] => trivial
  | .leaf a :: r =>
    have rec_ := fun ev => emitItems_only h hk name p pids r ev
    rw [emitItems] at hr
    split at hr
    · next ha => exact ⟨ha, rec_ _ hr⟩
    · cases hr
  | .arr _ :: r => rw [emitItems] at hr; cases hr
  | .obj fs :: r =>
    have rec_ := fun ev => emitItems_only h hk name p pids r ev
    have rec' := fun ids fl r => emitFields_only h hk (some name) (p ++ [s%"0"]) ids fs fl r
    rw [emitItems] at hr
    obtain ⟨ev0, h3, -⟩ := emitPrologue_plain h (some name) (p ++ [s%"0"]) true pids fs none
      (filteredOut_deep cfg (by simp) fs)
    rw [h3] at hr
    obtain ⟨s, _, _, h4, h5, -⟩ := Out.bind_ok.1 hr
    simp only [Except.ok.injEq, Prod.mk.injEq] at h4
    rw [← h4.1] at h5
    obtain ⟨_, _, _, h6, h7, -⟩ := Out.bind_ok.1 h5
    obtain ⟨_, h8, -⟩ := Out.after_ok.1 h7
    exact ⟨rec' _ _ _ h6, rec_ _ h8⟩
termination_by structural l
end

theorem emitRootList_only {cfg : FCfg} (h : Plain cfg) (hf : cfg.filter = none) (hk : cfg.preserve = []) (n : Nat) (l : List Json) (ev : List Ev)
    (hr : emitRootList cfg n l = .ok ((), ev)) : ∀ fs ∈ objects l, FlattenableFields fs := by
  induction l generalizing n ev with
  | nil => intro fs hfs; cases hfs
  | cons j r ih =>
    rw [emitRootList] at hr
    obtain ⟨⟨⟩, e1, e2, h1, h2, -⟩ := Out.bind_ok.1 hr
    have ih := ih _ _ h2
    cases j with
    | leaf a => exact ih
    | arr a => exact ih
    | obj gs =>
      intro fs hfs
      simp only [objects, List.mem_cons] at hfs
      rcases hfs with rfl | hfs
      · unfold emitRootItem at h1
        obtain ⟨ev0, h7, -⟩ := emitPrologue_plain h none [] false [] fs none (by simp [filteredOut, hf])
        dsimp only at h1
        rw [show ([] : Str) = pnOf [] from rfl] at h1
        rw [h7] at h1
        obtain ⟨s, _, _, h4, h5, -⟩ := Out.bind_ok.1 h1
        simp only [Except.ok.injEq, Prod.mk.injEq] at h4
        rw [← h4.1] at h5
        obtain ⟨_, _, _, h6, -, -⟩ := Out.bind_ok.1 h5
        exact emitFields_only h hk none [] _ fs _ _ h6
      · exact ih fs hfs

/-! ### Cells as a relation -/

mutual
theorem mem_cells (keep : List Str → Str → Bool) (p : List Str) (fs : List (Str × Json)) (q : List Str) (v : Json) :
    (q, v) ∈ cells keep p fs ↔ HasCell keep p fs q v := by
  match fs with
  | [] =>
    rw [cells]
    constructor
    · intro h; simp at h
    · intro h; cases h <;> simp_all
  | (k, w) :: r =>
    have rec_ := mem_cells keep p r q v
    have recv := mem_valueCells keep p k w q v
    rw [cells, List.mem_append, rec_]
    constructor
    · rintro (h | h)
      · split at h
        · next hk =>
          rcases (recv.1 h) with ⟨a, rfl, rfl, rfl⟩ | ⟨l, t, rfl, hj, rfl, rfl⟩ | ⟨gs, rfl, hg⟩
          · exact .scalar (by simp) hk
          · exact .list (l := l) (by simp) hk hj
          · exact .deep (gs := gs) (k := k) (by simp) hk hg
        · simp at h
      · cases h with
        | scalar hm hk => exact .scalar (by simp [hm]) hk
        | list hm hk hj => exact .list (by simp [hm]) hk hj
        | deep hm hk hg => exact .deep (by simp [hm]) hk hg
    · intro h
      cases h with
      | scalar hm hk =>
        rcases List.mem_cons.1 hm with hm | hm
        · cases hm; left; rw [if_pos hk]; exact recv.2 (Or.inl ⟨_, rfl, rfl, rfl⟩)
        · exact Or.inr (.scalar hm hk)
      | list hm hk hj =>
        rcases List.mem_cons.1 hm with hm | hm
        · cases hm; left; rw [if_pos hk]; exact recv.2 (Or.inr (Or.inl ⟨_, _, rfl, hj, rfl, rfl⟩))
        · exact Or.inr (.list hm hk hj)
      | deep hm hk hg =>
        rcases List.mem_cons.1 hm with hm | hm
        · cases hm; left; rw [if_pos hk]; exact recv.2 (Or.inr (Or.inr ⟨_, rfl, hg⟩))
        · exact Or.inr (.deep hm hk hg)
termination_by structural fs
theorem mem_valueCells (keep : List Str → Str → Bool) (p : List Str) (k : Str) (w : Json) (q : List Str) (v : Json) :
    (q, v) ∈ valueCells keep (p ++ [k]) w ↔ (∃ a, w = .leaf a ∧ q = p ++ [k] ∧ v = .leaf a) ∨
      (∃ l t, w = .arr l ∧ joinArray l = some t ∧ q = p ++ [k] ∧ v = .leaf (.str t)) ∨
      (∃ gs, w = .obj gs ∧ HasCell keep (p ++ [k]) gs q v) := by
  match w with
  | .leaf a => rw [valueCells]; simp
  | .obj gs => rw [valueCells, mem_cells keep (p ++ [k]) gs q v]; simp
  | .arr l =>
    rw [valueCells]
    cases hj : joinArray l <;> simp [hj]
termination_by structural w
end

theorem Spec.HasCell.starts {keep : List Str → Str → Bool} {p q : List Str} {fs : List (Str × Json)} {v : Json}
    (h : HasCell keep p fs q v) : ∃ k r, q = p ++ k :: r ∧ k ∈ Dict.keys fs := by
  induction h with
  | scalar hm _ => exact ⟨_, [], rfl, Dict.mem_keys_of_mem hm⟩
  | list hm _ _ => exact ⟨_, [], rfl, Dict.mem_keys_of_mem hm⟩
  | deep hm _ _ ih =>
    obtain ⟨k, r, hq, -⟩ := ih
    exact ⟨_, k :: r, by rw [hq]; simp, Dict.mem_keys_of_mem hm⟩

theorem cleanFields_mem {fs : List (Str × Json)} (h : CleanFields fs) {k : Str} {v : Json} (hm : (k, v) ∈ fs) :
    CleanKeys v := by
  induction fs with
  | nil => simp at hm
  | cons e r ih =>
    obtain ⟨k', v'⟩ := e
    rw [CleanFields] at h
    rcases List.mem_cons.1 hm with hm | hm
    · cases hm; exact h.1
    · exact ih h.2 hm

theorem Spec.HasCell.clean {keep : List Str → Str → Bool} {p q : List Str} {fs : List (Str × Json)} {v : Json}
    (h : HasCell keep p fs q v) (hc : CleanKeys (.obj fs)) (hp : ∀ x ∈ p, '/' ∉ x) : ∀ x ∈ q, '/' ∉ x := by
  induction h with
  | scalar hm _ =>
    rw [CleanKeys] at hc
    intro x hx
    rcases List.mem_append.1 hx with hx | hx
    · exact hp x hx
    · simp only [List.mem_singleton] at hx; subst hx; exact hc.2.1 _ (Dict.mem_keys_of_mem hm)
  | list hm _ _ =>
    rw [CleanKeys] at hc
    intro x hx
    rcases List.mem_append.1 hx with hx | hx
    · exact hp x hx
    · simp only [List.mem_singleton] at hx; subst hx; exact hc.2.1 _ (Dict.mem_keys_of_mem hm)
  | deep hm _ _ ih =>
    rw [CleanKeys] at hc
    apply ih (cleanFields_mem hc.2.2 hm)
    intro x hx
    rcases List.mem_append.1 hx with hx | hx
    · exact hp x hx
    · simp only [List.mem_singleton] at hx; subst hx; exact hc.2.1 _ (Dict.mem_keys_of_mem hm)

theorem pathText_inj {a b : List Str} (ha : a ≠ []) (hb : b ≠ []) (ha' : ∀ x ∈ a, '/' ∉ x) (hb' : ∀ x ∈ b, '/' ∉ x)
    (h : pathText a = pathText b) : a = b := Py.join_inj ha hb ha' hb' h

theorem nodup_fst_unique {fs : List (Str × Json)} (h : (Dict.keys fs).Nodup) {k : Str} {v w : Json} (h1 : (k, v) ∈ fs)
    (h2 : (k, w) ∈ fs) : v = w := by
  have := (Dict.get_of_mem h h1).symm.trans (Dict.get_of_mem h h2)
  simpa using this

/-- A path has one value. -/
theorem Spec.HasCell.unique {keep : List Str → Str → Bool} {p q : List Str} {fs : List (Str × Json)} {v w : Json}
    (h : HasCell keep p fs q v) (h' : HasCell keep p fs q w) (hc : CleanKeys (.obj fs)) : v = w := by
  induction h generalizing w with
  | @scalar p fs k a hm _ =>
    rw [CleanKeys] at hc
    generalize hq : p ++ [k] = q at h'
    cases h' with
    | scalar hm' _ =>
      simp only [List.append_cancel_left_eq, List.cons.injEq, and_true] at hq; subst hq
      exact nodup_fst_unique hc.1 hm hm'
    | list hm' _ _ =>
      simp only [List.append_cancel_left_eq, List.cons.injEq, and_true] at hq; subst hq
      exact absurd (nodup_fst_unique hc.1 hm hm') (by simp)
    | deep hm' _ hg =>
      obtain ⟨k2, r, hq2, -⟩ := hg.starts
      rw [hq2] at hq; simp at hq
  | @list p fs k l t hm _ hj =>
    rw [CleanKeys] at hc
    generalize hq : p ++ [k] = q at h'
    cases h' with
    | scalar hm' _ =>
      simp only [List.append_cancel_left_eq, List.cons.injEq, and_true] at hq; subst hq
      exact absurd (nodup_fst_unique hc.1 hm hm') (by simp)
    | list hm' _ hj' =>
      simp only [List.append_cancel_left_eq, List.cons.injEq, and_true] at hq; subst hq
      have := nodup_fst_unique hc.1 hm hm'
      simp only [Json.arr.injEq] at this; subst this
      rw [hj] at hj'; simp only [Option.some.injEq] at hj'; rw [hj']
    | deep hm' _ hg =>
      obtain ⟨k2, r, hq2, -⟩ := hg.starts
      rw [hq2] at hq; simp at hq
  | @deep p fs k gs q v hm _ hg ih =>
    rw [CleanKeys] at hc
    obtain ⟨k2, r, hq2, -⟩ := hg.starts
    cases h' with
    | scalar hm' _ => simp at hq2
    | list hm' _ _ => simp at hq2
    | @deep _ _ k' gs' _ _ hm' _ hg' =>
      obtain ⟨k3, r', hq3, -⟩ := hg'.starts
      rw [hq2] at hq3
      simp only [List.append_assoc, List.singleton_append, List.append_cancel_left_eq, List.cons.injEq] at hq3
      obtain ⟨rfl, -, -⟩ := hq3
      have := nodup_fst_unique hc.1 hm hm'
      simp only [Json.obj.injEq] at this; subst this
      exact ih hg' (cleanFields_mem hc.2.2 hm)

/-! ### Lines -/

theorem mem_reverse_get {κ α : Type} [DecidableEq κ] {e : List (κ × α)} {k : κ} {v : α}
    (huniq : ∀ w, (k, w) ∈ e → w = v) (h : (k, v) ∈ e) : Dict.get e.reverse k = some v := by
  cases hg : Dict.get e.reverse k with
  | none =>
    rw [Dict.get_none_iff] at hg
    exact absurd (Dict.mem_keys_of_mem (List.mem_reverse.2 h)) hg
  | some w => rw [huniq w (List.mem_reverse.1 (Dict.get_eq_some_mem hg))]

/-- What a line of updates holds. -/
theorem get_update_mem {κ α : Type} [DecidableEq κ] {d e : List (κ × α)} {k : κ} {v : α}
    (h : Dict.get (Dict.update d e) k = some v) : (k, v) ∈ e ∨ (k ∉ Dict.keys e ∧ Dict.get d k = some v) := by
  rw [Dict.get_update] at h
  cases hg : Dict.get e.reverse k with
  | none =>
    rw [hg] at h
    rw [Dict.get_none_iff] at hg
    exact Or.inr ⟨fun hk => hg (by simpa [Dict.keys] using hk), by simpa using h⟩
  | some w =>
    rw [hg] at h
    simp only [Option.some_or, Option.some.injEq] at h
    subst h
    exact Or.inl (List.mem_reverse.1 (Dict.get_eq_some_mem hg))

theorem get_update_of_unique {κ α : Type} [DecidableEq κ] {d e : List (κ × α)} {k : κ} {v : α}
    (huniq : ∀ w, (k, w) ∈ e → w = v) (h : (k, v) ∈ e) : Dict.get (Dict.update d e) k = some v := by
  rw [Dict.get_update, mem_reverse_get huniq h]; rfl

theorem get_update_of_not {κ α : Type} [DecidableEq κ] {d e : List (κ × α)} {k : κ} (h : k ∉ Dict.keys e) :
    Dict.get (Dict.update d e) k = Dict.get d k := by
  rw [Dict.get_update]
  have : Dict.get e.reverse k = none := by
    rw [Dict.get_none_iff]; simpa [Dict.keys] using h
  rw [this]; rfl

theorem mem_cellEntries {cs : List (List Str × Json)} {h : Str} {v : Json} :
    (h, v) ∈ cellEntries cs ↔ ∃ q, (q, v) ∈ cs ∧ pathText q = h := by
  simp only [cellEntries, List.mem_map, Prod.mk.injEq]
  constructor
  · rintro ⟨⟨q, w⟩, hm, h1, h2⟩; exact ⟨q, h2 ▸ hm, h1⟩
  · rintro ⟨q, hm, h1⟩; exact ⟨(q, v), hm, h1, rfl⟩

theorem entries_sound {keep : List Str → Str → Bool} {p : List Str} {fs : List (Str × Json)} {d : FLine} {h : Str} {v : Json}
    (hg : Dict.get (Dict.update d (cellEntries (cells keep p fs))) h = some v) :
    (∃ q, h = pathText q ∧ HasCell keep p fs q v) ∨ Dict.get d h = some v := by
  rcases get_update_mem hg with hm | ⟨-, hm⟩
  · obtain ⟨q, hq, rfl⟩ := mem_cellEntries.1 hm
    exact Or.inl ⟨q, rfl, (mem_cells _ _ _ _ _).1 hq⟩
  · exact Or.inr hm

theorem entries_complete {keep : List Str → Str → Bool} {p : List Str} {fs : List (Str × Json)} (d : FLine)
    (hc : CleanKeys (.obj fs)) (hp : ∀ x ∈ p, '/' ∉ x) {q : List Str} {v : Json} (h : HasCell keep p fs q v) :
    Dict.get (Dict.update d (cellEntries (cells keep p fs))) (pathText q) = some v := by
  apply get_update_of_unique
  · intro w hw
    obtain ⟨q', hq', he⟩ := mem_cellEntries.1 hw
    have h' := (mem_cells _ _ _ _ _).1 hq'
    have hne : ∀ {q v}, HasCell keep p fs q v → q ≠ [] := by
      intro q v h; obtain ⟨k, r, rfl, -⟩ := h.starts; simp
    have := pathText_inj (hne h') (hne h) (h'.clean hc hp) (h.clean hc hp) he
    subst this
    exact h'.unique h hc
  · exact mem_cellEntries.2 ⟨q, (mem_cells _ _ _ _ _).2 h, rfl⟩

end Verif
