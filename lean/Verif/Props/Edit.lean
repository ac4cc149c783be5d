import Verif.Proofs.Edit
import Verif.Proofs.Ods
import Verif.Props.Merge
/-! C82: an edit of a spreadsheet is local. -/
namespace Verif
open Spec

theorem alone_same {p : RowIn × RowIn} {sh : SheetIn} {ls ls' : List Line} (h : p.1.sheet = { sh with lines := ls } ∧ p.2.sheet = { sh with lines := ls' } ∧ p.1.number = p.2.number ∧ p.1.line = p.2.line) :
    alone p.1 = alone p.2 := by
  obtain ⟨h1, h2, h3, h4⟩ := h
  simp only [alone, h1, h2, h3, h4]

theorem line_same_pairs {cfg : UnCfg} {sh : SheetIn} {n : Nat} {l l' : Line} {S S' : List SheetIn} (h : LineReplaced sh n l l' S S')
    (hd : hasData l = true) (hd' : hasData l' = true) (hid : rowId cfg ⟨sh, n, l⟩ = rowId cfg ⟨sh, n, l'⟩)
    (hroot : rootCell cfg.rootId l = rootCell cfg.rootId l') :
    ∃ P : List (RowIn × RowIn), rowsIn S = P.map (·.1) ∧ rowsIn S' = P.map (·.2) ∧
      (∀ p ∈ P, rootCell cfg.rootId p.1.line = rootCell cfg.rootId p.2.line ∧ rowId cfg p.1 = rowId cfg p.2) ∧
      ∃ A mid B, P = A ++ mid ++ B ∧ mid.length ≤ 1 ∧ (∀ p ∈ A ++ B, alone p.1 = alone p.2) ∧
        (∀ p ∈ mid, p.1.line = l ∧ p.2.line = l') ∧ (sh.headings ≠ some [] → mid ≠ []) := by
  obtain @⟨before, after, above, below, rfl⟩ := h
  obtain ⟨P, e1, e2, e3⟩ := rows_replaced { sh with lines := above ++ l :: below } { sh with lines := above ++ l' :: below } rfl above below l l' rfl rfl hd hd'
  have hself : ∀ ss : List SheetIn, ∀ p ∈ (rowsIn ss).map (fun r => (r, r)), p.1 = p.2 := by
    intro ss p hp
    obtain ⟨r, -, rfl⟩ := List.mem_map.1 hp
    rfl
  refine ⟨(rowsIn before).map (fun r => (r, r)) ++ P ++ (rowsIn after).map (fun r => (r, r)), ?_, ?_, ?_, ?_⟩
  · rw [rowsIn_eq, List.flatMap_append, List.flatMap_cons, e1]
    simp [rowsIn_eq, Function.comp_def]
  · rw [rowsIn_eq, List.flatMap_append, List.flatMap_cons, e2]
    simp [rowsIn_eq, Function.comp_def]
  · intro p hp
    simp only [List.mem_append] at hp
    have hkey : ∀ p : RowIn × RowIn, alone p.1 = alone p.2 → rowId cfg p.1 = rowId cfg p.2 := fun p hp => by unfold rowId; rw [hp]
    have hP : p ∈ P → rootCell cfg.rootId p.1.line = rootCell cfg.rootId p.2.line ∧ rowId cfg p.1 = rowId cfg p.2 := by
      intro hp
      rcases e3 with ⟨e30, e3⟩ | ⟨A, B, rfl, e3⟩
      · exact ⟨by rw [(e3 p hp).2.2.2], hkey p (alone_same (e3 p hp))⟩
      · by_cases hm : p ∈ A ++ B
        · exact ⟨by rw [(e3 p hm).2.2.2], hkey p (alone_same (e3 p hm))⟩
        · have : p = (⟨{ sh with lines := above ++ l :: below }, above.length, l⟩, ⟨{ sh with lines := above ++ l' :: below }, above.length, l'⟩) := by
            simp only [List.mem_append, List.mem_cons] at hp hm
            grind
          subst this
          exact ⟨hroot, hid⟩
    rcases hp with (hp | hp) | hp
    · have := hself _ p hp; rw [this]; exact ⟨rfl, rfl⟩
    · exact hP hp
    · have := hself _ p hp; rw [this]; exact ⟨rfl, rfl⟩
  · rcases e3 with ⟨e30, e3⟩ | ⟨A, B, rfl, e3⟩
    · refine ⟨(rowsIn before).map (fun r => (r, r)) ++ P, [], (rowsIn after).map (fun r => (r, r)), by simp, by simp, ?_, by simp, fun h => absurd e30 h⟩
      intro p hp
      simp only [List.mem_append] at hp
      rcases hp with (hp | hp) | hp
      · rw [hself _ p hp]
      · exact alone_same (e3 p hp)
      · rw [hself _ p hp]
    · refine ⟨(rowsIn before).map (fun r => (r, r)) ++ A, [_], B ++ (rowsIn after).map (fun r => (r, r)), by simp; rfl, by simp, ?_, by simp, by simp⟩
      intro p hp
      simp only [List.mem_append] at hp
      rcases hp with (hp | hp) | (hp | hp)
      · rw [hself _ p hp]
      · exact alone_same (e3 p (by simp [hp]))
      · exact alone_same (e3 p (by simp [hp]))
      · rw [hself _ p hp]

/-- The groups of rows before and after, and the number of the only group that may have changed. -/
theorem line_same_groups {cfg : UnCfg} {sh : SheetIn} {n : Nat} {l l' : Line} {S S' : List SheetIn} (h : LineReplaced sh n l l' S S')
    (hd : hasData l = true) (hd' : hasData l' = true) (hid : rowId cfg ⟨sh, n, l⟩ = rowId cfg ⟨sh, n, l'⟩)
    (hroot : rootCell cfg.rootId l = rootCell cfg.rootId l') :
    ∃ G : List (List (RowIn × RowIn)), objectRows cfg (rowsIn S) = G.map (List.map (·.1)) ∧ objectRows cfg (rowsIn S') = G.map (List.map (·.2)) ∧
      (∀ g ∈ G, ∀ p ∈ g, p.1 ∈ rowsIn S ∧ p.2 ∈ rowsIn S' ∧ (alone p.1 = alone p.2 ∨ p.1.line = l ∧ p.2.line = l')) ∧
      ∃ m : Nat, (∀ (k : Nat) g, k ≠ m → G[k]? = some g → ∀ p ∈ g, alone p.1 = alone p.2) ∧
        (sh.headings ≠ some [] → ∃ g, G[m]? = some g ∧ ∃ p ∈ g, p.1.line = l ∧ p.2.line = l') := by
  classical
  obtain ⟨P, e1, e2, e3, A, mid, B, e4, e5, e6, e7, e8⟩ := line_same_pairs h hd hd' hid hroot
  refine ⟨groupsBy (fun p : RowIn × RowIn => rootCell cfg.rootId p.1.line) (fun p => rowId cfg p.1) P, ?_, ?_, ?_, ?_⟩
  · rw [objectRows_groupsBy, e1, groupsBy_map (·.1) (fun p : RowIn × RowIn => rootCell cfg.rootId p.1.line) (fun p => rowId cfg p.1) _ _ P
      (fun _ _ => rfl) (fun _ _ => rfl)]
  · rw [objectRows_groupsBy, e2, groupsBy_map (·.2) (fun p : RowIn × RowIn => rootCell cfg.rootId p.1.line) (fun p => rowId cfg p.1) _ _ P
      (fun p hp => (e3 p hp).1.symm) (fun p hp => (e3 p hp).2.symm)]
  all_goals
    generalize hG : groupsBy (fun p : RowIn × RowIn => rootCell cfg.rootId p.1.line) (fun p => rowId cfg p.1) P = G
    have hperm : G.flatten.Perm P := hG ▸ groupsBy_flatten _ _ P
  · intro g hg p hp
    have hpP : p ∈ P := hperm.mem_iff.1 (List.mem_flatten.2 ⟨g, hg, hp⟩)
    refine ⟨by rw [e1]; exact List.mem_map_of_mem hpP, by rw [e2]; exact List.mem_map_of_mem hpP, ?_⟩
    rw [e4] at hpP
    simp only [List.mem_append] at hpP
    rcases hpP with (hpP | hpP) | hpP
    · exact .inl (e6 p (by simp [hpP]))
    · exact .inr (e7 p hpP)
    · exact .inl (e6 p (by simp [hpP]))
  let bad : RowIn × RowIn → Bool := fun p => decide (alone p.1 ≠ alone p.2)
  have hbad : (G.flatten.filter bad).length ≤ 1 := by
    rw [(hperm.filter bad).length_eq, e4]
    have : ∀ q : List (RowIn × RowIn), (∀ p ∈ q, alone p.1 = alone p.2) → q.filter bad = [] := by
      intro q hq
      rw [List.filter_eq_nil_iff]
      intro p hp
      simp [bad, hq p hp]
    rw [List.filter_append, List.filter_append, this A (fun p hp => e6 p (by simp [hp])), this B (fun p hp => e6 p (by simp [hp]))]
    simp only [List.nil_append, List.append_nil]
    exact Nat.le_trans (List.length_filter_le _ _) e5
  obtain ⟨m, hm⟩ := one_bad bad G hbad
  have hm' : ∀ (k : Nat) g, k ≠ m → G[k]? = some g → ∀ p ∈ g, alone p.1 = alone p.2 := by
    intro k g hk hg p hp
    simpa [bad] using hm k g hk hg p hp
  by_cases hh : sh.headings = some []
  · exact ⟨m, hm', fun h => absurd hh h⟩
  -- the pair of the edited rows
  obtain ⟨p, hpm⟩ := List.exists_mem_of_ne_nil mid (e8 hh)
  have hp : p ∈ P := by rw [e4]; simp [hpm]
  have hpl := e7 p hpm
  obtain ⟨g, hg, hpg⟩ := List.mem_flatten.1 (hperm.mem_iff.2 hp)
  obtain ⟨k, hk⟩ := List.getElem?_of_mem hg
  by_cases hsame : alone p.1 = alone p.2
  · refine ⟨k, ?_, fun _ => ⟨g, hk, p, hpg, hpl⟩⟩
    intro k' g' _ hg' q hq
    have hqP : q ∈ P := hperm.mem_iff.1 (List.mem_flatten.2 ⟨g', List.mem_of_getElem? hg', hq⟩)
    rw [e4] at hqP
    simp only [List.mem_append] at hqP
    rcases hqP with (hqP | hqP) | hqP
    · exact e6 q (by simp [hqP])
    · have : q = p := by
        match mid, e5, hpm, hqP with
        | [x], _, h1, h2 => simp at h1 h2; rw [h1, h2]
      rw [this]; exact hsame
    · exact e6 q (by simp [hqP])
  · refine ⟨m, hm', fun _ => ⟨g, ?_, p, hpg, hpl⟩⟩
    by_cases hkm : k = m
    · rw [← hkm]; exact hk
    · exact absurd (hm' k g hkm hk p hpg) hsame

theorem same_elsewhere {cfg : UnCfg} {S S' : List SheetIn} {out out' : List Json} {w w' : List Warn}
    (h1 : unflatten cfg S = .ok (out, w)) (h2 : unflatten cfg S' = .ok (out', w')) {G : List (List (RowIn × RowIn))}
    (e1 : objectRows cfg (rowsIn S) = G.map (List.map (·.1))) (e2 : objectRows cfg (rowsIn S') = G.map (List.map (·.2))) {m : Nat}
    (hm : ∀ (k : Nat) g, k ≠ m → G[k]? = some g → ∀ p ∈ g, alone p.1 = alone p.2) :
    out.length = out'.length ∧ ∀ k : Nat, k ≠ m → out[k]? = out'[k]? := by
  have g1 := C07_one_object_per_id cfg S out w h1
  have g2 := C07_one_object_per_id cfg S' out' w' h2
  rw [e1] at g1
  rw [e2] at g2
  obtain ⟨l1, n1⟩ := all₂_nth g1
  obtain ⟨l2, n2⟩ := all₂_nth g2
  rw [List.length_map] at l1 l2
  refine ⟨l1.symm.trans l2, ?_⟩
  intro k hk
  cases hg : G[k]? with
  | none =>
    have := List.getElem?_eq_none_iff.1 hg
    rw [List.getElem?_eq_none (by omega), List.getElem?_eq_none (by omega)]
  | some g =>
    have hlt : k < G.length := (List.getElem?_eq_some_iff.1 hg).1
    have o1 : out[k]? = some (out[k]'(by omega)) := List.getElem?_eq_getElem _
    have o2 : out'[k]? = some (out'[k]'(by omega)) := List.getElem?_eq_getElem _
    obtain ⟨w1, r1, -⟩ := n1 k (g.map (·.1)) _ (by simp [hg]) o1
    obtain ⟨w2, r2, -⟩ := n2 k (g.map (·.2)) _ (by simp [hg]) o2
    have hsame : (g.map (·.1)).map alone = (g.map (·.2)).map alone := by
      rw [List.map_map, List.map_map]
      exact List.map_congr_left (fun p hp => hm k g hk hg p hp)
    rw [hsame, r2] at r1
    simp only [Except.ok.injEq, Prod.mk.injEq, List.cons.injEq, and_true] at r1
    rw [o1, o2, r1.1]

/-- C82: whatever is changed in one line of a spreadsheet, as long as the row keeps its id and its root id, there are as many objects as before, and all of them but one (at
most) are exactly as before, at the same places. -/
theorem C82_other_objects (cfg : UnCfg) (sh : SheetIn) (n : Nat) (l l' : Line) (S S' : List SheetIn) (h : LineReplaced sh n l l' S S')
    (hd : hasData l = true) (hd' : hasData l' = true) (hid : rowId cfg ⟨sh, n, l⟩ = rowId cfg ⟨sh, n, l'⟩)
    (hroot : rootCell cfg.rootId l = rootCell cfg.rootId l') (out out' : List Json) (w w' : List Warn)
    (h1 : unflatten cfg S = .ok (out, w)) (h2 : unflatten cfg S' = .ok (out', w')) :
    out.length = out'.length ∧ ∃ n : Nat, ∀ k : Nat, k ≠ n → out[k]? = out'[k]? := by
  obtain ⟨G, e1, e2, -, m, e4, -⟩ := line_same_groups h hd hd' hid hroot
  exact ⟨(same_elsewhere h1 h2 e1 e2 e4).1, m, (same_elsewhere h1 h2 e1 e2 e4).2⟩

theorem added_rows (sh : SheetIn) (ls : List Line) (l : Line) :
    ∃ P : List (RowIn × RowIn), rowsOf { sh with lines := ls } = P.map (·.1) ∧ (∀ p ∈ P, alone p.1 = alone p.2 ∧ p.1.line = p.2.line) ∧
      (rowsOf { sh with lines := ls ++ [l] } = P.map (·.2) ∨ ∃ x, rowsOf { sh with lines := ls ++ [l] } = P.map (·.2) ++ [x]) := by
  by_cases he : sh.headings = some []
  · exact ⟨[], by simp [rowsOf, he], by simp, .inl (by simp [rowsOf, he])⟩
  let f : Line × Nat → RowIn × RowIn := fun p => (⟨{ sh with lines := ls }, p.2, p.1⟩, ⟨{ sh with lines := ls ++ [l] }, p.2, p.1⟩)
  refine ⟨(ls.zipIdx.filter (fun p => hasData p.1)).map f, by simp [rowsOf, he, f, Function.comp_def], ?_, ?_⟩
  · intro p hp
    obtain ⟨q, -, rfl⟩ := List.mem_map.1 hp
    exact ⟨rfl, rfl⟩
  · by_cases hd : hasData l = true
    · exact .inr ⟨⟨{ sh with lines := ls ++ [l] }, ls.length, l⟩, by simp [rowsOf, he, f, Function.comp_def, List.zipIdx_append, List.filter_append, hd]⟩
    · exact .inl (by simp [rowsOf, he, f, Function.comp_def, List.zipIdx_append, List.filter_append, hd])

theorem all₂_map_left {α β γ : Type} {R : β → γ → Prop} (f : α → β) {l : List α} {m : List γ} : All₂ (fun a c => R (f a) c) l m ↔ All₂ R (l.map f) m := by
  constructor
  · intro h
    induction h with
    | nil => exact .nil
    | cons h _ ih => exact .cons h ih
  · intro h
    generalize hl : l.map f = l' at h
    induction h generalizing l with
    | nil => cases l with
      | nil => exact .nil
      | cons => simp at hl
    | cons h _ ih => cases l with
      | nil => simp at hl
      | cons a r =>
        simp only [List.map_cons, List.cons.injEq] at hl
        exact .cons (hl.1 ▸ h) (ih hl.2)

theorem all₂_append_left {α β : Type} {R : α → β → Prop} {a b : List α} {m : List β} (h : All₂ R (a ++ b) m) :
    ∃ m1 m2, m = m1 ++ m2 ∧ All₂ R a m1 ∧ All₂ R b m2 := by
  induction a generalizing m with
  | nil => exact ⟨[], m, rfl, .nil, h⟩
  | cons x r ih =>
    cases h with
    | cons h1 h2 =>
      obtain ⟨m1, m2, rfl, h3, h4⟩ := ih h2
      exact ⟨_ :: m1, m2, rfl, .cons h1 h3, h4⟩

/-- The same groups give the same objects. -/
theorem same_objects {cfg : UnCfg} {gs : List (List SheetIn)} {a b : List Json} (h : All₂ (fun g o => ∃ w, unflatten cfg g = .ok ([o], w)) gs a)
    (h' : All₂ (fun g o => ∃ w, unflatten cfg g = .ok ([o], w)) gs b) : a = b := by
  induction h generalizing b with
  | nil => cases h'; rfl
  | cons h1 _ ih =>
    cases h' with
    | cons h2 h3 =>
      obtain ⟨w1, h1⟩ := h1
      obtain ⟨w2, h2⟩ := h2
      rw [h1] at h2
      simp only [Except.ok.injEq, Prod.mk.injEq, List.cons.injEq, and_true] at h2
      rw [h2.1, ih h3]

theorem embeds_of_more {cfg : UnCfg} {g : List SheetIn} {x : SheetIn} {j o : Json} {w w' : List Warn} (hne : g ≠ []) (h1 : unflatten cfg g = .ok ([j], w))
    (h2 : unflatten cfg (g ++ [x]) = .ok ([o], w')) : Embeds j o := by
  obtain ⟨pre, s, rfl⟩ : ∃ pre s, g = pre ++ [s] := ⟨g.dropLast, g.getLast hne, (List.dropLast_concat_getLast hne).symm⟩
  have hs : { s with lines := s.lines ++ [] } = s := by simp
  have h2' : unflatten cfg (pre ++ { s with lines := s.lines ++ [] } :: [x]) = .ok ([o], w') := by rw [hs]; simpa using h2
  obtain ⟨out1, w1, e1, e2⟩ := C02_later_rows_keep_earlier_values cfg pre [x] s [] _ _ h2'
  rw [h1] at e1
  simp only [Except.ok.injEq, Prod.mk.injEq] at e1
  rw [← e1.1] at e2
  simp only [EmbedsList] at e2
  obtain ⟨before, y, after, e3, e4, -⟩ := e2
  cases before with
  | nil => simp only [List.nil_append, List.cons.injEq] at e3; rw [e3.1]; exact e4
  | cons a r => simp at e3

/-- C82: a line added at the end of the last sheet leaves all objects as they are, at their places, but for one: either there is one object more, or one object
has got more in it and kept all that it had. -/
theorem C82_added_line (cfg : UnCfg) (sh : SheetIn) (l : Line) (S S' : List SheetIn) (h : LineAdded sh l S S') (out out' : List Json) (w w' : List Warn)
    (h1 : unflatten cfg S = .ok (out, w)) (h2 : unflatten cfg S' = .ok (out', w')) :
    out' = out ∨ (∃ A o B, out = A ++ B ∧ out' = A ++ o :: B) ∨ (∃ A j o B, out = A ++ j :: B ∧ out' = A ++ o :: B ∧ Embeds j o) := by
  obtain @⟨before, lines⟩ := h
  have g1 := All₂.imp (C07_one_object_per_id cfg _ out w h1) (S := fun rows o => ∃ w', unflatten cfg (rows.map alone) = .ok ([o], w')) (fun _ _ h => ⟨h.choose, h.choose_spec.1⟩)
  have g2 := All₂.imp (C07_one_object_per_id cfg _ out' w' h2) (S := fun rows o => ∃ w', unflatten cfg (rows.map alone) = .ok ([o], w')) (fun _ _ h => ⟨h.choose, h.choose_spec.1⟩)
  rw [all₂_map_left (R := fun g o => ∃ w', unflatten cfg g = .ok ([o], w')) (List.map alone), objectRows_groupsBy] at g1 g2
  obtain ⟨P0, p1, p2, p3⟩ := added_rows sh lines l
  let P := (rowsIn before).map (fun r => (r, r)) ++ P0
  have q1 : rowsIn (before ++ [{ sh with lines := lines }]) = P.map (·.1) := by
    rw [rowsIn_eq, List.flatMap_append, List.flatMap_cons, p1]
    simp [rowsIn_eq, Function.comp_def, P]
  have q2 : ∀ p ∈ P, alone p.1 = alone p.2 ∧ p.1.line = p.2.line := by
    intro p hp
    rcases List.mem_append.1 hp with hp | hp
    · obtain ⟨r, -, rfl⟩ := List.mem_map.1 hp
      exact ⟨rfl, rfl⟩
    · exact p2 p hp
  have hold : (groupsBy (fun r : RowIn => rootCell cfg.rootId r.line) (rowId cfg) (P.map (·.1))).map (List.map alone) =
      (groupsBy (fun r : RowIn => rootCell cfg.rootId r.line) (rowId cfg) (P.map (·.2))).map (List.map alone) := by
    rw [groupsBy_map (·.1) (fun p : RowIn × RowIn => rootCell cfg.rootId p.1.line) (fun p => rowId cfg p.1) _ _ P (fun _ _ => rfl) (fun _ _ => rfl),
      groupsBy_map (·.2) (fun p : RowIn × RowIn => rootCell cfg.rootId p.1.line) (fun p => rowId cfg p.1) _ _ P (fun p hp => by rw [(q2 p hp).2])
        (fun p hp => by unfold rowId; rw [(q2 p hp).1])]
    rw [List.map_map, List.map_map]
    apply List.map_congr_left
    intro g hg
    simp only [Function.comp_apply, List.map_map]
    apply List.map_congr_left
    intro p hp
    exact (q2 p ((groupsBy_flatten _ _ P).mem_iff.1 (List.mem_flatten.2 ⟨g, hg, hp⟩))).1
  rw [q1, hold] at g1
  rcases p3 with p3 | ⟨x, p3⟩
  · have q3 : rowsIn (before ++ [{ sh with lines := lines ++ [l] }]) = P.map (·.2) := by
      rw [rowsIn_eq, List.flatMap_append, List.flatMap_cons, p3]
      simp [rowsIn_eq, Function.comp_def, P]
    rw [q3] at g2
    exact .inl (same_objects g2 g1)
  · have q3 : rowsIn (before ++ [{ sh with lines := lines ++ [l] }]) = P.map (·.2) ++ [x] := by
      rw [rowsIn_eq, List.flatMap_append, List.flatMap_cons, p3]
      simp [rowsIn_eq, Function.comp_def, P]
    rw [q3] at g2
    obtain ⟨A, mid, g, B, s1, s2, s3, -, s5⟩ := groupsBy_snoc (fun r : RowIn => rootCell cfg.rootId r.line) (rowId cfg) (P.map (·.2)) x
    have hne : ∀ c ∈ mid, c ≠ [] := by
      intro c hc
      have : c ∈ groupsBy (fun r : RowIn => rootCell cfg.rootId r.line) (rowId cfg) (P.map (·.2)) := by rw [s1]; simp [hc]
      exact groupsBy_ne_nil _ _ _ c this
    rw [s1] at g1
    rw [s2] at g2
    simp only [List.map_append, List.map_cons, List.map_nil, List.append_assoc] at g1 g2
    obtain ⟨a1, r1, rfl, t1, t2⟩ := all₂_append_left g1
    obtain ⟨m1, b1, rfl, t3, t4⟩ := all₂_append_left t2
    obtain ⟨a2, r2, rfl, t5, t6⟩ := all₂_append_left g2
    obtain ⟨m2, b2, rfl, t7, t8⟩ := all₂_append_left t6
    have ea := same_objects t1 t5
    have eb := same_objects t4 t8
    subst ea eb
    cases t7 with
    | cons t7 t7' =>
      cases t7'
      have hcases : mid = [] ∨ ∃ c, mid = [c] := by
        match mid, s3 with
        | [], _ => exact .inl rfl
        | [c], _ => exact .inr ⟨c, rfl⟩
      rcases hcases with hmid | ⟨c, hmid⟩
      · rw [hmid] at t3
        cases t3
        exact .inr (.inl ⟨a1, _, b1, rfl, rfl⟩)
      · rw [hmid] at t3 s5 hne
        cases t3 with
        | cons t3 t3' =>
          cases t3'
          obtain ⟨w1, t3⟩ := t3
          obtain ⟨w2, t7⟩ := t7
          rw [s5 c (by simp), List.map_append] at t7
          exact .inr (.inr ⟨a1, _, _, b1, rfl, rfl, embeds_of_more (by simpa using hne c (by simp)) t3 t7⟩)

end Verif
