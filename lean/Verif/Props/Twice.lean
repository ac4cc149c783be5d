import Verif.Proofs.Again
import Verif.Props.Additive
/-! C05: unflattening the same identified rows twice. -/
namespace Verif
open Spec

/-- The row's own object has an id, all its array items have ids, and all its values (and its root id) are recognisable again. -/
def AllIdentified (cfg : UnCfg) (r : RowIn) : Prop :=
  atomEq (rootCell cfg.rootId r.line) (rootCell cfg.rootId r.line) = true ∧
    ∀ o w, doUnflatten cfg [alone r] = .ok ([o], w) → (cellId cfg.idName cfg.row.xml o).isSome = true ∧ IdentifiedFields cfg.idName cfg.row.xml o

theorem ident_of_row {cfg : UnCfg} {r : RowIn} {x : Row} (hc : Counts r) (hx : rowAlone cfg r = .ok x)
    (hk : ∃ td td' w, addToGroup cfg x.sheet x.fields td = .ok (td', w)) (hi : AllIdentified cfg r) : Ident cfg x := by
  obtain ⟨w, hw⟩ := alone_run hc hx hk
  obtain ⟨h1, h2⟩ := hi.2 _ w hw
  refine ⟨idF_of_identified (rowAlone_wf hx) h2, ?_, ?_⟩
  · rw [rowAlone_root hx]; exact hi.1
  · obtain ⟨td, td', w, h⟩ := hk
    rcases addToGroup_cases h with ⟨hk, -, -, hrk⟩ | ⟨k, hk, hh, hrk, -⟩
    · rw [cellId_toLists (rowKey_ok hrk)] at h1; simp at h1
    · exact ⟨k, hrk, cellId_identified (cellId_toLists (rowKey_ok hrk)) h2⟩

/-- C05: give again any sheets, or single rows of sheets, whose rows all carry ids.  The output is exactly the same, and
there is no new warning. -/
theorem C05_again (cfg : UnCfg) (sheets extra : List SheetIn) (out : List Json) (w : List Warn)
    (h : unflatten cfg sheets = .ok (out, w))
    (hextra : ∀ s ∈ extra, (s ∈ sheets ∧ ∀ r ∈ rowsIn [s], AllIdentified cfg r) ∨ ∃ r ∈ rowsIn sheets, s = alone r ∧ AllIdentified cfg r) :
    ∃ w', unflatten cfg (sheets ++ extra) = .ok (out, w') ∧ ∀ x ∈ w', x ∈ w := by
  obtain ⟨rows, gs, mw, e1, e2, rfl, wf, hwarn⟩ := unflatten_ok h
  obtain ⟨ps, p1, p2, p3⟩ := rowsAlone_pairs e1
  -- each extra row has the content of a row that is there
  have hrows : ∀ r ∈ rowsIn extra, ∃ r' ∈ rowsIn sheets, rowAlone cfg r = rowAlone cfg r' ∧ AllIdentified cfg r' := by
    intro r hr
    have hs := sheet_of_rowsIn hr
    obtain ⟨s, hs', hrs⟩ : ∃ s ∈ extra, r ∈ rowsIn [s] := by
      unfold rowsIn at hr ⊢
      obtain ⟨s, hs, hr⟩ := List.mem_flatMap.1 hr
      exact ⟨s, hs, by simpa using hr⟩
    rcases hextra s hs' with ⟨h1, h2⟩ | ⟨r', h1, rfl, h2⟩
    · refine ⟨r, ?_, rfl, h2 r hrs⟩
      unfold rowsIn at hrs ⊢
      exact List.mem_flatMap.2 ⟨s, h1, by simpa using hrs⟩
    · have hc := counts_rowsIn h1
      rw [rowsIn_alone r' hc.1 hc.2] at hrs
      simp at hrs
      subst hrs
      exact ⟨r', h1, rowAlone_alone cfg r', h2⟩
  have hpair : ∀ r' ∈ rowsIn sheets, ∃ x ∈ rows, rowAlone cfg r' = .ok x := by
    intro r' hr'
    rw [← p1] at hr'
    obtain ⟨p, hp, rfl⟩ := List.mem_map.1 hr'
    exact ⟨p.2, by rw [← p2]; exact List.mem_map_of_mem hp, p3 p hp⟩
  have hext : ∀ rs : List RowIn, (∀ r ∈ rs, ∃ r' ∈ rowsIn sheets, rowAlone cfg r = rowAlone cfg r' ∧ AllIdentified cfg r') →
      ∃ xs, rowsAlone cfg rs = .ok xs ∧ ∀ x ∈ xs, x ∈ rows ∧ Ident cfg x := by
    intro rs
    induction rs with
    | nil => intro _; exact ⟨[], rfl, by simp⟩
    | cons r rs ih =>
      intro hr
      obtain ⟨xs, h1, h2⟩ := ih (fun r h => hr r (by simp [h]))
      obtain ⟨r', hr', ha, hi⟩ := hr r (by simp)
      obtain ⟨x, hx, hrx⟩ := hpair r' hr'
      refine ⟨x :: xs, by simp [rowsAlone, ha, hrx, h1], ?_⟩
      intro y hy
      rcases List.mem_cons.1 hy with rfl | hy
      · exact ⟨hx, ident_of_row (counts_rowsIn hr') hrx (foldRows_each e2 y hx) hi⟩
      · exact h2 y hy
  obtain ⟨xs, hxs, hxr⟩ := hext (rowsIn extra) hrows
  have hwf := rowsAlone_wf e1
  have hpl := (placed_run (W := mw) rows e2 (gwf_nil cfg) hwf (fun _ h => h)).2
  obtain ⟨gs', w', hf, hj, hsub⟩ := again_run (W := mw) xs wf (fun x hx => hwf x (hxr x hx).1)
    (fun x hx => ⟨hpl x (hxr x hx).1 (hxr x hx).2, (hxr x hx).2⟩)
  have hall : rowsAlone cfg (rowsIn (sheets ++ extra)) = .ok (rows ++ xs) := by
    rw [rowsIn_append, rowsAlone_append, e1, hxs]
  have hfold : foldRows cfg (rows ++ xs) [] = .ok (gs', mw ++ w') := by
    rw [foldRows_append, e2]; simp [hf]
  obtain ⟨w2, hu, hw2⟩ := unflatten_of_rows hall hfold
  refine ⟨w2, by rw [hu, hj], ?_⟩
  intro x hx
  rw [hwarn]
  rcases (hw2 x).1 hx with hx | ⟨r, hr, hx⟩ | hx
  · left
    unfold dupWarns at hx ⊢
    rw [List.mem_flatMap] at hx ⊢
    obtain ⟨s, hs, hx⟩ := hx
    rcases List.mem_append.1 hs with hs | hs
    · exact ⟨s, hs, hx⟩
    · rcases hextra s hs with ⟨h1, _⟩ | ⟨r', h1, rfl, _⟩
      · exact ⟨s, h1, hx⟩
      · exact ⟨r'.sheet, sheet_of_rowsIn h1, hx⟩
  · right; left
    rcases List.mem_append.1 hr with hr | hr
    · exact ⟨r, hr, hx⟩
    · exact ⟨r, (hxr r hr).1, hx⟩
  · rcases List.mem_append.1 hx with hx | hx
    · exact Or.inr (Or.inr hx)
    · exact Or.inr (Or.inr (hsub x hx))

/-- C05: all sheets twice. -/
theorem C05_all_twice (cfg : UnCfg) (sheets : List SheetIn) (out : List Json) (w : List Warn)
    (h : unflatten cfg sheets = .ok (out, w)) (hid : ∀ r ∈ rowsIn sheets, AllIdentified cfg r) :
    ∃ w', unflatten cfg (sheets ++ sheets) = .ok (out, w') ∧ ∀ x, x ∈ w' ↔ x ∈ w := by
  obtain ⟨w', h1, h2⟩ := C05_again cfg sheets sheets out w h (fun s hs => Or.inl ⟨hs, fun r hr => hid r (by
    unfold rowsIn at hr ⊢
    exact List.mem_flatMap.2 ⟨s, hs, by simpa using hr⟩)⟩)
  refine ⟨w', h1, fun x => ⟨h2 x, ?_⟩⟩
  obtain ⟨rows, gs, mw, e1, e2, rfl, -, hwarn⟩ := unflatten_ok h
  obtain ⟨rows', gs', mw', f1, f2, -, -, hwarn'⟩ := unflatten_ok h1
  rw [hwarn, hwarn']
  rw [rowsIn_append, rowsAlone_append, e1] at f1
  simp only [Except.ok.injEq] at f1
  subst f1
  rw [foldRows_append, e2] at f2
  simp only at f2
  split at f2
  · cases f2
  · next g3 w3 h3 =>
    cases f2
    rintro (hx | ⟨r, hr, hx⟩ | hx)
    · left
      unfold dupWarns at hx ⊢
      rw [List.mem_flatMap] at hx ⊢
      obtain ⟨s, hs, hx⟩ := hx
      exact ⟨s, by simp [hs], hx⟩
    · exact Or.inr (Or.inl ⟨r, by simp [hr], hx⟩)
    · exact Or.inr (Or.inr (by simp [hx]))

def twiceSheet : SheetIn := { name := s%"a", lines := [
  [(some s%"id", .int 1), (some s%"t", .str s%"x"), (some s%"l/0/id", .str s%"p"), (some s%"l/0/v", .int 1)],
  [(some s%"id", .int 1), (some s%"t", .str s%"y"), (some s%"l/0/id", .str s%"q")]] }

/-- The rows of the example meet the condition. -/
example : ∀ r ∈ rowsIn [twiceSheet], AllIdentified {} r := by
  intro r hr
  have e : rowsIn [twiceSheet] = [⟨twiceSheet, 0, twiceSheet.lines[0]⟩, ⟨twiceSheet, 1, twiceSheet.lines[1]⟩] := rfl
  rw [e] at hr
  simp only [List.mem_cons, List.not_mem_nil, or_false] at hr
  rcases hr with rfl | rfl
  · refine ⟨by decide +kernel, ?_⟩
    intro o w h
    have h' : doUnflatten {} [alone ⟨twiceSheet, 0, twiceSheet.lines[0]⟩] = .ok ([[(s%"id", .cell ⟨.atom (.int 1), ⟨s%"a", 1, 2, s%"id"⟩, []⟩), (s%"t", .cell ⟨.atom (.str s%"x"), ⟨s%"a", 2, 2, s%"t"⟩, []⟩),
      (s%"l", .list [[(s%"id", .cell ⟨.atom (.str s%"p"), ⟨s%"a", 3, 2, s%"l/0/id"⟩, []⟩), (s%"v", .cell ⟨.atom (.int 1), ⟨s%"a", 4, 2, s%"l/0/v"⟩, []⟩)]])]], []) := by with_unfolding_all rfl
    rw [h'] at h
    simp only [Except.ok.injEq, Prod.mk.injEq, List.cons.injEq, and_true] at h
    rw [← h.1]
    refine ⟨rfl, ?_⟩
    simp only [IdentifiedFields, Identified, IdentifiedItems, ne_eq, reduceCtorEq, not_false_eq_true, implies_true, and_true]
    decide +kernel
  · refine ⟨by decide +kernel, ?_⟩
    intro o w h
    have h' : doUnflatten {} [alone ⟨twiceSheet, 1, twiceSheet.lines[1]⟩] = .ok ([[(s%"id", .cell ⟨.atom (.int 1), ⟨s%"a", 1, 3, s%"id"⟩, []⟩), (s%"t", .cell ⟨.atom (.str s%"y"), ⟨s%"a", 2, 3, s%"t"⟩, []⟩),
      (s%"l", .list [[(s%"id", .cell ⟨.atom (.str s%"q"), ⟨s%"a", 3, 3, s%"l/0/id"⟩, []⟩)]])]], []) := by with_unfolding_all rfl
    rw [h'] at h
    simp only [Except.ok.injEq, Prod.mk.injEq, List.cons.injEq, and_true] at h
    rw [← h.1]
    refine ⟨rfl, ?_⟩
    simp only [IdentifiedFields, Identified, IdentifiedItems, ne_eq, reduceCtorEq, not_false_eq_true, implies_true, and_true]
    decide +kernel

/-- A sheet twice: the same object; the disagreement about `t` is reported as before. -/
example : (unflatten {} [twiceSheet]).map (·.1) = (unflatten {} [twiceSheet, twiceSheet]).map (·.1) ∧
    (unflatten {} [twiceSheet]).map (·.1) = .ok [.obj [(s%"id", .leaf (.int 1)), (s%"t", .leaf (.str s%"x")),
      (s%"l", .arr [.obj [(s%"id", .leaf (.str s%"p")), (s%"v", .leaf (.int 1))], .obj [(s%"id", .leaf (.str s%"q"))]])]] := by
  decide +kernel

/-- An array item without id is added a second time: the condition is needed. -/
example : (unflatten {} [{ name := s%"a", lines := [[(some s%"id", .int 1), (some s%"l/0/v", .int 1)], [(some s%"id", .int 1), (some s%"l/0/v", .int 1)]] }]).map (·.1)
    = .ok [.obj [(s%"id", .leaf (.int 1)), (s%"l", .arr [.obj [(s%"v", .leaf (.int 1))], .obj [(s%"v", .leaf (.int 1))]])]] := by
  decide +kernel

end Verif
