import Verif.Proofs.Blank
import Verif.Proofs.DecEq
/-! C01: blank cells and blank rows are inert. -/
namespace Verif
open Spec

/-- C01: two spreadsheets whose sheets differ only in blank cells (other than root-id cells) and blank
lines give the same result: the same error, or the same JSON and the same warnings. -/
theorem C01_blanks_are_inert (cfg : UnCfg) (ss ss' : List SheetIn)
    (h : All₂ (fun s s' => SameButBlanks cfg.rootId s s' ∧ s.headings = s'.headings) ss ss') :
    unflatten cfg ss = unflatten cfg ss' := by
  rw [unflatten_content, unflatten_content, runSheets_congr' cfg h]

/-- C01: the same when whole blank columns are inserted or deleted, so that the list of headings
changes; only the warnings about duplicate headings can then differ. -/
theorem C01_blank_columns_are_inert (cfg : UnCfg) (ss ss' : List SheetIn)
    (h : All₂ (SameButBlanks cfg.rootId) ss ss') :
    (unflatten cfg ss).map (fun r => (r.1, r.2.filter (fun w => !aboutDuplicates w))) =
      (unflatten cfg ss').map (fun r => (r.1, r.2.filter (fun w => !aboutDuplicates w))) := by
  have := runSheets_congr cfg h []
  rw [unflatten_content, unflatten_content]
  revert this
  cases runSheets cfg ss [] <;> cases runSheets cfg ss' [] <;> simp [Except.map] <;> grind

/-- In particular: a blank line can be inserted anywhere. -/
theorem C01_blank_line (cfg : UnCfg) (pre post : List SheetIn) (s : SheetIn) (before after : List Line) (blank : Line)
    (hb : ∀ kv ∈ blank, kv.2 = .none ∨ kv.2 = .str []) :
    unflatten cfg (pre ++ { s with lines := before ++ blank :: after } :: post) =
      unflatten cfg (pre ++ { s with lines := before ++ after } :: post) := by
  apply C01_blanks_are_inert
  have hrefl : ∀ l : List SheetIn, All₂ (fun s s' => SameButBlanks cfg.rootId s s' ∧ s.headings = s'.headings) l l := by
    intro l
    induction l with
    | nil => exact .nil
    | cons x r ih => exact .cons ⟨⟨rfl, Iff.rfl, rfl⟩, rfl⟩ ih
  have hno : hasData blank = false := by
    unfold hasData
    rw [Bool.eq_false_iff]
    intro h
    obtain ⟨kv, h1, h2⟩ := List.any_eq_true.1 h
    rcases hb kv h1 with h | h <;> simp [h, Atom.blank] at h2
  induction pre with
  | nil =>
    refine .cons ⟨⟨rfl, Iff.rfl, ?_⟩, rfl⟩ (hrefl post)
    simp [content, List.filter_append, List.filter_cons, hno]
  | cons x r ih => exact .cons ⟨⟨rfl, Iff.rfl, rfl⟩, rfl⟩ ih

/-- In particular: in one line, a blank cell of a column that is not the root id may be dropped, or
written as the empty string instead of nothing (sheets without separate headings). -/
theorem C01_blank_cell (cfg : UnCfg) (pre post : List SheetIn) (s : SheetIn) (hs : s.headings = none)
    (before after : List Line) (l1 l2 : Line) (h : Option Str) (v : Atom) (hv : v = .none ∨ v = .str [])
    (hroot : ∀ r, cfg.rootId = some r → h ≠ some r) :
    unflatten cfg (pre ++ { s with lines := before ++ (l1 ++ (h, v) :: l2) :: after } :: post) =
      unflatten cfg (pre ++ { s with lines := before ++ (l1 ++ l2) :: after } :: post) := by
  apply C01_blanks_are_inert
  have hrefl : ∀ l : List SheetIn, All₂ (fun s s' => SameButBlanks cfg.rootId s s' ∧ s.headings = s'.headings) l l := by
    intro l
    induction l with
    | nil => exact .nil
    | cons x r ih => exact .cons ⟨⟨rfl, Iff.rfl, rfl⟩, rfl⟩ ih
  have hbl : v.blank = true := by rcases hv with rfl | rfl <;> rfl
  have hdata : hasData (l1 ++ (h, v) :: l2) = hasData (l1 ++ l2) := by
    simp [hasData, hbl]
  have hcells : ∀ (l : Line) k k', cellsFrom none k l = cellsFrom none k' l := by
    intro l
    induction l with
    | nil => intros; rfl
    | cons e r ih => intro k k'; obtain ⟨a, b⟩ := e; simp only [cellsFrom, headingAt, ih (k+1) (k'+1)]
  have hcells2 : ∀ (l1 : Line) k, cellsFrom none k (l1 ++ (h, v) :: l2) = cellsFrom none k (l1 ++ l2) := by
    intro l1
    induction l1 with
    | nil => intro k; simp only [List.nil_append, cellsFrom, hbl, if_true]; exact hcells _ _ _
    | cons e r ih => intro k; obtain ⟨a, b⟩ := e; simp only [List.cons_append, cellsFrom, ih]
  have hrc : rootCell cfg.rootId (l1 ++ (h, v) :: l2) = rootCell cfg.rootId (l1 ++ l2) := by
    unfold rootCell
    cases hr : cfg.rootId with
    | none => rfl
    | some r => simp [Dict.get_append, Dict.get_cons, hroot r hr]
  induction pre with
  | nil =>
    refine .cons ⟨⟨rfl, Iff.rfl, ?_⟩, rfl⟩ (hrefl post)
    simp only [content, List.filter_append, List.filter_cons, List.map_append, hdata, hs]
    congr 1
    split <;> simp [hcells2, hrc]
  | cons x r ih => exact .cons ⟨⟨rfl, Iff.rfl, rfl⟩, rfl⟩ ih

/-- Blank cells in every position, a blank line in between: the same result as without them. -/
example :
    unflatten {} [{ name := s%"a", lines := [
      [(some s%"ocid", .str s%"o"), (some s%"id", .str s%"1"), (some s%"x", .none), (some s%"l/0/y", .str s%"z")],
      [(some s%"ocid", .none), (some s%"id", .str []), (some s%"x", .str [])],
      [(some s%"ocid", .str s%"o"), (some s%"id", .str s%"1"), (some s%"x", .int 2), (some s%"l/0/y", .str [])]] }]
    = .ok ([.obj [(s%"ocid", .leaf (.str s%"o")), (s%"id", .leaf (.str s%"1")),
        (s%"l", .arr [.obj [(s%"y", .leaf (.str s%"z"))]]), (s%"x", .leaf (.int 2))]], []) := by
  decide +kernel

/-- The exception for the root id is needed: a missing root id and an empty one are different groups. -/
example : (unflatten {} [{ name := s%"a", lines := [
      [(some s%"ocid", .none), (some s%"id", .str s%"1")], [(some s%"ocid", .str []), (some s%"id", .str s%"1")]] }]).map
        (fun r => r.1.length) = .ok 2 := by
  decide +kernel

end Verif
