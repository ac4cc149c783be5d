import Verif.Proofs.Renumber
import Verif.Proofs.DecEq
/-! C68: the numbers in headings. -/
namespace Verif
open Spec

/-- C68: two spreadsheets that differ only in the numbers that the headings of each row give to the items of arrays, with the same order
of the numbers for each array of a row, are unflattened alike: the same error, or the same document and the same warnings (up to the
headings named in them, and warnings about duplicate headings).  A number left out where the schema says that there is an array counts
as -1. -/
theorem C68_numbers_only_order (cfg : UnCfg) (hx : cfg.row.xml = false) (ss ss' : List SheetIn)
    (h : All₂ (RenumberedSheet cfg) ss ss') :
    (unflatten cfg ss).map (fun r => (r.1, plainWarnings r.2)) = (unflatten cfg ss').map (fun r => (r.1, plainWarnings r.2)) :=
  unflatten_same hx h

/-! #### Cases that meet the hypotheses -/

/-- `a` is an array. -/
def typesA : Str → Option CType := fun k => if k = s%"a" then some .array else none
def cfgA : UnCfg := { row := { types := typesA } }

/-- A row with two items, numbered 0 and 1, and again numbered -1 (left out) and 7, and with the inner array numbered differently. -/
def numbered : List SheetIn :=
  [{ name := s%"m", headings := none, lines := [[(some s%"id", .str s%"1"), (some s%"a/0/x", .str s%"u"), (some s%"a/1/x", .str s%"v"),
      (some s%"a/1/b/3/y", .str s%"w"), (some s%"a/1/b/2/y", .str s%"z")]] }]
def renumbered : List SheetIn :=
  [{ name := s%"m", headings := none, lines := [[(some s%"id", .str s%"1"), (some s%"a/x", .str s%"u"), (some s%"a/7/x", .str s%"v"),
      (some s%"a/7/b/1/y", .str s%"w"), (some s%"a/7/b/0/y", .str s%"z")]] }]

def exampleNumbering : Numbering := fun array i =>
  if array = [s%"a"] then (if i ≤ 0 then i - 1 else i + 6) else i - 2

theorem example_order : KeepsOrder exampleNumbering := by
  intro array i j h
  unfold exampleNumbering
  split
  · split <;> split <;> omega
  · omega

theorem position_of_map {p p' : Option Addr} {g : Addr → Addr} (h : p.isSome = true) (h' : p' = p.map g) : ∃ a, p = some a ∧ p' = some (g a) := by
  cases p with
  | none => simp at h
  | some a => exact ⟨a, rfl, h'⟩

theorem example_renumbered : All₂ (RenumberedSheet cfgA) numbered renumbered := by
  refine .cons ⟨rfl, by simp, .cons ⟨exampleNumbering, example_order, ?_⟩ .nil⟩ .nil
  refine .cons ⟨rfl, ?_, ?_⟩ (.cons ⟨rfl, ?_, ?_⟩ (.cons ⟨rfl, ?_, ?_⟩ (.cons ⟨rfl, ?_, ?_⟩ (.cons ⟨rfl, ?_, ?_⟩ .nil))))
  all_goals first
    | (intro r hr; simp only [cfgA, Option.some.injEq] at hr; subst hr; decide)
    | (intro _; exact position_of_map (by decide +kernel) (by decide +kernel))

example : (unflatten cfgA numbered).map (fun r => (r.1, plainWarnings r.2)) =
    (unflatten cfgA renumbered).map (fun r => (r.1, plainWarnings r.2)) :=
  C68_numbers_only_order cfgA rfl _ _ example_renumbered

/-- Left out in one column only, the order is not kept: the second column is about another item. -/
example : unflatten cfgA [{ name := s%"m", headings := none, lines := [[(some s%"a/x", .str s%"u"), (some s%"a/0/y", .str s%"v")]] }] =
    .ok ([.obj [(s%"a", .arr [.obj [(s%"x", .leaf (.str s%"u"))], .obj [(s%"y", .leaf (.str s%"v"))]])]], []) := by decide +kernel

end Verif
