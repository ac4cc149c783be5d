import Verif.Spec.Address
/-! Specification vocabulary: cells that can be read, with or without a schema. -/
namespace Verif.Spec

/-- The parts of a heading that are not numbers. -/
def named (parts : List Str) : List Str := parts.filter (fun p => (Py.int? p).isNone)

/-- The schema says nothing about the heading or anything above it; the id name is at most the last part of the heading; and the value is not an infinite or NaN
float. -/
structure Undeclared (cfg : UnCfg) (heading : Option Str) (a : Atom) : Prop where
  ids : ∀ idName before after, cfg.idName = some idName → pathList (heading.getD s%"None") = before ++ idName :: after → after = []
  types : ∀ before after, pathList (heading.getD s%"None") = before ++ after → before ≠ [] → cfg.row.types (Py.join s%"/" (named before)) = none
  number : ∀ f, a = .float f → ∃ neg c x, f.exact = .fin neg c x

/-- The heading names a position where the schema (if it says anything about it) has a column; the value can be converted to the type of the column; and what is
an id by its name is a scalar. -/
def FitsSchema (cfg : UnCfg) (heading : Option Str) (a : Atom) : Prop :=
  ∃ p v w, address cfg.row.types [] (pathList (heading.getD s%"None")) = some p ∧ Column.value cfg.row ⟨heading.getD s%"None", a⟩ = .ok (v, w) ∧
    (∀ idName, cfg.idName = some idName → ∀ above ix below, p = above ++ (idName, ix) :: below → below = []) ∧
    (∀ idName, cfg.idName = some idName → ∀ above ix, p = above ++ [(idName, ix)] → ∃ b, v = .atom b)

/-- The types of columns whose values are scalars. -/
def ScalarColumn (ty : CType) : Prop :=
  ty = .number ∨ ty = .integer ∨ ty = .boolean ∨ ty = .string ∨ ty = .date ∨ ty = .untyped

instance (ty : CType) : Decidable (ScalarColumn ty) := by unfold ScalarColumn; infer_instance

end Verif.Spec
