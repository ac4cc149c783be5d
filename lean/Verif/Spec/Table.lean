import Verif.Spec.Objects
import Verif.Spec.Address
import Verif.Spec.OneCell
import Verif.Spec.RoundTrip
/-! Specification vocabulary: a table whose rows are objects of their own and whose headings are paths of keys. -/
namespace Verif.Spec

/-- What flatten writes for a value that fits into one cell: a scalar as it is, a list of scalars as one text. -/
inductive InOneCell : Json → Json → Prop
  | scalar {a} : a.basic = true → InOneCell (.leaf a) (.leaf a)
  | list {l t} : OneCell l t → InOneCell (.arr l) (.leaf (.str t))

/-- The row is one of a plain table: each column with a value has as heading the path of a field (keys only, with slashes between them), no
such path continues another, and each value converts to something that fits into one cell. -/
structure TableRow (cfg : RowCfg) (line : Line) : Prop where
  paths : ∀ c ∈ columns line, ∃ ks, (∀ k ∈ ks, GoodKey k) ∧ c.heading = pathText ks ∧ c.addr cfg = some (keyPath ks)
  apart : ((columns line).map (fun c => (c.addr cfg).getD [])).Pairwise Compatible
  values : ∀ c ∈ columns line, ∀ v w, c.value cfg = .ok (v, w) → v.blank = false ∧ ∃ j, InOneCell v.toJson j

/-- No two rows belong to one object: those with the same root id have different ids, or one has no id. -/
def RowsApart (cfg : UnCfg) (rows : List RowIn) : Prop :=
  rows.Pairwise (fun r r' => sameRoot cfg r r' = true → sameId cfg r r' = false)

/-- The line has exactly the values of the row, each under the heading that the row has it under. -/
structure WrittenBack (cfg : RowCfg) (row : Line) (line : FLine) : Prop where
  complete : ∀ c ∈ columns row, ∃ v w j, c.value cfg = .ok (v, w) ∧ InOneCell v.toJson j ∧ Dict.get line c.heading = some j
  sound : ∀ h j, Dict.get line h = some j → ∃ c ∈ columns row, c.heading = h

/-- Ids are where flatten expects them: no field is below an id, ids are scalars, and only the root objects have the root id. -/
def IdsInPlace (o : IdOpts) (cfg : RowCfg) (line : Line) : Prop :=
  ∀ c ∈ columns line, ∀ ks, (∀ k ∈ ks, GoodKey k) → c.heading = pathText ks →
    o.idName ∉ ks.dropLast ∧ (∀ rid, o.rootId = some rid → rid ∈ ks → ks = [rid]) ∧
    (ks.getLast? = some o.idName ∨ ks.getLast? = o.rootId → ∀ v w, c.value cfg = .ok (v, w) → ∃ a, v.toJson = .leaf a)

/-- The lines of a table of texts and whole numbers: its headings are the paths of fields, none of which continues another or goes through an id; the
root id is a field of the root; lines with equal root ids have different ids (or one has none). -/
structure TextTable (idName : Str) (rootId : Option Str) (paths : List (List Str)) (lines : List Line) : Prop where
  id : GoodKey idName
  keys : ∀ ks ∈ paths, ks ≠ [] ∧ ∀ k ∈ ks, GoodKey k
  apart : paths.Pairwise (fun a b => ¬ a <+: b ∧ ¬ b <+: a)
  ids : ∀ ks ∈ paths, idName ∉ ks.dropLast
  root : ∀ ks ∈ paths, ∀ rid, rootId = some rid → rid ∈ ks → ks = [rid]
  headed : ∀ l ∈ lines, l.map (·.1) = paths.map (fun ks => some (pathText ks))
  cells : ∀ l ∈ lines, ∀ e ∈ l, e.2 = .none ∨ (∃ t, e.2 = .str t) ∨ ∃ i, e.2 = .int i
  distinct : lines.Pairwise (fun l l' => atomEq (rootCell rootId l) (rootCell rootId l') = true →
    ∀ a a', (some idName, a) ∈ l → (some idName, a') ∈ l' → a.blank = false → a'.blank = false → atomEq a a' = false)

end Verif.Spec
