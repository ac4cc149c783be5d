import Verif.Spec.Files
import Verif.Spec.Schema
import Verif.Spec.Renumber
/-! Specification vocabulary: spreadsheets with titles instead of paths. -/
namespace Verif.Spec
open Api

/-- The schema that `unflatten` reads, with its options. -/
def readingOf (u : UnOpts) : SchemaCfg := { rollup := true, rootId := u.rootId.getD [], trunc := u.trunc, wkt := u.wkt }

/-- `title` is a heading written with the titles of the schema, for the heading `path` of field names: the titles of the properties on the way to a property, separated by
colons, in any spelling that counts as the same, with the same numbers in between.  A part that is the title of no property, and what follows it, stand for themselves
(without spaces around them). -/
inductive MeansPath (cfg : SchemaCfg) (s : Schema) : Str → Str → Prop
  | field {steps q n p parts fields} : Trail cfg s steps q → Field cfg q n p → Heading (steps.map (fun x => (x.name, x.prop)) ++ [(n, p)]) parts fields →
      (∀ x ∈ parts, ':' ∉ x) → MeansPath cfg s (Py.join s%":" parts) (Py.join s%"/" fields)
  | kept {steps q parts fields w rest} : Trail cfg s steps q → Leading (steps.map (fun x => (x.name, x.prop))) parts fields → isint w = false →
      (∀ n p a, Field cfg q n p → titleOf p = some a → ¬ SameTitle a w) → (∀ x ∈ parts ++ w :: rest, ':' ∉ x) →
      MeansPath cfg s (Py.join s%":" (parts ++ w :: rest)) (Py.join s%"/" (fields ++ (w :: rest).map (Py.strip (· = ' '))))

/-- The sheet `t` has titles where the sheet `t'` has paths; else they are the same. -/
structure Retitled (cfg : SchemaCfg) (s : Schema) (t t' : DataSheet) : Prop where
  name : t.name = t'.name
  rows : t.rows = t'.rows
  header : All₂ (MeansPath cfg s) t.header t'.header

/-- What a run of `unflatten` gives: the document, the warnings without the headings they name, and the warnings about the schema. -/
def resultOf (out : UnOut) : Document × List Warn × List SWarn := (out.document, plainWarnings out.warns, out.schemaWarns)

end Verif.Spec
