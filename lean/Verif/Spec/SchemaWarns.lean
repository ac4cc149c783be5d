import Verif.Spec.Schema
/-! What the schema parser has to complain about. -/
namespace Verif.Spec

/-- The beginning of the paths below some steps: empty at the top, else it ends with `/`. -/
def pathAbove (steps : List Hop) : Str := columnPath steps []

/-- The complaints about a schema: properties without a known type, objects without
`properties`, names in `rollUp` that are no fields of the items, and, if titles are used,
fields that cannot be shown because they, or something above them, have no title. -/
inductive Complaint (cfg : SchemaCfg) (s : Schema) : SWarn → Prop
  | unknownType {steps n p} : Reached cfg s steps n p → kind cfg.wkt p = .nothing →
      Complaint cfg s (.unrecognised (typesOf p) n (pathAbove steps))
  | noProperties {r steps q} : Starts s r → Trail cfg r steps q → q.properties = none → Complaint cfg s (.noProperties (pathAbove steps))
  /-- the fields named (in some order) are those of `rollUp` that the items do not show -/
  | rollUp {steps n p i listed} {missed : Str → Bool} : cfg.rollup = true → Reached cfg s steps n p → kind cfg.wkt p = .objects → p.items = some i →
      p.info.rollUp = some listed → (∀ f, missed f = true ↔ ¬ ∃ t, Shown cfg i f t) → (∃ f ∈ listed, missed f = true) →
      Complaint cfg s (.missedRollUp (listed.filter missed))
  /-- a field of the main sheet -/
  | mainTitle {r f} : cfg.useTitles = true → Starts s r → Shown cfg r f none → Complaint cfg s (.noTitle f)
  /-- a field of the items of an array of objects: it, or something above the array, has no title -/
  | itemTitle {steps n p i f t} : cfg.useTitles = true → Reached cfg s steps n p → kind cfg.wkt p = .objects → p.items = some i → Shown cfg i f t →
      (t = none ∨ stepTitles steps = none) → Complaint cfg s (.missingTitle (columnPath steps n ++ s%"/0/" ++ f))
  /-- an array of objects without a title, with fields that have one -/
  | arrayTitle {steps n p i f t} : cfg.useTitles = true → Reached cfg s steps n p → kind cfg.wkt p = .objects → p.items = some i → Shown cfg i f (some t) →
      stepTitles steps ≠ none → titleOf p = none → Complaint cfg s (.noTitle (columnPath steps n))

/-- The names of the properties that can be reached are not empty. -/
def Named (cfg : SchemaCfg) (s : Schema) : Prop := ∀ steps n p, Reached cfg s steps n p → n ≠ []

end Verif.Spec
