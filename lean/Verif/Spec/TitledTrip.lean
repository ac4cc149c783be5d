import Verif.Spec.Schema
import Verif.Spec.RoundTrip
/-! Specification vocabulary: documents that survive being written with titles as headings and read back. -/
namespace Verif.Spec

/-- The title that stands in a property itself (not beside a reference to it). -/
def ownTitle (p : Schema) : Option Str := p.info.title.bind (fun t => if t = [] then none else some t)

/-- What the titles of a schema need, so that headings by titles can be read back.
* Titles identify properties (`good`), and contain no `:` or `/` and are not numbers.
* Names can be parts of headings: not empty, no `/`, not a number, no bracket at the end.
* The properties called `id` are not left out, and have their titles in themselves.
* A property with the title of the root's `id` is not named like the heading of another id. -/
structure TitlesReturn (cfg : SchemaCfg) (s : Schema) (idName : Str) (rootId : Option Str) : Prop where
  start : Starts s s
  good : GoodTitles cfg s
  plain : PlainTitles cfg s
  keys : ∀ steps n p, Reached cfg s steps n p → GoodKey n
  noSlash : ∀ steps n p a, Reached cfg s steps n p → titleOf p = some a → '/' ∉ a
  ids : ∀ steps q p, Trail cfg s steps q → (s%"id", p) ∈ q.properties.getD [] → Field cfg q s%"id" p ∧ titleOf p = ownTitle p
  apart : ∀ p, Field cfg s s%"id" p → ∀ steps' n' p', Reached cfg s steps' n' p' → steps' ≠ [] ∨ n' ≠ s%"id" → n' = idName ∨ rootId = some n' →
    ∀ steps n'' p'' a, Reached cfg s steps n'' p'' → titleOf p'' = some a → SameTitle a ((titleOf p).getD s%"id") → titlePath steps' p' ≠ some n''

mutual
/-- The schema describes the value `v` of the property `p`: scalars, and lists that are written into one cell, are columns with a title;
objects are objects, and other arrays are arrays of objects, with fields that the schema describes. -/
def Described (cfg : SchemaCfg) (p : Schema) : Json → Prop
  | .leaf _ => (∃ ty, kind cfg.wkt p = .column ty) ∧ titleOf p ≠ none
  | .obj fs => kind cfg.wkt p = .object ∧ DescribedFields cfg p fs
  | .arr l => (joinArray l ≠ none ∧ (∃ ty, kind cfg.wkt p = .column ty) ∧ titleOf p ≠ none) ∨
      (joinArray l = none ∧ kind cfg.wkt p = .objects ∧ ∃ i, p.items = some i ∧ DescribedItems cfg i l)
/-- The schema describes the fields of an object. -/
def DescribedFields (cfg : SchemaCfg) (q : Schema) : List (Str × Json) → Prop
  | [] => True
  | (k, v) :: r => (∃ p, Field cfg q k p ∧ Described cfg p v) ∧ DescribedFields cfg q r
/-- The schema describes the items of an array of objects. -/
def DescribedItems (cfg : SchemaCfg) (q : Schema) : List Json → Prop
  | [] => True
  | .obj fs :: r => DescribedFields cfg q fs ∧ DescribedItems cfg q r
  | _ :: _ => False
end

/-- `c` is the heading by titles for the path `k`. -/
def TitledAs (cfg : SchemaCfg) (s : Schema) (k c : Str) : Prop :=
  ∃ steps n p, Reached cfg s steps n p ∧ titlePath steps p = some c ∧ k = columnPath steps n

/-- A line `l` of a spreadsheet, as it is read, has the data of the line `fl` that was written: its cells that are not blank are those of
`fl` (with values as they are written).  `conv` says how headings will be converted: no cell with data is followed by another cell whose
heading is converted to the same, and if the line has no root id, then cells whose headings are converted to the root id are empty. -/
structure Trip.ReadTitled (T : Trip) (conv : Str → Str) (fl : FLine) (l : Line) : Prop where
  from_ : ∀ h a, (h, a) ∈ l → a.blank = false → ∃ s b, h = some s ∧ Dict.get fl s = some (.leaf b) ∧ a = T.write b
  all : ∀ s b, Dict.get fl s = some (.leaf b) → (T.write b).blank = false → (some s, T.write b) ∈ l
  last : l.Pairwise (fun c d => c.1.map conv = d.1.map conv → c.2.blank = true)
  noRoot : ∀ rid, T.rootId = some rid → (∀ h v, Dict.get fl h = some v → conv h ≠ rid) → ∀ h a, (some h, a) ∈ l → conv h = rid → a = .none

/-- The program flattens with the titles of the parsed schema `sp`, and writes everything into the sheets (no rollup, no filter, all fields). -/
structure Titled (T : Trip) (cfg : FCfg) (sp : Parsed) : Prop where
  schema : cfg.schema = some sp
  titles : cfg.useTitles = true
  wkt : cfg.wkt = false
  xml : cfg.xml = false
  rollup : cfg.rollup = []
  preserve : cfg.preserve = []
  filter : cfg.filter = none
  idName : cfg.idName = T.idName
  rootId : cfg.rootId = T.rootId

end Verif.Spec
