import Verif.Model.SchemaModel
import Verif.Spec.Text
/-!
Specification vocabulary for schemas: what kind of field a property is, which
properties are reachable, and which columns they give.
-/
namespace Verif.Spec

/-- The types a schema names: none, one, or the listed ones. -/
def typesOf (s : Schema) : List Str :=
  match s.info.type with
  | .absent => []
  | .one t => [t]
  | .many l => l

/-- The `type` of the schema is, or lists, `t`. -/
def HasType (s : Schema) (t : Str) : Prop := t ∈ typesOf s

instance (s : Schema) (t : Str) : Decidable (HasType s t) := inferInstanceAs (Decidable (t ∈ _))

/-- The schema does not say a type. -/
def Untyped (s : Schema) : Prop := typesOf s = []

instance (s : Schema) : Decidable (Untyped s) := inferInstanceAs (Decidable (_ = _))

/-- The property names of a schema. -/
def names (s : Schema) : List Str := (s.properties.getD []).map (·.1)

/-- What a property becomes: a column with a conversion type, an object whose own
fields become columns, an array of objects with a sheet of its own, nothing (an
unknown type), or something the parser refuses. -/
inductive Kind where
  | column (t : CType)
  | object
  | objects
  | nothing
  | refused
  deriving DecidableEq

/-- The kind of a property that is a list with these items. -/
def listKind (items : Schema) : Kind :=
  if HasType items s%"string" ∨ Untyped items then .column .stringArray
  else if HasType items s%"number" then .column .numberArray
  else if HasType items s%"array" then
    match items.items with
    | some inner => if HasType inner s%"string" ∨ HasType inner s%"number" then .column .arrayArray else .refused
    | none => .refused
  else if HasType items s%"object" then .objects
  else .refused

/-- The kind of a property; `wkt` says that geometries are written as well-known
text. -/
def kind (wkt : Bool) (p : Schema) : Kind :=
  if HasType p s%"object" then
    if wkt = true ∧ s%"type" ∈ names p ∧ s%"coordinates" ∈ names p then .column .geojson else .object
  else if HasType p s%"array" then
    match p.items with
    | some i => listKind i
    | none => .refused
  else if HasType p s%"string" ∨ Untyped p then .column (if p.info.isDate then .date else .string)
  else if HasType p s%"number" then .column .number
  else if HasType p s%"integer" then .column .integer
  else if HasType p s%"boolean" then .column .boolean
  else .nothing

/-- The property, or the reference that points to it, is marked as deprecated. -/
def Deprecated (p : Schema) : Prop := p.info.deprecated = true ∨ p.info.refDeprecated = true

/-- `(n, p)` is a property of the schema, and is not left out as deprecated. -/
def Field (cfg : SchemaCfg) (s : Schema) (n : Str) (p : Schema) : Prop :=
  (n, p) ∈ s.properties.getD [] ∧ (cfg.noDeprecated = true → ¬ Deprecated p)

/-- The title of a property: the title beside the reference that points to it, if
there is one, else its own.  An empty title is none. -/
def titleOf (p : Schema) : Option Str :=
  ((p.info.refTitle.getD p.info.title)).bind (fun t => if t = [] then none else some t)

/-- The schemas of the records: the schema itself, or the alternatives that are
objects if it describes an array with alternatives. -/
def Starts (s : Schema) (r : Schema) : Prop :=
  match s.info.type, s.items with
  | .one t, some (.mk _ _ _ (some alts)) =>
    if t = s%"array" then r ∈ alts ∧ r.info.type = .one s%"object" else r = s
  | _, _ => r = s

/-- One step down in a schema: the property taken, and whether it is a list of
objects (then the step goes to the items). -/
structure Hop where
  name : Str
  prop : Schema
  list : Bool

/-- `Trail cfg s steps q`: going down from the schema `s` along `steps`, through
properties that are objects or arrays of objects, leads to `q`. -/
inductive Trail (cfg : SchemaCfg) : Schema → List Hop → Schema → Prop
  | here (s : Schema) : Trail cfg s [] s
  | object {s p q : Schema} {n : Str} {r : List Hop} : Field cfg s n p → kind cfg.wkt p = .object →
      Trail cfg p r q → Trail cfg s (⟨n, p, false⟩ :: r) q
  | list {s p i q : Schema} {n : Str} {r : List Hop} : Field cfg s n p → kind cfg.wkt p = .objects → p.items = some i →
      Trail cfg i r q → Trail cfg s (⟨n, p, true⟩ :: r) q

/-- The parts of a path: the names, with `0` after a list. -/
def indexed : List Hop → List Str
  | [] => []
  | x :: r => if x.list then x.name :: s%"0" :: indexed r else x.name :: indexed r

/-- The path of the property `n` below the steps, with `0` for each list crossed. -/
def columnPath (steps : List Hop) (n : Str) : Str := Py.join s%"/" (indexed steps ++ [n])

/-- The path of the property `n` below the steps, without indices. -/
def plainPath (steps : List Hop) (n : Str) : Str := Py.join s%"/" (steps.map (·.name) ++ [n])

/-- The name of the sheet for the array `n` below the steps: the beginnings of the
names above it and its own name, joined by `_`, with `:` written `-`. -/
def tableName (cfg : SchemaCfg) (steps : List Hop) (n : Str) : Str :=
  Py.replaceAll s%":" s%"-" (Py.join s%"_" (steps.map (·.name.take cfg.trunc) ++ [n]))

/-- `Shown cfg s f t`: the fields of `s` that stand in columns of the sheet of the
objects described by `s`, with their paths and titles: its columns, those of its
objects, and (if rolled up) those of its lists that are listed in `rollUp`. -/
inductive Shown (cfg : SchemaCfg) : Schema → Str → Option Str → Prop
  | own {s p : Schema} {n : Str} {t : CType} : Field cfg s n p → kind cfg.wkt p = .column t → Shown cfg s n (titleOf p)
  | inside {s p : Schema} {n f : Str} {t : Option Str} : Field cfg s n p → kind cfg.wkt p = .object → Shown cfg p f t →
      Shown cfg s (n ++ s%"/" ++ f) ((titleOf p).bind (fun a => t.map (fun b => a ++ s%":" ++ b)))
  | rolled {s p i : Schema} {n f : Str} {t : Option Str} {listed : List Str} : cfg.rollup = true → Field cfg s n p → kind cfg.wkt p = .objects →
      p.items = some i → Shown cfg i f t → p.info.rollUp = some listed → f ∈ listed →
      Shown cfg s (n ++ s%"/0/" ++ f) ((titleOf p).bind (fun a => t.map (fun b => a ++ s%":" ++ b)))

/-- The titles of some properties joined by `:`, if all have one. -/
def titlesText : List Schema → Option Str
  | [] => none
  | [p] => titleOf p
  | p :: r => (titleOf p).bind (fun a => (titlesText r).map (fun b => a ++ s%":" ++ b))

/-- The heading by titles of the property `p` below the steps. -/
def titlePath (steps : List Hop) (p : Schema) : Option Str := titlesText (steps.map (·.prop) ++ [p])

/-- `p` is the property `n` reached from the records of the schema along the steps. -/
def Reached (cfg : SchemaCfg) (s : Schema) (steps : List Hop) (n : Str) (p : Schema) : Prop :=
  ∃ r q, Starts s r ∧ Trail cfg r steps q ∧ Field cfg q n p

/-- The property names that can be reached are not empty, contain no `/` and are not `0`. -/
def WellNamed (cfg : SchemaCfg) (s : Schema) : Prop :=
  ∀ steps n p, Reached cfg s steps n p → n ≠ [] ∧ '/' ∉ n ∧ n ≠ s%"0"

/-- Properties reached by the same names are of the same kind. -/
def NoClash (cfg : SchemaCfg) (s : Schema) : Prop :=
  ∀ steps n p steps' n' p', Reached cfg s steps n p → Reached cfg s steps' n' p' →
    steps.map (·.name) ++ [n] = steps'.map (·.name) ++ [n'] → kind cfg.wkt p = kind cfg.wkt p'

/-- Two texts are the same up to spaces and the case of ASCII letters. -/
inductive Alike : Str → Str → Prop
  | nil : Alike [] []
  | left {a b} : Alike a b → Alike (' ' :: a) b
  | right {a b} : Alike a b → Alike a (' ' :: b)
  | char {c d a b} : c = d ∨ c = upperOf d ∨ d = upperOf c → Alike a b → Alike (c :: a) (d :: b)

/-- Two titles count as the same: equal after removing spaces and lowering (Python's
`lower`). -/
def SameTitle (a b : Str) : Prop := Py.lower (a.filter (· ≠ ' ')) = Py.lower (b.filter (· ≠ ' '))

/-- `Heading path parts fields`: the parts of a heading written by titles stand for the
fields of the path.  A part is the title of a property, in any spelling that counts as
the same and is not a number; numbers (indices) may stand between and are kept. -/
inductive Heading : List (Str × Schema) → List Str → List Str → Prop
  | last {n p a h} : titleOf p = some a → SameTitle a h → isint h = false → Heading [(n, p)] [h] [n]
  | step {n p a h r hs fs} : titleOf p = some a → SameTitle a h → isint h = false → Heading r hs fs →
      Heading ((n, p) :: r) (h :: hs) (n :: fs)
  | index {i r hs fs} : isint i = true → Heading r hs fs → Heading r (i :: hs) (i :: fs)

/-- `Leading path parts fields`: the same for the parts that lead somewhere; there may be none. -/
inductive Leading : List (Str × Schema) → List Str → List Str → Prop
  | nil : Leading [] [] []
  | step {n p a h r hs fs} : titleOf p = some a → SameTitle a h → isint h = false → Leading r hs fs → Leading ((n, p) :: r) (h :: hs) (n :: fs)
  | index {i r hs fs} : isint i = true → Leading r hs fs → Leading r (i :: hs) (i :: fs)

/-- Titles identify properties: the properties of one schema have different names and
different titles, and every object or array of objects has a title. -/
structure GoodTitles (cfg : SchemaCfg) (s : Schema) : Prop where
  dict : ∀ steps q, Trail cfg s steps q → (names q).Nodup
  different : ∀ steps q n p a n' p' a', Trail cfg s steps q → Field cfg q n p → Field cfg q n' p' →
    titleOf p = some a → titleOf p' = some a' → SameTitle a a' → n = n'
  titled : ∀ steps q n p, Trail cfg s steps q → Field cfg q n p →
    kind cfg.wkt p = .object ∨ kind cfg.wkt p = .objects → ∃ a, titleOf p = some a

/-- The titles that can be reached contain no `:` and are not numbers. -/
def PlainTitles (cfg : SchemaCfg) (s : Schema) : Prop :=
  ∀ steps n p a, Reached cfg s steps n p → titleOf p = some a → ':' ∉ a ∧ isint a = false

/-- The titles of the steps, if all have one. -/
def stepTitles : List Hop → Option (List Str)
  | [] => some []
  | x :: r => (titleOf x.prop).bind (fun a => (stepTitles r).map (fun l => a :: l))

/-- The name of the sheet for the array `n` below the steps when titles are used: the
beginnings of the titles above it and its own title (its name, if it has none), joined
by `_`, with `:` written `-`.  If something above it has no title, the name is that
without titles. -/
def titledTableName (cfg : SchemaCfg) (steps : List Hop) (n : Str) (p : Schema) : Str :=
  match stepTitles steps with
  | some ts => Py.replaceAll s%":" s%"-" (Py.join s%"_" (ts.map (·.take cfg.trunc) ++ [(titleOf p).getD n]))
  | none => tableName cfg steps n

/-- The heading, when titles are used, of the column for the `id` (described by `i`) of
the object reached by the steps: the titles above it and its own title (`id`, if it has
none), joined by `:`; if something above it has no title, its path with the title (or
`id`) at the end. -/
def titledId (steps : List Hop) (i : Schema) : Str :=
  match i.info.title, stepTitles steps with
  | some (c :: r), some ts => Py.join s%":" (ts ++ [c :: r])
  | _, some ts => Py.join s%":" (ts ++ [s%"id"])
  | some (c :: r), none => columnPath steps (c :: r)
  | _, none => columnPath steps s%"id"

end Verif.Spec
