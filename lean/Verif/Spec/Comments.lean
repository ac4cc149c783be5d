import Verif.Spec.Main
/-! Specification vocabulary: ignored sheets and comment columns. -/
namespace Verif.Spec
open Api

/-- The cell of a configuration line gives a documented option. -/
def documented (item : Str) : Bool :=
  ((argOf s%"skiprows" item).bind Py.int?).isSome || ((argOf s%"headerrows" item).bind Py.int?).isSome ||
  isFlag [s%"ignore"] item || isFlag [s%"hashcomments", s%"hashcomment"] item ||
  (argOf s%"xmlroottag" item).isSome || (argOf s%"rootlistpath" item).isSome || (argOf s%"idname" item).isSome

/-- Where the configuration of a sheet comes from: its own configuration line if that gives any documented option, otherwise the sources for the whole
run. -/
def sheetSources (o : UnOpts) (env : Env) (name : Str) : List (List Str) :=
  if (configItems env.input name).any documented then [configItems env.input name] else sources o env

/-- A flag is set for a sheet. -/
def flagged (flags : List Str) (o : UnOpts) (env : Env) (name : Str) : Prop :=
  ∃ items ∈ sheetSources o env name, ∃ item ∈ items, isFlag flags item = true

/-- The sheet is to be left out: `ignore` is configured for it; or `hashcomments` is, and its name starts with `#` (XLSX and ODS). -/
def LeftOut (o : UnOpts) (env : Env) (name : Str) : Prop :=
  flagged [s%"ignore"] o env name ∨
  (flagged [s%"hashcomments", s%"hashcomment"] o env name ∧ (∃ rest, name = '#' :: rest) ∧ env.input.format ≠ s%"csv")

/-- The sheet can be configured: the CSV file has a line; the configuration line, if there is one, has only texts. -/
def Configurable (i : Input) (name : Str) : Prop :=
  (i.format = s%"csv" → fileRows i name ≠ []) ∧
  ∀ items rest, fileRows i name = (.str s%"#" :: items) :: rest → ∀ a ∈ items, ∃ s, a = .str s

/-- The column has a heading that starts with `#`. -/
def commentColumn (header : List Atom) (c : Nat) : Prop := ∃ rest, header[c]? = some (.str ('#' :: rest))

/-- Two rows that are the same except under headings that start with `#`. -/
def SameButComments (header : List Atom) (r r' : List Atom) : Prop :=
  r.length = r'.length ∧ ∀ c, ¬ commentColumn header c → r[c]? = r'[c]?

end Verif.Spec
