import Verif.Model.FlattenMain
/-!
`flattentool/cli.py`: the command line, with `argparse` of the standard library, and the signatures of the functions it calls
(`flattentool/__init__.py`).

Simplifications of `argparse`: the word `--` is refused; several one-letter options in one word (`-vv`) are refused; a mistake is reported at
once, where `argparse` would still notice a `-h` that comes later.
-/
namespace Verif.Cli

/-- Values of options: `None`, `bool`, `str`, `int`, the list of `--rollup` (`none` stands for `True`), a list of texts. -/
inductive CVal where
  | none
  | bool (b : Bool)
  | str (s : Str)
  | int (i : Int)
  | rollup (l : List (Option Str))
  | strs (l : List Str)
  deriving DecidableEq

/-- What an option does (`action`, `nargs`, `type` of `add_argument`): take one text; take one integer (`type=int`); be on (`store_true`); collect
texts or `True` (`nargs="?", const=True, action="append"`); take any number of texts (`nargs="*"`); print help. -/
inductive Action where
  | store
  | number
  | flag
  | collect
  | many
  | help
  deriving DecidableEq

/-- An option. -/
structure Opt where
  flags : List Str
  dest : Str
  action : Action := .store
  choices : List Str := []
  required : Bool := false
  default : CVal := .none
  deriving DecidableEq

/-- A command: its options, whether there is `input_name`, and the parameters of the function with their defaults (a parameter without default
has `none` here; the command line always gives it). -/
structure Command where
  name : Str
  options : List Opt
  positional : Bool
  signature : List (Str × CVal)
  deriving DecidableEq

/-- cli.py:37-38: `sorted(OUTPUT_FORMATS) + ["all"]`, `sorted(INPUT_FORMATS)`. -/
def outputChoices : List Str := [s%"csv", s%"ods", s%"xlsx", s%"all"]
def inputChoices : List Str := [s%"csv", s%"ods", s%"xlsx"]

/-- cli.py:40-45: the options before the command. -/
def topOptions : List Opt :=
  [{ flags := [s%"-h", s%"--help"], dest := s%"help", action := .help },
   { flags := [s%"-v", s%"--verbose"], dest := s%"verbose", action := .flag, default := .bool false }]

/-- cli.py:47-107; `__init__.py:18-31` `create_template`. -/
def createTemplate : Command :=
  { name := s%"create-template"
    positional := false
    options :=
    [{ flags := [s%"-h", s%"--help"], dest := s%"help", action := .help },
     { flags := [s%"-s", s%"--schema"], dest := s%"schema", required := true },
     { flags := [s%"-f", s%"--output-format"], dest := s%"output_format", choices := outputChoices },
     { flags := [s%"-m", s%"--main-sheet-name"], dest := s%"main_sheet_name" },
     { flags := [s%"-o", s%"--output-name"], dest := s%"output_name" },
     { flags := [s%"--rollup"], dest := s%"rollup", action := .flag, default := .bool false },
     { flags := [s%"-r", s%"--root-id"], dest := s%"root_id" },
     { flags := [s%"--use-titles"], dest := s%"use_titles", action := .flag, default := .bool false },
     { flags := [s%"--disable-local-refs"], dest := s%"disable_local_refs", action := .flag, default := .bool false },
     { flags := [s%"--no-deprecated-fields"], dest := s%"no_deprecated_fields", action := .flag, default := .bool false },
     { flags := [s%"--truncation-length"], dest := s%"truncation_length", action := .number, default := .int 3 },
     { flags := [s%"--line-terminator"], dest := s%"line_terminator" },
     { flags := [s%"--convert-wkt"], dest := s%"convert_wkt", action := .flag, default := .bool false }]
    signature :=
    [(s%"schema", .none), (s%"output_name", .none), (s%"output_format", .str s%"all"), (s%"main_sheet_name", .str s%"main"),
     (s%"rollup", .bool false), (s%"root_id", .none), (s%"use_titles", .bool false), (s%"disable_local_refs", .bool false),
     (s%"truncation_length", .int 3), (s%"no_deprecated_fields", .bool false), (s%"line_terminator", .str s%"CRLF"),
     (s%"convert_wkt", .bool false)] }

/-- cli.py:109-197; `__init__.py:83-105` `flatten`. -/
def flatten : Command :=
  { name := s%"flatten"
    positional := true
    options :=
    [{ flags := [s%"-h", s%"--help"], dest := s%"help", action := .help },
     { flags := [s%"-s", s%"--schema"], dest := s%"schema" },
     { flags := [s%"-f", s%"--output-format"], dest := s%"output_format", choices := outputChoices },
     { flags := [s%"--xml"], dest := s%"xml", action := .flag, default := .bool false },
     { flags := [s%"--id-name"], dest := s%"id_name" },
     { flags := [s%"-m", s%"--main-sheet-name"], dest := s%"main_sheet_name" },
     { flags := [s%"-o", s%"--output-name"], dest := s%"output_name" },
     { flags := [s%"--root-list-path"], dest := s%"root_list_path" },
     { flags := [s%"--rollup"], dest := s%"rollup", action := .collect },
     { flags := [s%"-r", s%"--root-id"], dest := s%"root_id" },
     { flags := [s%"--use-titles"], dest := s%"use_titles", action := .flag, default := .bool false },
     { flags := [s%"--truncation-length"], dest := s%"truncation_length", action := .number, default := .int 3 },
     { flags := [s%"--root-is-list"], dest := s%"root_is_list", action := .flag, default := .bool false },
     { flags := [s%"--sheet-prefix"], dest := s%"sheet_prefix" },
     { flags := [s%"--filter-field"], dest := s%"filter_field" },
     { flags := [s%"--filter-value"], dest := s%"filter_value" },
     { flags := [s%"--preserve-fields"], dest := s%"preserve_fields" },
     { flags := [s%"--disable-local-refs"], dest := s%"disable_local_refs", action := .flag, default := .bool false },
     { flags := [s%"--remove-empty-schema-columns"], dest := s%"remove_empty_schema_columns", action := .flag, default := .bool false },
     { flags := [s%"--line-terminator"], dest := s%"line_terminator" },
     { flags := [s%"--convert-wkt"], dest := s%"convert_wkt", action := .flag, default := .bool false }]
    signature :=
    [(s%"input_name", .none), (s%"schema", .none), (s%"output_name", .none), (s%"output_format", .str s%"all"),
     (s%"main_sheet_name", .str s%"main"), (s%"root_list_path", .str s%"main"), (s%"root_is_list", .bool false),
     (s%"sheet_prefix", .str s%""), (s%"filter_field", .none), (s%"filter_value", .none), (s%"preserve_fields", .none),
     (s%"rollup", .bool false), (s%"root_id", .none), (s%"use_titles", .bool false), (s%"xml", .bool false),
     (s%"id_name", .str s%"id"), (s%"disable_local_refs", .bool false), (s%"remove_empty_schema_columns", .bool false),
     (s%"truncation_length", .int 3), (s%"line_terminator", .str s%"CRLF"), (s%"convert_wkt", .bool false)] }

/-- cli.py:198-311; `__init__.py:208-235` `unflatten`. -/
def unflatten : Command :=
  { name := s%"unflatten"
    positional := true
    options :=
    [{ flags := [s%"-h", s%"--help"], dest := s%"help", action := .help },
     { flags := [s%"-f", s%"--input-format"], dest := s%"input_format", choices := inputChoices, required := true },
     { flags := [s%"--xml"], dest := s%"xml", action := .flag, default := .bool false },
     { flags := [s%"--id-name"], dest := s%"id_name" },
     { flags := [s%"-b", s%"--base-json"], dest := s%"base_json" },
     { flags := [s%"-m", s%"--root-list-path"], dest := s%"root_list_path" },
     { flags := [s%"-e", s%"--encoding"], dest := s%"encoding" },
     { flags := [s%"-o", s%"--output-name"], dest := s%"output_name" },
     { flags := [s%"-c", s%"--cell-source-map"], dest := s%"cell_source_map" },
     { flags := [s%"-a", s%"--heading-source-map"], dest := s%"heading_source_map" },
     { flags := [s%"--timezone-name"], dest := s%"timezone_name" },
     { flags := [s%"-r", s%"--root-id"], dest := s%"root_id" },
     { flags := [s%"-s", s%"--schema"], dest := s%"schema" },
     { flags := [s%"--convert-titles"], dest := s%"convert_titles", action := .flag, default := .bool false },
     { flags := [s%"--vertical-orientation"], dest := s%"vertical_orientation", action := .flag, default := .bool false },
     { flags := [s%"--metatab-name"], dest := s%"metatab_name" },
     { flags := [s%"--metatab-schema"], dest := s%"metatab_schema" },
     { flags := [s%"--metatab-only"], dest := s%"metatab_only", action := .flag, default := .bool false },
     { flags := [s%"--metatab-vertical-orientation"], dest := s%"metatab_vertical_orientation", action := .flag, default := .bool false },
     { flags := [s%"--xml-schema"], dest := s%"xml_schemas", action := .many },
     { flags := [s%"--default-configuration"], dest := s%"default_configuration" },
     { flags := [s%"--root-is-list"], dest := s%"root_is_list", action := .flag, default := .bool false },
     { flags := [s%"--disable-local-refs"], dest := s%"disable_local_refs", action := .flag, default := .bool false },
     { flags := [s%"--xml-comment"], dest := s%"xml_comment", default := .str s%"XML generated by flatten-tool" },
     { flags := [s%"--convert-wkt"], dest := s%"convert_wkt", action := .flag, default := .bool false }]
    signature :=
    [(s%"input_name", .none), (s%"base_json", .none), (s%"input_format", .none), (s%"output_name", .none),
     (s%"root_list_path", .none), (s%"root_is_list", .bool false), (s%"encoding", .str s%"utf8"),
     (s%"timezone_name", .str s%"UTC"), (s%"root_id", .none), (s%"schema", .str s%""), (s%"convert_titles", .bool false),
     (s%"cell_source_map", .none), (s%"heading_source_map", .none), (s%"id_name", .none), (s%"xml", .bool false),
     (s%"vertical_orientation", .bool false), (s%"metatab_name", .none), (s%"metatab_only", .bool false),
     (s%"metatab_schema", .str s%""), (s%"metatab_vertical_orientation", .bool false), (s%"xml_schemas", .none),
     (s%"default_configuration", .str s%""), (s%"disable_local_refs", .bool false), (s%"xml_comment", .none),
     (s%"truncation_length", .int 3), (s%"convert_wkt", .bool false)] }

def commands : List Command := [createTemplate, flatten, unflatten]

/-! #### `argparse` -/

/-- How the parser ends without a result: help was printed (status 0), or usage and an error (status 2). -/
inductive Stop where
  | help
  | usage
  deriving DecidableEq

/-- `arg_string.split("=", 1)` when there is `=`. -/
def splitEq : Str → Option (Str × Str)
  | [] => none
  | c :: cs => if c = '=' then some ([], cs) else (splitEq cs).map (fun p => (c :: p.1, p.2))

/-- The option with this option string (`_option_string_actions`). -/
def optionFor (os : List Opt) (w : Str) : Option Opt := os.find? (fun o => o.flags.contains w)

/-- `_negative_number_matcher`: `^-\d+$|^-\d*\.\d+$`.  Simplification: ASCII digits. -/
def negNumber : Str → Bool
  | '-' :: r =>
    let digit : Char → Bool := fun c => '0' ≤ c && c ≤ '9'
    match r.dropWhile digit with
    | [] => !r.isEmpty
    | '.' :: f => !f.isEmpty && f.all digit
    | _ => false
  | _ => false

/-- What a word is. -/
inductive Word where
  | arg
  | opt (o : Opt) (explicit : Option Str)
  | ambiguous
  | unknown
  deriving DecidableEq

/-- `_get_option_tuples`: beginnings of long options, with a value after `=`; one-letter options with a value joined to them.  (All options that
begin with one dash have one letter.) -/
def tuples (os : List Opt) (w : Str) : List (Opt × Option Str) :=
  if Py.startsWith s%"--" w then
    let p : Str × Option Str := match splitEq w with | some (a, b) => (a, some b) | none => (w, none)
    os.flatMap (fun o => (o.flags.filter (Py.startsWith p.1)).map (fun _ => (o, p.2)))
  else os.flatMap (fun o => (o.flags.filter (· = w.take 2)).map (fun _ => (o, some (w.drop 2))))

/-- `_parse_optional`. -/
def classify (os : List Opt) (w : Str) : Word :=
  match w with
  | [] => .arg
  | c :: r =>
    if c ≠ '-' then .arg
    else match optionFor os w with
      | some o => .opt o none
      | none =>
        if r = [] then .arg
        else match (splitEq w).bind (fun p => (optionFor os p.1).map (fun o => (o, p.2))) with
          | some (o, v) => .opt o (some v)
          | none =>
            match tuples os w with
            | [(o, e)] => .opt o e
            | _ :: _ :: _ => .ambiguous
            | [] => if negNumber w then .arg else if ' ' ∈ w then .arg else .unknown

/-- What the last option still takes: nothing; one text; one text or none; any number. -/
inductive Pending where
  | nothing
  | needs (o : Opt)
  | may (o : Opt)
  | gathers (o : Opt) (l : List Str)

/-- The namespace so far, and the actions seen. -/
structure PState where
  ns : List (Str × CVal)
  seen : List Str := []
  pending : Pending := .nothing

/-- `setattr(namespace, action.dest, …)`. -/
def PState.put (st : PState) (dest : Str) (v : CVal) : PState :=
  { ns := Dict.set st.ns dest v, seen := dest :: st.seen, pending := .nothing }

/-- `_AppendAction`: a copy of the list (`None`: an empty one) with one more. -/
def PState.collected (st : PState) (dest : Str) (x : Option Str) : CVal :=
  match Dict.get st.ns dest with
  | some (.rollup l) => .rollup (l ++ [x])
  | _ => .rollup [x]

/-- `_get_values`, `_check_value` and the action for an option with one text. -/
def PState.give (st : PState) (o : Opt) (v : Str) : Except Stop PState :=
  match o.action with
  | .store => if o.choices = [] ∨ v ∈ o.choices then .ok (st.put o.dest (.str v)) else .error .usage
  | .number =>
    match Py.int? v with
    | some i => .ok (st.put o.dest (.int i))
    | none => .error .usage
  | .collect => .ok (st.put o.dest (st.collected o.dest (some v)))
  | .many => .ok (st.put o.dest (.strs [v]))
  | .flag | .help => .error .usage

/-- The option before is finished. -/
def PState.close (st : PState) : Except Stop PState :=
  match st.pending with
  | .nothing => .ok st
  | .needs _ => .error .usage
  | .may o => .ok (st.put o.dest (st.collected o.dest none))
  | .gathers o l => .ok (st.put o.dest (.strs l))

/-- `consume_optional`. -/
def PState.option (st : PState) (o : Opt) : Option Str → Except Stop PState
  | some v => st.give o v
  | none =>
    match o.action with
    | .flag => .ok (st.put o.dest (.bool true))
    | .help => .error .help
    | .store | .number => .ok { st with pending := .needs o }
    | .collect => .ok { st with pending := .may o }
    | .many => .ok { st with pending := .gathers o [] }

/-- `consume_positionals`, and the texts of options. -/
def PState.arg (positional : Bool) (st : PState) (w : Str) : Except Stop PState :=
  match st.pending with
  | .needs o => st.give o w
  | .may o => st.give o w
  | .gathers o l => .ok { st with pending := .gathers o (l ++ [w]) }
  | .nothing => if positional && !st.seen.contains s%"input_name" then .ok (st.put s%"input_name" (.str w)) else .error .usage

/-- One word. -/
def PState.word (c : Command) (st : PState) (w : Str) : Except Stop PState :=
  match classify c.options w with
  | .arg => st.arg c.positional w
  | .opt o e =>
    match st.close with
    | .error s => .error s
    | .ok st => st.option o e
  | .ambiguous => .error .usage
  | .unknown => .error .usage

/-- `_parse_known_args`: all words. -/
def words (c : Command) : List Str → PState → Except Stop PState
  | [], st => st.close
  | w :: r, st =>
    match st.word c w with
    | .error s => .error s
    | .ok st => words c r st

/-- `parse_args` of a command: defaults, the words, and the required arguments. -/
def parseArgs (c : Command) (ws : List Str) : Except Stop (List (Str × CVal)) :=
  match words c ws { ns := (c.options.filter (fun o => o.action ≠ .help)).map (fun o => (o.dest, o.default)) } with
  | .error s => .error s
  | .ok st =>
    if (c.options.all (fun o => !o.required || st.seen.contains o.dest)) && (!c.positional || st.seen.contains s%"input_name")
    then .ok st.ns else .error .usage

/-! #### `main` -/

/-- cli.py:316-322 `kwargs_from_parsed_args`. -/
def kwargs (ns : List (Str × CVal)) : List (Str × CVal) := ns.filter (fun p => p.2 ≠ .none)

/-- The parameters of the function: those given, else their defaults; other keyword arguments go to `**_`. -/
def bind (signature kw : List (Str × CVal)) : List (Str × CVal) :=
  signature.map (fun p => (p.1, (Dict.get kw p.1).getD p.2))

/-- What `main` does: print help, refuse the command line, or call a function. -/
inductive Outcome where
  | help
  | usage
  | call (command : Str) (verbose : Bool) (args : List (Str × CVal))
  deriving DecidableEq

/-- cli.py:342-373 `main`. -/
def main : List Str → (verbose : Bool := false) → Outcome
  | [], _ => .help
  | w :: r, verbose =>
    match classify topOptions w with
    | .opt o none => if o.action = .help then .help else main r true
    | .arg =>
      match commands.find? (fun c => c.name = w) with
      | none => .usage
      | some c =>
        match parseArgs c r with
        | .error .help => .help
        | .error .usage => .usage
        | .ok ns => .call c.name verbose (bind c.signature (kwargs ns))
    | _ => .usage

/-- How the function that is called ends. -/
inductive Ran where
  | done
  | osError
  | error
  deriving DecidableEq

/-- The exit status: cli.py:360-368 prints an `OSError` of `create_template` and returns; any other exception goes to `sys.excepthook`. -/
def status (run : Str → List (Str × CVal) → Ran) : Outcome → Nat
  | .help => 0
  | .usage => 2
  | .call c _ args =>
    match run c args with
    | .done => 0
    | .osError => if c = s%"create-template" then 0 else 1
    | .error => 1

end Verif.Cli
