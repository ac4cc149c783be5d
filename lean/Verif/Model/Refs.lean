import Verif.Model.Main
/-!
Loading a schema and its references: `SchemaParser.__init__` (schema.py:136-188) and the loaders of references.

jsonref resolves references lazily, when and if the schema parser looks at them.  It is not modelled: it is any program (`Client`) that may ask the loader it
was given for the documents at some URIs, each of which may depend on the answers so far.
-/
namespace Verif.Api

/-- Something read while a schema is loaded: the file given as schema; a document fetched over HTTP(S); anything else `urllib.request.urlopen` is asked for (in
particular `file:` URIs). -/
inductive Read where
  | file (name : Str)
  | http (uri : Str)
  | url (uri : Str)
  deriving DecidableEq

/-- What is read, decoded, or the error. -/
structure World where
  file : Str → Except Err Json
  http : Str → Except Err Json
  url : Str → Except Err Json

/-- A program that asks for documents by URI.  (`jsonref.JsonRef.replace_refs` and everything done with the result.) -/
inductive Client (α : Type) where
  | done (r : Except Err α)
  | load (uri : Str) (k : Except Err Json → Client α)

/-- A loader: what is read, and the document. -/
abbrev Loader := Str → List Read × Except Err Json

/-- Run a program with a loader. -/
def Client.run {α : Type} (loader : Loader) : Client α → List Read × Except Err α
  | .done r => ([], r)
  | .load uri k =>
    let a := loader uri
    let b := (k a.2).run loader
    (a.1 ++ b.1, b.2)

/-- `urlsplit(uri).scheme`.  Simplification: of a URI without a colon this is the whole text in lower case; white space is not stripped. -/
def schemeOf (uri : Str) : Str := Py.lower (uri.takeWhile (· ≠ ':'))

/-- `jsonref.jsonloader`: `requests.get` for HTTP(S), `urlopen` for anything else. -/
def jsonLoader (w : World) : Loader := fun uri =>
  if schemeOf uri = s%"http" ∨ schemeOf uri = s%"https" then ([.http uri], w.http uri) else ([.url uri], w.url uri)

/-- schema.py:105-110 `jsonloader_local_refs_disabled`. -/
def jsonLoaderNoLocal (w : World) : Loader := fun uri =>
  if isRefLocal uri then ([], .error .value) else jsonLoader w uri

/-- The argument `schema_filename`: a name, or a dict. -/
inductive SchemaArg where
  | name (s : Str)
  | dict (j : Json)

/-- Putting together what is read before, and the rest. -/
def afterRead {α : Type} (r : Read) (doc : Except Err Json) (f : Json → List Read × Except Err α) : List Read × Except Err α :=
  match doc with
  | .error e => ([r], .error e)
  | .ok j => (r :: (f j).1, (f j).2)

/-- schema.py:147-188: loading the schema.  `resolve` is jsonref with everything that is done with the result (from the base URI and the document), `plain` is what
is done with a dict that is given as it is (or with `None`, for the empty name); `realUri` is `pathlib.Path(os.path.realpath(…)).as_uri()`. -/
def loadSchema {α : Type} (w : World) (realUri : Str → Str) (resolve : Str → Json → Client α) (plain : Option Json → Except Err α)
    (schema : Option SchemaArg) (rootDict : Option Json) (disableLocalRefs : Bool) : List Read × Except Err α :=
  if rootDict.isNone && schema.isNone then ([], .error .value)
  else if rootDict.isSome && schema.isSome then ([], .error .value)
  else match schema with
    | none => ([], plain rootDict)
    | some (.dict (.obj [])) => ([], plain rootDict)
    | some (.dict j) => ([], plain (some j))
    | some (.name []) => ([], plain rootDict)
    | some (.name name) =>
      if Py.startsWith s%"http" name then
        afterRead (.http name) (w.http name) (fun j => (resolve [] j).run (jsonLoader w))
      else if disableLocalRefs then
        afterRead (.file name) (w.file name) (fun j => (resolve [] j).run (jsonLoaderNoLocal w))
      else
        afterRead (.file name) (w.file name) (fun j => (resolve (realUri name) j).run (jsonLoader w))

/-- A schema given by name, if any. -/
def loadNamed (w : World) (realUri : Str → Str) (resolve : Str → Json → Client Schema) (plain : Option Json → Except Err Schema)
    (name : Option Str) (disableLocalRefs : Bool) : List Read × Except Err (Option Schema) :=
  match given name with
  | none => ([], .ok none)
  | some n =>
    let r := loadSchema w realUri resolve plain (some (.name n)) none disableLocalRefs
    (r.1, match r.2 with | .error e => .error e | .ok s => .ok (some s))

/-- `unflatten` (`__init__.py:208-411`) from the names of its schemas: the metatab's (282-287), then that of the other sheets (336-345).  Simplification: both are
loaded and resolved before anything else. -/
def unflattenNamed (w : World) (realUri : Str → Str) (resolve : Str → Json → Client Schema) (plain : Option Json → Except Err Schema)
    (metatabSchema schema : Option Str) (disableLocalRefs : Bool) (o : UnOpts) (env : Env) : List Read × Except Err UnOut :=
  let m := loadNamed w realUri resolve plain metatabSchema disableLocalRefs
  match m.2 with
  | .error e => (m.1, .error e)
  | .ok ms =>
    let s := loadNamed w realUri resolve plain schema disableLocalRefs
    match s.2 with
    | .error e => (m.1 ++ s.1, .error e)
    | .ok ss => (m.1 ++ s.1, runUnflatten { o with metatabSchema := ms, schema := ss } env)

end Verif.Api
