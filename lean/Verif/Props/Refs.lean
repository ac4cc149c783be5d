import Verif.Model.Refs
import Verif.Props.Api
import Verif.Proofs.DecEq
/-! C48: with local references disabled, no local file is read through a reference. -/
namespace Verif
open Spec Api

/-- The URI starts, ignoring case, with `http://` or `https://`. -/
def Spec.IsWebUri (uri : Str) : Prop := SameIgnoringCase (uri.take 7) s%"http://" ∨ SameIgnoringCase (uri.take 8) s%"https://"

theorem isRefLocal_web (uri : Str) : isRefLocal uri = false ↔ IsWebUri uri := by
  rw [← Bool.not_eq_true, isRefLocal_iff]
  unfold IsWebUri
  grind

theorem scheme_web {uri : Str} (h : IsWebUri uri) : schemeOf uri = s%"http" ∨ schemeOf uri = s%"https" := by
  have ne : ∀ (a b : Char), (a = b ∨ a = upperOf b) → b ∈ s%"https" → a ≠ ':' := by
    intro a b hab hb
    simp only [List.mem_cons, List.not_mem_nil, or_false] at hb
    rcases hb with rfl | rfl | rfl | rfl | rfl <;> rcases hab with rfl | rfl <;> decide
  have colon : ∀ a : Char, (a = ':' ∨ a = upperOf ':') → a = ':' := by
    intro a ha
    rcases ha with rfl | rfl <;> rfl
  rcases h with h | h
  · left
    match uri, h with
    | a :: b :: c :: d :: e :: r, h =>
      simp only [List.take_succ_cons, SameIgnoringCase] at h
      obtain ⟨h1, h2, h3, h4, h5, _⟩ := h
      have e5 := colon _ h5
      subst e5
      unfold schemeOf
      rw [lower_eq_iff _ _ (by decide)]
      have n1 := ne _ _ h1 (by decide)
      have n2 := ne _ _ h2 (by decide)
      have n3 := ne _ _ h3 (by decide)
      have n4 := ne _ _ h4 (by decide)
      simp only [List.takeWhile_cons, ne_eq, n1, n2, n3, n4, not_false_eq_true, decide_true, if_true, not_true_eq_false, decide_false, Bool.false_eq_true, if_false,
        SameIgnoringCase]
      exact ⟨h1, h2, h3, h4, trivial⟩
    | [], h => exact absurd h (by simp [SameIgnoringCase])
    | [a], h => exact absurd h (by simp [SameIgnoringCase])
    | [a, b], h => exact absurd h (by simp [SameIgnoringCase])
    | [a, b, c], h => exact absurd h (by simp [SameIgnoringCase])
    | [a, b, c, d], h => exact absurd h (by simp [SameIgnoringCase])
  · right
    match uri, h with
    | a :: b :: c :: d :: f :: e :: r, h =>
      simp only [List.take_succ_cons, SameIgnoringCase] at h
      obtain ⟨h1, h2, h3, h4, h5, h6, _⟩ := h
      have e6 := colon _ h6
      subst e6
      unfold schemeOf
      rw [lower_eq_iff _ _ (by decide)]
      have n1 := ne _ _ h1 (by decide)
      have n2 := ne _ _ h2 (by decide)
      have n3 := ne _ _ h3 (by decide)
      have n4 := ne _ _ h4 (by decide)
      have n5 := ne _ _ h5 (by decide)
      simp only [List.takeWhile_cons, ne_eq, n1, n2, n3, n4, n5, not_false_eq_true, decide_true, if_true, not_true_eq_false, decide_false, Bool.false_eq_true, if_false,
        SameIgnoringCase]
      exact ⟨h1, h2, h3, h4, h5, trivial⟩
    | [], h => exact absurd h (by simp [SameIgnoringCase])
    | [a], h => exact absurd h (by simp [SameIgnoringCase])
    | [a, b], h => exact absurd h (by simp [SameIgnoringCase])
    | [a, b, c], h => exact absurd h (by simp [SameIgnoringCase])
    | [a, b, c, d], h => exact absurd h (by simp [SameIgnoringCase])
    | [a, b, c, d, e], h => exact absurd h (by simp [SameIgnoringCase])

/-- What the restricted loader does with a web URI, and with any other. -/
theorem noLocal_web (w : World) {uri : Str} (h : IsWebUri uri) : jsonLoaderNoLocal w uri = ([.http uri], w.http uri) := by
  unfold jsonLoaderNoLocal jsonLoader
  rw [if_neg (by rw [(isRefLocal_web uri).2 h]; simp), if_pos (scheme_web h)]

theorem noLocal_other (w : World) {uri : Str} (h : ¬ IsWebUri uri) : jsonLoaderNoLocal w uri = ([], .error .value) := by
  unfold jsonLoaderNoLocal
  rw [if_pos]
  cases hl : isRefLocal uri with
  | true => rfl
  | false => exact absurd ((isRefLocal_web uri).1 hl) h

/-- The restricted loader reads only from the web. -/
theorem run_noLocal {α : Type} (w : World) : ∀ (c : Client α), ∀ r ∈ (c.run (jsonLoaderNoLocal w)).1, ∃ uri, r = .http uri ∧ IsWebUri uri
  | .done _, r, hr => by simp [Client.run] at hr
  | .load uri k, r, hr => by
    simp only [Client.run, List.mem_append] at hr
    rcases hr with hr | hr
    · by_cases hw : IsWebUri uri
      · rw [noLocal_web w hw] at hr
        simp only [List.mem_singleton] at hr
        exact ⟨uri, hr, hw⟩
      · rw [noLocal_other w hw] at hr
        cases hr
    · exact run_noLocal w (k _) r hr

theorem run_noLocal_congr {α : Type} {w w' : World} (h : ∀ uri, IsWebUri uri → w.http uri = w'.http uri) :
    ∀ (c : Client α), c.run (jsonLoaderNoLocal w) = c.run (jsonLoaderNoLocal w')
  | .done _ => rfl
  | .load uri k => by
    have e : jsonLoaderNoLocal w uri = jsonLoaderNoLocal w' uri := by
      by_cases hw : IsWebUri uri
      · rw [noLocal_web w hw, noLocal_web w' hw, h uri hw]
      · rw [noLocal_other w hw, noLocal_other w' hw]
    simp only [Client.run, e, run_noLocal_congr h (k _)]

/-- Everything a program asks for in a world is on the web. -/
inductive Spec.OnlyWeb {α : Type} (w : World) : Client α → Prop where
  | done (r : Except Err α) : OnlyWeb w (.done r)
  | load {uri : Str} {k : Except Err Json → Client α} : IsWebUri uri → OnlyWeb w (k (w.http uri)) → OnlyWeb w (.load uri k)

theorem run_onlyWeb {α : Type} {w : World} {c : Client α} (h : OnlyWeb w c) : c.run (jsonLoaderNoLocal w) = c.run (jsonLoader w) := by
  induction h with
  | done r => rfl
  | @load uri k hu _ ih =>
    have e1 := noLocal_web w hu
    have e2 : jsonLoader w uri = ([.http uri], w.http uri) := by unfold jsonLoader; rw [if_pos (scheme_web hu)]
    simp only [Client.run, e1, e2]
    rw [ih]

section
variable {α : Type} (realUri : Str → Str) (resolve : Str → Json → Client α) (plain : Option Json → Except Err α)

theorem startsWith_iff_take (p s : Str) : Py.startsWith p s = true ↔ ∃ t, s = p ++ t := by
  unfold Py.startsWith
  rw [List.isPrefixOf_iff_prefix]
  exact ⟨fun ⟨t, h⟩ => ⟨t, h.symm⟩, fun ⟨t, h⟩ => ⟨t, h.symm⟩⟩

/-- Loading a schema from a file. -/
theorem load_file (w : World) (name : Str) (hne : name ≠ []) (hlocal : ¬ ∃ rest, name = s%"http" ++ rest) (d : Bool) :
    loadSchema w realUri resolve plain (some (.name name)) none d =
      (if d then afterRead (.file name) (w.file name) (fun j => (resolve [] j).run (jsonLoaderNoLocal w))
       else afterRead (.file name) (w.file name) (fun j => (resolve (realUri name) j).run (jsonLoader w))) := by
  have hs : Py.startsWith s%"http" name = false := by
    cases hs : Py.startsWith s%"http" name with
    | false => rfl
    | true => exact absurd ((startsWith_iff_take _ _).1 hs) hlocal
  cases name with
  | nil => exact absurd rfl hne
  | cons a r =>
    simp only [loadSchema, Option.isNone_some, Option.isNone_none, Option.isSome_some, Option.isSome_none, Bool.and_false, Bool.false_and, Bool.false_eq_true, if_false, hs]

/-- C48.  With local references disabled, loading a schema from a local file reads that file, and otherwise only documents whose URI starts, ignoring case, with
`http://` or `https://`; whatever the references are and whatever the program that resolves them asks for. -/
theorem C48_reads (w : World) (name : Str) (hne : name ≠ []) (hlocal : ¬ ∃ rest, name = s%"http" ++ rest) :
    ∃ rest, (loadSchema w realUri resolve plain (some (.name name)) none true).1 = .file name :: rest ∧
      ∀ r ∈ rest, ∃ uri, r = .http uri ∧ IsWebUri uri := by
  rw [load_file realUri resolve plain w name hne hlocal, if_pos rfl]
  unfold afterRead
  cases w.file name with
  | error e => exact ⟨[], rfl, by simp⟩
  | ok j => exact ⟨_, rfl, run_noLocal w _⟩

/-- C48.  So the contents of other local files have no influence: neither on the outcome nor on what is read. -/
theorem C48_other_files_irrelevant (w w' : World) (name : Str) (hne : name ≠ []) (hlocal : ¬ ∃ rest, name = s%"http" ++ rest)
    (hfile : w.file name = w'.file name) (hweb : ∀ uri, IsWebUri uri → w.http uri = w'.http uri) :
    loadSchema w realUri resolve plain (some (.name name)) none true = loadSchema w' realUri resolve plain (some (.name name)) none true := by
  rw [load_file realUri resolve plain w name hne hlocal, load_file realUri resolve plain w' name hne hlocal, if_pos rfl, if_pos rfl]
  unfold afterRead
  rw [← hfile]
  cases w.file name with
  | error e => rfl
  | ok j => simp only [run_noLocal_congr hweb]

/-- C48.  A schema all of whose references are to the web is loaded the same whether or not local references are disabled. -/
theorem C48_web_refs_work (w : World) (name : Str) (hne : name ≠ []) (hlocal : ¬ ∃ rest, name = s%"http" ++ rest)
    (hbase : ∀ j, w.file name = .ok j → resolve (realUri name) j = resolve [] j)
    (h : ∀ j, w.file name = .ok j → OnlyWeb w (resolve [] j)) :
    loadSchema w realUri resolve plain (some (.name name)) none true = loadSchema w realUri resolve plain (some (.name name)) none false := by
  rw [load_file realUri resolve plain w name hne hlocal, load_file realUri resolve plain w name hne hlocal, if_pos rfl, if_neg (by simp)]
  unfold afterRead
  cases hf : w.file name with
  | error e => rfl
  | ok j => simp only [hbase j hf, run_onlyWeb (h j hf)]

end

theorem named_reads (w : World) (realUri : Str → Str) (resolve : Str → Json → Client Schema) (plain : Option Json → Except Err Schema) (name : Option Str)
    (hlocal : ∀ n, name = some n → ¬ ∃ rest, n = s%"http" ++ rest) :
    ∀ r ∈ (loadNamed w realUri resolve plain name true).1, (∃ n, name = some n ∧ r = .file n) ∨ ∃ uri, r = .http uri ∧ IsWebUri uri := by
  intro r hr
  unfold loadNamed at hr
  cases hg : given name with
  | none => rw [hg] at hr; cases hr
  | some n =>
    rw [hg] at hr
    simp only at hr
    have : name = some n ∧ n ≠ [] := by
      unfold given at hg
      cases name with
      | none => cases hg
      | some m =>
        simp only [Option.filter_some] at hg
        split at hg
        · next hm => injection hg with hg; subst hg; exact ⟨rfl, by simpa using hm⟩
        · cases hg
    obtain ⟨rest, h1, h2⟩ := C48_reads realUri resolve plain w n this.2 (hlocal n this.1)
    rw [h1] at hr
    rcases List.mem_cons.1 hr with rfl | hr
    · exact Or.inl ⟨n, this.1, rfl⟩
    · exact Or.inr (h2 r hr)

/-- C48.  `unflatten` with local references disabled reads, for its schemas, only the two files given as schemas, and the web. -/
theorem C48_unflatten_reads (w : World) (realUri : Str → Str) (resolve : Str → Json → Client Schema) (plain : Option Json → Except Err Schema)
    (metatabSchema schema : Option Str) (o : UnOpts) (env : Env)
    (hm : ∀ n, metatabSchema = some n → ¬ ∃ rest, n = s%"http" ++ rest) (hs : ∀ n, schema = some n → ¬ ∃ rest, n = s%"http" ++ rest) :
    ∀ r ∈ (unflattenNamed w realUri resolve plain metatabSchema schema true o env).1,
      (∃ n, (metatabSchema = some n ∨ schema = some n) ∧ r = .file n) ∨ ∃ uri, r = .http uri ∧ IsWebUri uri := by
  have h1 := named_reads w realUri resolve plain metatabSchema hm
  have h2 := named_reads w realUri resolve plain schema hs
  intro r hr
  have : r ∈ (loadNamed w realUri resolve plain metatabSchema true).1 ∨ r ∈ (loadNamed w realUri resolve plain schema true).1 := by
    unfold unflattenNamed at hr
    simp only at hr
    split at hr
    · exact Or.inl hr
    · split at hr
      · exact List.mem_append.1 hr
      · exact List.mem_append.1 hr
  rcases this with h | h
  · rcases h1 r h with ⟨n, e, e'⟩ | h
    · exact Or.inl ⟨n, Or.inl e, e'⟩
    · exact Or.inr h
  · rcases h2 r h with ⟨n, e, e'⟩ | h
    · exact Or.inl ⟨n, Or.inr e, e'⟩
    · exact Or.inr h

/-- C48, the limit: a schema whose own name starts with `http` is not protected.  Whatever is asked for, the option changes nothing. -/
theorem C48_remote_schema_not_protected {α : Type} (w : World) (realUri : Str → Str) (resolve : Str → Json → Client α) (plain : Option Json → Except Err α) (rest : Str) :
    loadSchema w realUri resolve plain (some (.name (s%"http" ++ rest))) none true =
      loadSchema w realUri resolve plain (some (.name (s%"http" ++ rest))) none false := by
  have hs : Py.startsWith s%"http" (s%"http" ++ rest) = true := (startsWith_iff_take _ _).2 ⟨rest, rfl⟩
  simp only [List.cons_append, List.nil_append] at hs
  simp only [loadSchema, List.cons_append, List.nil_append, hs, if_true]

/-! ### Examples -/

/-- A resolver that follows the reference a document consists of. -/
def follow (_base : Str) : Json → Client Json
  | .leaf (.str uri) => .load uri .done
  | j => .done (.ok j)

/-- A world with a schema that refers to the web, one that refers to a local file, and a remote one that refers to a local file. -/
def refWorld : World :=
  { file := fun n => if n = s%"web.json" then .ok (.leaf (.str s%"HTTPS://x/y")) else .ok (.leaf (.str s%"file:///etc/passwd"))
    http := fun u => if u = s%"http://evil" then .ok (.leaf (.str s%"file:///etc/passwd")) else .ok (.obj [])
    url := fun _ => .ok (.leaf (.str s%"secret")) }

def refRun (name : Str) (d : Bool) : List Read × Except Err Json :=
  loadSchema refWorld id follow (fun j => .ok (j.getD (.obj []))) (some (.name name)) none d

example : refRun s%"web.json" true = ([.file s%"web.json", .http s%"HTTPS://x/y"], .ok (.obj [])) := by decide +kernel
example : refRun s%"local.json" true = ([.file s%"local.json"], .error .value) := by decide +kernel
example : refRun s%"local.json" false = ([.file s%"local.json", .url s%"file:///etc/passwd"], .ok (.leaf (.str s%"secret"))) := by decide +kernel
/-- The limit: a remote schema reads a local file although local references are disabled. -/
example : refRun s%"http://evil" true = ([.http s%"http://evil", .url s%"file:///etc/passwd"], .ok (.leaf (.str s%"secret"))) := by decide +kernel
example : OnlyWeb refWorld (follow [] (.leaf (.str s%"HTTPS://x/y"))) :=
  .load (Or.inr (by simp [SameIgnoringCase]; decide)) (.done _)

end Verif
