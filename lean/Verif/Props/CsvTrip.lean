import Verif.Props.CsvText
import Verif.Props.ApiTrip
import Verif.Proofs.DecEq
/-! C66: `flatten` followed by `unflatten`, with the texts of the CSV files. -/
namespace Verif
open Spec Csv Api

/-- The texts of CSV files read by `unflatten`, if all of them can be read. -/
def readFiles : List (Str × Str) → Option (List (Str × List (List Str)))
  | [] => some []
  | (name, text) :: r =>
    match readText text, readFiles r with
    | some rows, some fs => some ((name, rows) :: fs)
    | _, _ => none

theorem readFiles_write {lt : Str} (hlt : lt = s%"\n" ∨ lt = s%"\r\n") : ∀ (files : List (Str × List (List Str))), (∀ f ∈ files, ∀ row ∈ f.2, CsvExact row) →
    readFiles (files.map (fun f => (f.1, writeText lt f.2))) = some files
  | [], _ => rfl
  | (name, rows) :: r, h => by
    simp only [List.map_cons, readFiles]
    rw [C66_csv_exact lt hlt rows (h (name, rows) (by simp)), readFiles_write hlt r (fun f hf => h f (by simp [hf]))]

theorem perm_map_inv {α β : Type} {f : α → β} : ∀ {l : List α} {m : List β}, m.Perm (l.map f) → ∃ l' : List α, l'.Perm l ∧ m = l'.map f := by
  intro l m h
  generalize hk : l.map f = k at h
  induction h generalizing l with
  | nil => exact ⟨[], by cases l <;> simp_all, rfl⟩
  | cons x _ ih =>
    cases l with
    | nil => cases hk
    | cons a l =>
      injection hk with h1 h2
      obtain ⟨l', h3, h4⟩ := ih h2
      exact ⟨a :: l', h3.cons a, by rw [h4, ← h1]; rfl⟩
  | swap x y _ =>
    match l, hk with
    | a :: b :: l, hk =>
      simp only [List.map_cons, List.cons.injEq] at hk
      obtain ⟨rfl, rfl, rfl⟩ := hk
      exact ⟨b :: a :: l, List.Perm.swap .., rfl⟩
  | trans _ _ ih1 ih2 =>
    obtain ⟨l1, h1, rfl⟩ := ih2 hk
    obtain ⟨l2, h2, rfl⟩ := ih1 rfl
    exact ⟨l2, h2.trans h1, rfl⟩

/-- C66.  `flatten` to CSV files followed by `unflatten` gives back the document (see `C58_csv_round_trip`) also when what goes from one to the other are the texts of
the files, if no cell has a carriage return, a null character or more than 131072 characters, and no sheet more than 18278 columns. -/
theorem C66_text_round_trip (o : FlOpts) (u : UnOpts) (env : FlEnv) (uenv : Env) (osp usp : Option Parsed) (root : List Json)
    (h : MatchingOptions o u) (hfmt : o.outputFormat = s%"csv" ∧ u.inputFormat = some s%"csv")
    (hos : parseOpt o.schemaCfg o.schema = .ok osp)
    (hus : parseOpt { rollup := true, rootId := u.rootId.getD [], trunc := u.trunc, wkt := u.wkt } u.schema = .ok usp)
    (hk : o.rootIsList = false → OneKey o.rootListPath) (hc : env.content = documentOf o root)
    (hfit : (tripOf o u uenv usp (csvWrite env)).FitsRoot root) (hcols : GoodColumns osp) (hhash : NoHash o root)
    (hmain : ∀ name, SubSheetName o osp root name → name ≠ o.mainSheetName)
    (hroot : ∀ rid, given o.rootId = some rid → ∀ fs, .obj fs ∈ root → Dict.get fs rid ≠ none) :
    ∃ out dir files, runFlatten o env = .ok out ∧ out.written = [.csv dir files] ∧
      ((∀ f ∈ files, ∀ row ∈ f.2, CsvExact row) → (∀ f ∈ files, WithinZZZ f.2) →
        ∀ texts : List (Str × Str), texts.Perm (files.map (fun f => (f.1, writeText (terminator o.lineTerminator) f.2))) →
          ∃ files' uout doc, readFiles texts = some files' ∧ runUnflatten u { uenv with input := .csv files' } = .ok uout ∧
            uout.document = .json doc ∧ Rearranged env.content doc) := by
  obtain ⟨out, dir, files, h1, h2, h3⟩ := C58_csv_round_trip o u env uenv osp usp root h hfmt hos hus hk hc hfit hcols hhash hmain hroot
  refine ⟨out, dir, files, h1, h2, ?_⟩
  intro hex hwide texts hp
  obtain ⟨files', hp', rfl⟩ := perm_map_inv hp
  obtain ⟨uout, doc, h4, h5, h6⟩ := h3 files' hp' hwide
  refine ⟨files', uout, doc, readFiles_write ?_ files' (fun f hf => hex f (hp'.mem_iff.1 hf)), h4, h5, h6⟩
  unfold terminator
  split
  · exact .inl rfl
  · exact .inr rfl

/-! ### Examples -/

/-- The files that `flatten` writes in the example of C58 meet the hypotheses. -/
example : (runFlatten ApiTripEx.o ApiTripEx.env).toOption.map (fun out => out.written.map (fun w => match w with
    | .csv _ files => decide (∀ f ∈ files, ∀ row ∈ f.2, row.length ≤ 18278 ∧ ∀ t ∈ row, t.length ≤ 131072 ∧ '\r' ∉ t ∧ Char.ofNat 0 ∉ t)
    | _ => false)) = some [true] := by decide +kernel

/-- Quotes, commas, newlines, empty texts, no fields. -/
example : writeText s%"\r\n" [[s%"id", s%"a/b"], [s%"1", s%"x, \"y\"\nz"], [], [[]], [s%"2", []]] = s%"id,a/b\r\n1,\"x, \"\"y\"\"\nz\"\r\n\r\n\"\"\r\n2,\r\n" := by decide +kernel
example : ∀ row ∈ [[s%"id", s%"a/b"], [s%"1", s%"x, \"y\"\nz"], [], [[]], [s%"2", []]], CsvExact row := by unfold CsvExact; decide +kernel
example : readText s%"id,a/b\r\n1,\"x, \"\"y\"\"\nz\"\r\n\r\n\"\"\r\n2,\r\n" = some [[s%"id", s%"a/b"], [s%"1", s%"x, \"y\"\nz"], [], [[]], [s%"2", []]] := by decide +kernel

/-- Carriage returns come back as newlines. -/
example : readText (writeText s%"\n" [[s%"a\r\nb\rc", s%"d"]]) = some [[s%"a\nb\nc", s%"d"]] := by decide +kernel

/-- A row of one field of null characters comes back without the field. -/
example : readText (writeText s%"\n" [[[Char.ofNat 0]], [s%"a"]]) = some [[], [s%"a"]] := by decide +kernel

theorem lines_plain : ∀ (f t : Str), (∀ c ∈ f, c = 'x') → f ≠ [] → ∃ l ls, lines (f ++ t) = (f ++ l) :: ls
  | [], _, _, h => absurd rfl h
  | [c], t, hx, _ => by
    have hc := hx c (by simp)
    subst hc
    simp only [List.cons_append, List.nil_append, lines]
    rw [if_neg (by decide)]
    split
    · exact ⟨[], [], rfl⟩
    · exact ⟨_, _, rfl⟩
  | c :: d :: f, t, hx, _ => by
    have hc := hx c (by simp)
    subst hc
    obtain ⟨l, ls, h⟩ := lines_plain (d :: f) t (fun c hc => hx c (by simp [List.mem_cons.1 hc])) (by simp)
    rw [List.cons_append, lines, if_neg (by decide), h]
    exact ⟨_, _, rfl⟩

theorem un_plain : ∀ (f t : Str), (∀ c ∈ f, c = 'x') → universalNewlines (f ++ t) = f ++ universalNewlines t
  | [], _, _ => rfl
  | c :: f, t, hx => by
    have hc := hx c (by simp)
    subst hc
    rw [List.cons_append, un_other (by decide), un_plain f t (fun c hc => hx c (by simp [hc]))]
    rfl

theorem dropNulls_plain (f t : Str) (hx : ∀ c ∈ f, c = 'x') : dropNulls (f ++ t) = f ++ dropNulls t := by
  unfold dropNulls
  rw [List.filter_append, List.filter_eq_self.2]
  intro c hc
  rw [hx c hc]
  decide

theorem feed_long : ∀ (f t : Str) (p : Reader), (∀ c ∈ f, c = 'x') → p.state = .inField → p.field.length ≤ fieldLimit → fieldLimit < p.field.length + f.length →
    p.feed (f ++ t) = none
  | [], _, _, _, _, h1, h2 => by simp at h2; omega
  | c :: f, t, p, hx, hs, h1, h2 => by
    have hc := hx c (by simp)
    subst hc
    rw [List.cons_append, Reader.feed]
    have e : p.step (some 'x') = p.add 'x' .inField := by
      unfold Reader.step
      rw [hs]
      rfl
    rw [e]
    unfold Reader.add
    split
    · next he => split at he <;> simp_all
    · next p' he =>
      split at he
      · cases he
      · next hl =>
        injection he with he
        subst he
        apply feed_long f t _ (fun c hc => hx c (by simp [hc])) rfl
        · simp; omega
        · simp at h2 ⊢; omega

/-- C66.  A text of more than 131072 characters is written, but cannot be read. -/
theorem C66_too_long (lineTerminator : Str) (f : Str) (hf : ∀ c ∈ f, c = 'x') (hlong : 131072 < f.length) : readText (writeText lineTerminator [[f]]) = none := by
  have hne : f ≠ [] := by rintro rfl; simp at hlong
  have e : writeText lineTerminator [[f]] = f ++ lineTerminator := by
    have : f.any special = false := by
      rw [List.any_eq_false]
      intro c hc
      rw [hf c hc]
      decide
    simp [writeText, writeRow, hne, joinFields, writeField, this]
  unfold readText
  rw [e, un_plain _ _ hf]
  obtain ⟨l, ls, h⟩ := lines_plain f (universalNewlines lineTerminator) hf hne
  rw [h, List.map_cons, dropNulls_plain _ _ hf, records]
  have hfeed : Reader.feed {} (f ++ dropNulls l) = none := by
    match f, hf, hlong with
    | c :: f, hf, hlong =>
      have hc := hf c (by simp)
      subst hc
      rw [List.cons_append, Reader.feed]
      have e : ({} : Reader).step (some 'x') = some { state := .inField, field := ['x'], fields := [] } := rfl
      rw [e]
      apply feed_long _ _ _ (fun c hc => hf c (by simp [hc])) rfl (by simp [fieldLimit])
      simp [fieldLimit] at hlong ⊢
      omega
  unfold Reader.line
  rw [hfeed]

end Verif
