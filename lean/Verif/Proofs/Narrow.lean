import Verif.Proofs.Letters
import Verif.Proofs.Main
/-! Files without too many columns. -/
namespace Verif
open Spec Api

theorem set_length_le {κ α : Type} [DecidableEq κ] (k : κ) (v : α) : ∀ d : List (κ × α), (Dict.set d k v).length ≤ d.length + 1
  | [] => by simp [Dict.set]
  | (k', v') :: r => by
    have := set_length_le k v r
    unfold Dict.set
    split <;> simp <;> omega

theorem update_length_le {κ α : Type} [DecidableEq κ] : ∀ (e d : List (κ × α)), (Dict.update d e).length ≤ d.length + e.length
  | [], d => by simp [Dict.update]
  | (k, v) :: r, d => by
    have h1 := update_length_le r (Dict.set d k v)
    have h2 := set_length_le k v d
    simp only [Dict.update, List.foldl_cons, List.length_cons] at *
    omega

theorem dictOf_length_le {κ α : Type} [DecidableEq κ] (ps : List (κ × α)) : (dictOf ps).length ≤ ps.length := by
  simpa [dictOf] using update_length_le ps []

/-- The sheet has not too many columns. -/
def NarrowSheet (s : SheetIn) : Prop := (∀ hs, s.headings = some hs → hs.length ≤ 18278) ∧ ∀ l ∈ s.lines, l.length ≤ 18278

theorem narrow_letters {v : Bool} {ss : List SheetIn} (h : ∀ s ∈ ss, NarrowSheet s) : ss.any (lettersFail v) = false :=
  letters_none (fun s hs => ⟨(h s hs).1, fun _ l hl _ => (h s hs).2 l hl⟩)

theorem csv_narrow {rc : ReadCfg} {name : Str} {rows : List (List Str)} {s : SheetIn} (hw : WithinZZZ rows) (h : csvSheet rc name rows = .ok s) :
    NarrowSheet s := by
  unfold csvSheet at h
  split at h
  · cases h
  · next own ho =>
    simp only at h
    split at h
    · injection h with h; subst h
      exact ⟨by intro hs he; injection he with he; subst he; simp, by simp⟩
    · split at h
      · cases h
      · next lines hl =>
        injection h with h; subst h
        constructor
        · intro hs he
          injection he with he
          subst he
          simp only [List.length_map, csvHeadings]
          split
          · simp
          · cases hr : rows[(resolveConfig rc own).1.skip + (resolveConfig rc own).2]? with
            | none => simp
            | some row => exact hw row (List.mem_of_getElem? hr)
        · unfold csvLines at hl
          simp only at hl
          split at hl
          · cases hl
          · next f rest hd =>
            have hf : f.length ≤ 18278 := hw f (List.mem_of_mem_drop (by rw [hd]; simp))
            split at hl
            · cases hl
            · injection hl with hl
              subst hl
              intro l hl
              obtain ⟨row, -, rfl⟩ := List.mem_map.1 hl
              have := dictOf_length_le (f.map (fun f' => (some f', (Dict.get (dictReaderRow f row) f').getD Atom.none)))
              rw [List.length_map] at this
              omega

theorem line_narrow {header row : List Atom} (g : Atom × Atom → Option Str × Atom) (h : header.length ≤ 18278) : (dictOf ((header.zip row).map g)).length ≤ 18278 := by
  have := dictOf_length_le ((header.zip row).map g)
  simp only [List.length_map, List.length_zip] at this
  omega

theorem xlsx_narrow {rc : ReadCfg} (hv : rc.vertical = false) {name : Str} {g : Grid} {s : SheetIn} (hw : g.width ≤ 18278 ∧ WithinZZZ g.rows)
    (h : xlsxSheet rc name g = .ok s) : NarrowSheet s := by
  unfold xlsxSheet at h
  split at h
  · cases h
  · next own ho =>
    simp only at h
    split at h
    · injection h with h; subst h
      exact ⟨by intro hs he; injection he with he; subst he; simp, by simp⟩
    · injection h with h; subst h
      have hh : (xlsxParts rc own g).1.length ≤ 18278 := by
        unfold xlsxParts
        simp only [hv, Bool.false_eq_true, if_false, Grid.row]
        cases hr : g.rows[(resolveConfig rc own).1.skip + (resolveConfig rc own).2]? with
        | none => simpa using hw.1
        | some row => exact hw.2 row (List.mem_of_getElem? hr)
      refine ⟨?_, ?_⟩
      · intro hs he
        injection he with he
        subst he
        simpa using hh
      · intro l hl
        obtain ⟨row, -, rfl⟩ := List.mem_map.1 hl
        exact line_narrow _ hh

theorem mapM_read {α β : Type} {f : α → Except Err β} : ∀ {l : List α} {m : List β}, l.mapM f = .ok m → ∀ b ∈ m, ∃ a ∈ l, f a = .ok b
  | [], m, h => by simp [pure, Except.pure] at h; subst h; simp
  | a :: r, m, h => by
    rw [List.mapM_cons] at h
    simp only [bind, Except.bind] at h
    split at h
    · cases h
    · next b hb =>
      split at h
      · cases h
      · next bs hbs =>
        simp only [pure, Except.pure, Except.ok.injEq] at h
        subst h
        intro x hx
        rcases List.mem_cons.1 hx with rfl | hx
        · exact ⟨a, by simp, hb⟩
        · obtain ⟨y, hy, e⟩ := mapM_read hbs x hx
          exact ⟨y, by simp [hy], e⟩

theorem ods_narrow {rc : ReadCfg} (hv : rc.vertical = false) {name : Str} {rows : List (List Atom)} {s : SheetIn} (hw : WithinZZZ rows)
    (h : odsSheet rc name rows = .ok s) : NarrowSheet s := by
  unfold odsSheet at h
  split at h
  · cases h
  · next own ho =>
    simp only at h
    split at h
    · injection h with h; subst h
      exact ⟨by intro hs he; injection he with he; subst he; simp, by simp⟩
    · split at h
      · cases h
      · next lines hl =>
        injection h with h; subst h
        have hh : (odsParts rc own rows).1.length ≤ 18278 := by
          unfold odsParts
          simp only [hv, Bool.false_eq_true, if_false]
          cases hr : rows[(resolveConfig rc own).1.skip + (resolveConfig rc own).2]? with
          | none => simp
          | some row => exact hw row (List.mem_of_getElem? hr)
        refine ⟨?_, ?_⟩
        · intro hs he
          injection he with he
          subst he
          simpa using hh
        · intro l hm
          obtain ⟨row, -, e⟩ := mapM_read hl l (List.mem_filter.1 hm).1
          unfold odsLine at e
          split at e
          · cases e
          · injection e with e
            subst e
            exact line_narrow _ hh

theorem sheet_narrow {i : Input} {rc : ReadCfg} (hv : rc.vertical = false) (hw : NarrowFile i) {name : Str} {s : SheetIn} (h : i.sheet rc name = .ok s) :
    NarrowSheet s := by
  cases i with
  | csv files =>
    refine csv_narrow ?_ h
    cases hg : Dict.get files (name ++ s%".csv") with
    | none => intro row hr; cases hr
    | some rows => exact hw _ (Dict.get_eq_some_mem hg)
  | xlsx sheets =>
    refine xlsx_narrow hv ?_ h
    cases hg : Dict.get sheets name with
    | none => exact ⟨by simp, fun row hr => by cases hr⟩
    | some rows => exact hw _ (Dict.get_eq_some_mem hg)
  | ods sheets =>
    refine ods_narrow hv ?_ h
    cases hg : Dict.get sheets name with
    | none => intro row hr; cases hr
    | some rows => exact hw _ (Dict.get_eq_some_mem hg)

theorem mapE_read {α β : Type} {f : α → Except Err β} : ∀ {l : List α} {m : List β}, Api.mapE f l = .ok m → ∀ b ∈ m, ∃ a ∈ l, f a = .ok b
  | [], m, h => by cases h; simp
  | a :: r, m, h => by
    unfold Api.mapE at h
    split at h
    · cases h
    · next b hb =>
      split at h
      · cases h
      · next bs hbs =>
        cases h
        intro x hx
        rcases List.mem_cons.1 hx with rfl | hx
        · exact ⟨a, by simp, hb⟩
        · obtain ⟨y, hy, e⟩ := mapE_read hbs x hx
          exact ⟨y, by simp [hy], e⟩

theorem titles_narrow {c : Bool} {schema : Option Parsed} {a b : List SheetIn} (h : withTitles c schema a = .ok b) (ha : ∀ s ∈ a, NarrowSheet s) :
    ∀ s ∈ b, NarrowSheet s := by
  unfold withTitles at h
  split at h
  · cases h; exact ha
  · split at h
    · cases h
    · cases h
      unfold titleSheets
      split
      · exact ha
      · intro s hs
        obtain ⟨s', h1, rfl⟩ := List.mem_map.1 hs
        refine ⟨(ha s' h1).1, ?_⟩
        intro l hl
        obtain ⟨l', h2, rfl⟩ := List.mem_map.1 hl
        have h3 := (ha s' h1).2 l' h2
        have h4 := dictOf_length_le (l'.map (fun p => (p.1.map (lookupHeader ‹Parsed›.lookup), p.2)))
        rw [List.length_map] at h4
        unfold convertTitles
        omega

/-- In a file without too many columns, every column has letters. -/
theorem narrow_pass {i : Input} {rc : ReadCfg} (hv : rc.vertical = false) (hw : NarrowFile i) {names : List Str} {c : Bool} {schema : Option Parsed}
    {a b : List SheetIn} (h1 : Api.mapE (i.sheet rc) names = .ok a) (h2 : withTitles c schema a = .ok b) (v : Bool) : b.any (lettersFail v) = false := by
  apply narrow_letters
  apply titles_narrow h2
  intro s hs
  obtain ⟨n, -, h3⟩ := mapE_read h1 s hs
  exact sheet_narrow hv hw h3

end Verif
