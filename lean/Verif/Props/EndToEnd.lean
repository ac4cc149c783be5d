import Verif.Spec.Tables
import Verif.Props.Outputs
import Verif.Props.RootList
import Verif.Props.FlattenPreserve
import Verif.Props.FlattenFilter
import Verif.Props.FlattenRollup
import Verif.Props.Template
import Verif.Props.Columns
import Verif.Proofs.DecEq
/-! C69, C70: what `flatten` and `create_template` write, in terms of the input file and the options. -/
namespace Verif.Api
open Spec

/-- A sheet with its name as a table. -/
def tableOf (p : Str × Sheet) : Table := ⟨p.1, p.2.headings, p.2.lines⟩

/-! ### Formats -/

theorem fold_set_get {α : Type} (f : Str → Str) (hf : ∀ a b, f a = f b → a = b) (l : List (Str × α)) : ∀ (d : List (Str × α)) (k : Str) (s : α),
    Dict.get (l.foldl (fun d p => Dict.set d (f p.1) p.2) d) k = some s ↔
      (∃ before p after, l = before ++ p :: after ∧ (∀ q ∈ after, q.1 ≠ p.1) ∧ k = f p.1 ∧ s = p.2) ∨
        (Dict.get d k = some s ∧ ∀ q ∈ l, f q.1 ≠ k) := by
  induction l with
  | nil => intro d k s; simp
  | cons p r ih =>
    intro d k s
    rw [List.foldl_cons, ih, Dict.get_set]
    constructor
    · rintro (⟨b, q, a, rfl, h1, h2, h3⟩ | ⟨h1, h2⟩)
      · exact .inl ⟨p :: b, q, a, rfl, h1, h2, h3⟩
      · split at h1
        · next hk =>
          cases h1
          refine .inl ⟨[], p, r, rfl, ?_, by simpa using hk.symm, rfl⟩
          intro q hq he
          exact h2 q hq (by rw [he]; simpa using hk)
        · next hk =>
          refine .inr ⟨h1, ?_⟩
          intro q hq
          rcases List.mem_cons.1 hq with rfl | hq
          · simpa using hk
          · exact h2 q hq
    · rintro (⟨b, q, a, he, h1, rfl, rfl⟩ | ⟨h1, h2⟩)
      · cases b with
        | nil =>
          obtain ⟨rfl, rfl⟩ := List.cons.inj he
          refine .inr ⟨by simp, ?_⟩
          intro q' hq' hc
          exact h1 q' hq' (hf _ _ hc)
        | cons x b =>
          obtain ⟨rfl, rfl⟩ := List.cons.inj he
          exact .inl ⟨b, q, a, rfl, h1, rfl, rfl⟩
      · refine .inr ⟨?_, fun q hq => h2 q (List.mem_cons_of_mem _ hq)⟩
        rw [if_neg]
        · exact h1
        · simpa using h2 p (by simp)

theorem split_map {α β : Type} {f : α → β} : ∀ {l : List α} {b : List β} {x : β} {a : List β}, l.map f = b ++ x :: a →
    ∃ b' x' a', l = b' ++ x' :: a' ∧ b'.map f = b ∧ f x' = x ∧ a'.map f = a
  | [], b, x, a, h => by cases b <;> cases h
  | y :: r, [], x, a, h => by
    rw [List.map_cons, List.nil_append] at h
    obtain ⟨h1, h2⟩ := List.cons.inj h
    exact ⟨[], y, r, rfl, rfl, h1, h2⟩
  | y :: r, z :: b, x, a, h => by
    rw [List.map_cons, List.cons_append] at h
    obtain ⟨h1, h2⟩ := List.cons.inj h
    obtain ⟨b', x', a', rfl, h3, h4, h5⟩ := split_map h2
    exact ⟨y :: b', x', a', rfl, by simp [h1, h3], h4, h5⟩

theorem csvGrid_of {strOf : Json → Str} {n : Str} {s : Sheet} {g : List (List Str)} (h : csvGrid strOf s = .ok g) : g = csvOf strOf (tableOf (n, s)) := by
  unfold csvGrid csvRows at h
  split at h
  · cases h
  · next rows hr =>
    split at hr
    · cases hr
      cases h
      simp only [csvOf, tableOf, Table.values, List.map_map, List.cons.injEq, true_and]
      apply List.map_congr_left
      intro l _
      simp only [Function.comp_def, List.map_map]
      apply List.map_congr_left
      intro x _
      exact csvText_written strOf _
    · cases hr

theorem all₂_mem_right {α β : Type} {R : α → β → Prop} {l : List α} {m : List β} (h : All₂ R l m) {b : β} (hb : b ∈ m) : ∃ a ∈ l, R a b := by
  induction h with
  | nil => cases hb
  | cons h1 _ ih =>
    rcases List.mem_cons.1 hb with rfl | hb
    · exact ⟨_, by simp, h1⟩
    · obtain ⟨a, ha, hr⟩ := ih hb; exact ⟨a, by simp [ha], hr⟩

theorem all₂_mem_left {α β : Type} {R : α → β → Prop} {l : List α} {m : List β} (h : All₂ R l m) {a : α} (ha : a ∈ l) : ∃ b ∈ m, R a b := by
  induction h with
  | nil => cases ha
  | cons h1 _ ih =>
    rcases List.mem_cons.1 ha with rfl | ha
    · exact ⟨_, by simp, h1⟩
    · obtain ⟨b, hb, hr⟩ := ih ha; exact ⟨b, by simp [hb], hr⟩

theorem csv_shows {env : FlEnv} {pfx mainName : Str} {st : FState} {dir : Str} {files : List (Str × List (List Str))}
    (h : mapE (fun p => match csvGrid env.strOf p.2 with | .error e => .error e | .ok g => .ok (p.1, g)) (writeCsv pfx mainName st) = .ok files) :
    WrittenShows env pfx ((outSheets mainName st).map tableOf) (.csv dir files) := by
  have hp := mapE_pairs h
  have hpair : All₂ (fun (p : Str × Sheet) (q : Str × List (List Str)) => q.1 = p.1 ∧ csvGrid env.strOf p.2 = .ok q.2) (writeCsv pfx mainName st) files := by
    refine All₂.imp hp ?_
    intro a b hab
    split at hab
    · cases hab
    · next g hg => cases hab; exact ⟨rfl, hg⟩
  have hnames : files.map (·.1) = (writeCsv pfx mainName st).map (·.1) := by
    clear h hp
    generalize writeCsv pfx mainName st = l at hpair
    induction hpair with
    | nil => rfl
    | cons h1 _ ih => simp [h1.1, ih]
  have hnd := writeCsv_nodup (pfx := pfx) (mainName := mainName) (st := st)
  have hfile : ∀ n, csvFile pfx n = pfx ++ n ++ s%".csv" := fun n => by simp [csvFile]
  have hget : ∀ k s, (k, s) ∈ writeCsv pfx mainName st ↔ ∃ before p after, outSheets mainName st = before ++ p :: after ∧
      (∀ q ∈ after, q.1 ≠ p.1) ∧ k = csvFile pfx p.1 ∧ s = p.2 := by
    intro k s
    have := fold_set_get (csvFile pfx) (fun _ _ => csvFile_inj) (outSheets mainName st) [] k s
    simp only [Dict.get_nil, reduceCtorEq, false_and, or_false] at this
    rw [← this]
    exact ⟨fun hm => Dict.get_of_mem hnd hm, Dict.get_eq_some_mem⟩
  refine .csv (by rw [hnames]; exact hnd) ?_
  intro file grid
  constructor
  · intro hm
    obtain ⟨⟨k, s⟩, h1, h2, h3⟩ := all₂_mem_right hpair hm
    obtain ⟨b, p, a, he, hl, rfl, rfl⟩ := (hget k s).1 h1
    refine ⟨b.map tableOf, tableOf p, a.map tableOf, by rw [he]; simp, ?_, ?_, csvGrid_of h3⟩
    · intro t ht
      obtain ⟨q, hq, rfl⟩ := List.mem_map.1 ht
      exact hl q hq
    · rw [← hfile]; exact h2
  · rintro ⟨b, t, a, he, hl, rfl, rfl⟩
    obtain ⟨b', p, a', he', -, rfl, rfl⟩ := split_map he
    have h1 := (hget (csvFile pfx p.1) p.2).2 ⟨b', p, a', he', fun q hq => hl _ (List.mem_map_of_mem (f := tableOf) hq), rfl, rfl⟩
    obtain ⟨⟨k, g⟩, h2, h3, h4⟩ := all₂_mem_left hpair h1
    have h5 := csvGrid_of (n := p.1) h4
    dsimp only at h3 h5
    subst h3 h5
    rw [hfile] at h2
    exact h2

theorem legal_clean (s : Str) : s.filter (fun c => !illegalChar c) = legalText s := by
  unfold legalText
  apply List.filter_congr
  intro c _
  rw [Bool.eq_iff_iff]
  simp only [illegalChar, Bool.not_eq_true', Bool.or_eq_false_iff, Bool.and_eq_false_iff, Bool.or_eq_true, decide_eq_true_eq, decide_eq_false_iff_not]
  omega

theorem xlsxCell_shows {v : Option Json} {a : Atom} (h : xlsxCell (cleanValue v) = .ok a) : CellShows v a := by
  match v with
  | none => cases h; exact .missing
  | some (.leaf b) =>
    have : a = legal b := by
      cases b <;> simp only [cleanValue, xlsxCell, Except.ok.injEq, legal_clean] at h <;> rw [← h] <;> rfl
    rw [this]; exact .scalar b
  | some (.arr _) => cases h
  | some (.obj _) => cases h

theorem mapM_all₂ {α β : Type} {f : α → Except Err β} : ∀ {l : List α} {m : List β}, l.mapM f = .ok m → All₂ (fun a b => f a = .ok b) l m
  | [], m, h => by cases h; exact .nil
  | a :: r, m, h => by
    rw [List.mapM_cons] at h
    cases ha : f a with
    | error e => rw [ha] at h; cases h
    | ok b =>
      rw [ha] at h
      cases hr : r.mapM f with
      | error e => rw [hr] at h; cases h
      | ok bs => rw [hr] at h; cases h; exact .cons ha (mapM_all₂ hr)

theorem all₂_of_map_left {α β γ : Type} {R : γ → β → Prop} {f : α → γ} : ∀ {l : List α} {m : List β}, All₂ R (l.map f) m → All₂ (fun a b => R (f a) b) l m
  | [], m, h => by cases h; exact .nil
  | a :: r, m, h => by
    rw [List.map_cons] at h
    cases h with
    | cons h1 h2 => exact .cons h1 (all₂_of_map_left h2)

theorem all₂_to_map_left {α β γ : Type} {R : γ → β → Prop} {f : α → γ} {l : List α} {m : List β} (h : All₂ (fun a b => R (f a) b) l m) : All₂ R (l.map f) m := by
  induction h with
  | nil => exact .nil
  | cons h1 _ ih => exact .cons h1 ih

theorem xlsxGrid_shows {n : Str} {s : Sheet} {g : Grid} (h : xlsxGrid s = .ok g) :
    ∃ rows, g.rows = (tableOf (n, s)).header.map Atom.str :: rows ∧
      All₂ (fun line row => All₂ CellShows ((tableOf (n, s)).values line) row) (tableOf (n, s)).lines rows := by
  unfold xlsxGrid at h
  split at h
  · cases h
  · next rows hr =>
    cases h
    refine ⟨rows, rfl, ?_⟩
    have h1 := all₂_of_map_left (mapM_all₂ hr)
    refine All₂.imp h1 ?_
    intro line row h2
    exact all₂_to_map_left (All₂.imp (all₂_of_map_left (mapM_all₂ h2)) (fun _ _ h3 => xlsxCell_shows h3))

theorem worksheets_of {title : List Str → Str → Except Err Str} {pfx : Str} : ∀ {l : List (Str × Sheet)} {used : List Str} {out : List (Str × Grid)},
    writeXlsx title pfx used l = .ok out → Worksheets title pfx used (l.map tableOf) out
  | [], used, out, h => by cases h; exact .nil
  | (n, s) :: r, used, out, h => by
    rw [writeXlsx] at h
    split at h
    · cases h
    · next t ht =>
      split at h
      · cases h
      · next g hg =>
        split at h
        · cases h
        · next rest hrest =>
          cases h
          obtain ⟨rows, h1, h2⟩ := xlsxGrid_shows (n := n) hg
          exact .cons ht h1 h2 (worksheets_of hrest)

theorem clean_legal (v : Option Json) : cleanValue v = v.map legalValue := by
  match v with
  | none => rfl
  | some (.leaf a) => cases a <;> simp only [cleanValue, legal_clean] <;> rfl
  | some (.arr _) => rfl
  | some (.obj _) => rfl

theorem truthy_falsy (a : Atom) : a.truthy = false ↔ Falsy a := by
  constructor
  · intro h
    cases a with
    | none => exact .null
    | bool b => cases b; exact .no; cases h
    | dec d => cases d with
      | fin neg c x => simp [Atom.truthy] at h; subst h; exact .dec
      | _ => cases h
    | float f =>
      simp only [Atom.truthy] at h
      split at h
      · next neg c x hf => simp at h; subst h; exact .float hf
      · cases h
    | int i => simp [Atom.truthy] at h; subst h; exact .int
    | str t => cases t with
      | nil => exact .text
      | cons => simp [Atom.truthy] at h
    | _ => cases h
  · intro h
    cases h with
    | float h => simp [Atom.truthy, h]
    | _ => rfl

theorem odsMake_shows {lib : OdsLib} {v : Option Json} {c : OdsCell} (h : odsMake lib v = .ok c) : OdsShows lib v c := by
  match v with
  | none => cases h; exact .missing
  | some (.leaf a) =>
    simp only [odsMake] at h
    split at h
    · next ht =>
      have ha : a ≠ .none := by rintro rfl; cases ht
      split at h
      · next v hv => cases h; exact .number a v (fun hf => by rw [(truthy_falsy a).2 hf] at ht; cases ht) hv
      · next hv => cases h; exact .text a ha (.inr hv)
      · cases h
    · next ht =>
      have ht' : a.truthy = false := by simpa using ht
      by_cases ha : a = .none
      · subst ha; cases h; exact .null
      · cases h
        cases a <;> first | exact absurd rfl ha | exact .text _ ha (.inl ((truthy_falsy _).1 ht'))
  | some (.arr l) =>
    simp only [odsMake] at h
    split at h
    · next hl => rw [List.isEmpty_iff] at hl; subst hl; cases h; exact .emptyList
    · cases h
  | some (.obj l) =>
    simp only [odsMake] at h
    split at h
    · next hl => rw [List.isEmpty_iff] at hl; subst hl; cases h; exact .emptyDict
    · cases h

theorem mapRow_all₂ {lib : OdsLib} : ∀ {l : List (Option Json)} {cs : List OdsCell}, mapRow lib l = .ok cs → All₂ (fun v c => odsMake lib v = .ok c) l cs
  | [], cs, h => by cases h; exact .nil
  | v :: r, cs, h => by
    rw [mapRow] at h
    split at h
    · cases h
    · next c hc =>
      split at h
      · cases h
      · next cs' hcs => cases h; exact .cons hc (mapRow_all₂ hcs)

theorem mapRows_all₂ {lib : OdsLib} : ∀ {l : List (List (Option Json))} {rs : List OdsRow}, mapRows lib l = .ok rs →
    All₂ (fun vs (r : OdsRow) => r.repeated = 1 ∧ mapRow lib vs = .ok r.cells) l rs
  | [], rs, h => by cases h; exact .nil
  | vs :: r, rs, h => by
    rw [mapRows] at h
    split at h
    · cases h
    · next c hc =>
      split at h
      · cases h
      · next cs' hcs => cases h; exact .cons ⟨rfl, hc⟩ (mapRows_all₂ hcs)

theorem odsTable_shows {lib : OdsLib} {pfx n : Str} {s : Sheet} {ot : OdsTable} (h : odsTable lib pfx (n, s) = .ok ot) :
    ot.name = (pfx ++ (tableOf (n, s)).name).take 31 ∧ ∃ header rows, ot.rows = header :: rows ∧ header.repeated = 1 ∧
      All₂ (fun h c => OdsShows lib (some (.leaf (.str h))) c) (tableOf (n, s)).header header.cells ∧
      All₂ (fun line (row : OdsRow) => row.repeated = 1 ∧ All₂ (fun v c => OdsShows lib (v.map legalValue) c) ((tableOf (n, s)).values line) row.cells)
        (tableOf (n, s)).lines rows := by
  unfold odsTable at h
  split at h
  · cases h
  · next rs hr =>
    cases h
    refine ⟨rfl, ?_⟩
    have h1 := mapRows_all₂ hr
    cases h1 with
    | cons h2 h3 =>
      next header rows =>
      refine ⟨header, rows, rfl, h2.1, All₂.imp (all₂_of_map_left (mapRow_all₂ h2.2)) (fun _ _ => odsMake_shows), ?_⟩
      refine All₂.imp (all₂_of_map_left h3) ?_
      intro line row h4
      refine ⟨h4.1, all₂_to_map_left (All₂.imp (all₂_of_map_left (mapRow_all₂ h4.2)) ?_)⟩
      intro a b h5
      rw [clean_legal] at h5
      exact odsMake_shows h5

theorem write_shows {env : FlEnv} {pfx mainName name : Str} {st : FState} {format : Str} {w : Written}
    (h : writeFormat env pfx mainName name st format = .ok w) : WrittenShows env pfx ((outSheets mainName st).map tableOf) w := by
  unfold writeFormat at h
  split at h
  · split at h
    · cases h
    · next files hf => cases h; exact csv_shows hf
  · split at h
    · split at h
      · cases h
      · next sheets hs => cases h; exact .xlsx (worksheets_of hs)
    · split at h
      · cases h
      · next tables ht =>
        cases h
        exact .ods (all₂_to_map_left (All₂.imp (mapE_pairs ht) (fun p _ hp => odsTable_shows (n := p.1) (s := p.2) hp)))

theorem all_shown {env : FlEnv} {pfx mainName : Str} {name : Option Str} {d f : Str} {st : FState} {out : List Written}
    (h : writeAll env pfx mainName name d f st = .ok out) : ∀ w ∈ out, WrittenShows env pfx ((outSheets mainName st).map tableOf) w := by
  unfold writeAll at h
  split at h
  · cases h
  · intro w hw
    obtain ⟨f, -, hf⟩ := all₂_mem_right (mapE_pairs h) hw
    exact write_shows hf

/-! ### Tables of the sub-sheets -/

theorem strLeName_eq (a b : Str) : insertSheet.strLeName a b = strLe a b := by
  induction a generalizing b with
  | nil => cases b <;> rfl
  | cons x xs ih =>
    cases b with
    | nil => rfl
    | cons y ys => simp only [insertSheet.strLeName, strLe, ih]

theorem insertSheet_sorted {x : Str × Sheet} {l : List (Str × Sheet)} (hl : (l.map (·.1)).Pairwise NameLt) (hx : x.1 ∉ l.map (·.1)) :
    ((insertSheet x l).map (·.1)).Pairwise NameLt := by
  have hmap : ∀ l : List (Str × Sheet), (insertSheet x l).map (·.1) = insertName x.1 (l.map (·.1)) := by
    intro l
    induction l with
    | nil => rfl
    | cons y r ih =>
      rw [insertSheet, List.map_cons, insertName, strLeName_eq]
      split
      · rfl
      · rw [List.map_cons, ih]
  rw [hmap]
  exact insertName_sorted hl hx

theorem sortSheets_sorted {l : List (Str × Sheet)} (hn : (l.map (·.1)).Nodup) : ((sortSheets l).map (·.1)).Pairwise NameLt := by
  induction l with
  | nil => exact .nil
  | cons x r ih =>
    rw [List.map_cons, List.nodup_cons] at hn
    refine insertSheet_sorted (ih hn.2) ?_
    intro hc
    exact hn.1 (((sortSheets_perm r).map (·.1)).mem_iff.1 hc)

theorem find_table {l : List (Str × Sheet)} (hn : (l.map (·.1)).Nodup) (name : Str) :
    linesOf ((sortSheets l).map tableOf) name = ((Dict.get l name).getD {}).lines := by
  have hp := sortSheets_perm l
  have hn' : ((sortSheets l).map (·.1)).Nodup := (hp.map (·.1)).nodup_iff.2 hn
  have hget : Dict.get (sortSheets l) name = Dict.get l name := by
    cases hg : Dict.get l name with
    | none =>
      rw [Dict.get_none_iff] at hg ⊢
      intro hc
      exact hg ((hp.map (·.1)).mem_iff.1 hc)
    | some s => exact Dict.get_of_mem hn' (hp.mem_iff.2 (Dict.get_eq_some_mem hg))
  rw [← hget]
  generalize sortSheets l = m
  induction m with
  | nil => rfl
  | cons x r ih =>
    obtain ⟨n, s⟩ := x
    unfold linesOf at ih ⊢
    rw [List.map_cons, List.find?_cons, Dict.get_cons]
    by_cases h : n = name
    · simp [tableOf, h]
    · rw [if_neg (by simpa using h)]
      have : decide ((tableOf (n, s)).name = name) = false := decide_eq_false h
      rw [this]
      exact ih

/-! ### Options -/

theorem flattenState_ok {o : FlOpts} {env : FlEnv} {st : FState} {sw : List SWarn} {ig : Bool} (h : flattenState o env = .ok (st, sw, ig)) :
    ∃ schema rollup root, parseOpt o.schemaCfg o.schema = .ok schema ∧ rollupOf o.rollup schema env.file = .ok (rollup, ig) ∧
      rootItems o.xml (if o.rootIsList then none else some o.rootListPath) env.content = .ok root ∧
      Verif.flatten (o.parserCfg env schema rollup) root = .ok st := by
  unfold flattenState at h
  split at h
  · cases h
  · next schema h1 =>
    split at h
    · cases h
    · next rollup ig' h2 =>
      split at h
      · cases h
      · next root h3 =>
        split at h
        · cases h
        · next st' h4 => cases h; exact ⟨schema, rollup, root, h1, h2, h3, h4⟩

theorem rootList_items {o : FlOpts} {content : Json} {root : List Json} (h : RootList o content root) :
    rootItems false (if o.rootIsList then none else some o.rootListPath) content = .ok root := by
  cases h with
  | list hl => rw [if_pos hl]; exact C56_list_items root
  | path hl hp hc => rw [if_neg (by simp [hl])]; exact C56_root_items _ _ hp hc

theorem schema_parsed {c : SchemaCfg} {s : Option Schema} {sp : Option Parsed} (h : parseOpt c s = .ok sp) {p : Parsed} (hp : sp = some p) :
    ∃ sch, parseRoot c sch = .ok p := by
  subst hp
  unfold parseOpt at h
  split at h
  · cases h
  · next s _ =>
    split at h
    · cases h
    · next p hp => injection h with h; injection h with h; subst h; exact ⟨_, hp⟩

/-- The sub-sheets of the schema are kept. -/
theorem kept_sub {cfg : FCfg} {p : Parsed} (hr : cfg.removeEmpty = false) (hp : cfg.schema = some p) {root : List Json} {st : FState} (h : flatten cfg root = .ok st)
    {n : Str} (hn : n ∈ Dict.keys p.subs) : n ∈ Dict.keys st.subs := by
  obtain ⟨ev, -, rfl⟩ := flatten_ok.1 h
  rw [finish_subs, hr]
  simp only [Bool.false_eq_true, if_false]
  rw [mem_run_subs, init_subs]
  left
  simpa [templateSheets, hp] using hn

theorem schema_of {o : FlOpts} {schema : Option Parsed} (h : SchemaOf o schema) : parseOpt o.schemaCfg o.schema = .ok schema := by
  cases h with
  | none h => rw [h]; rfl
  | @parsed s p rollup h1 h2 h3 =>
    have : rollup = o.rollup.truthy := by
      cases rollup with
      | false =>
        rcases h2.1 rfl with h | h <;> rw [h] <;> rfl
      | true =>
        have h2 : ¬ (o.rollup = .off ∨ o.rollup = .list []) := fun h => by cases h2.2 h
        revert h2
        cases o.rollup with
        | off => simp
        | flag => intro _; rfl
        | list l => cases l <;> simp [RollupOpt.truthy]
    subst this
    unfold parseOpt
    rw [h1]
    simp only [FlOpts.schemaCfg]
    rw [h3]

/-- Without the filter, on the objects that pass it, the sheets are the same. -/
theorem filter_passes {o : FlOpts} {env : FlEnv} {schema : Option Parsed} {rollup : List Str} (hw : o.wkt = false) {root : List Json} {st : FState}
    (h : Verif.flatten (o.parserCfg env schema rollup) root = .ok st) :
    ∃ st', Verif.flatten { o.parserCfg env schema rollup with filter := none } (root.filter (passes o)) = .ok st' ∧ st'.main = st.main ∧ st'.subs = st.subs := by
  by_cases hf : (o.parserCfg env schema rollup).filter = none
  · have hpass : ∀ j, passes o j = true := by
      intro j
      unfold passes
      split
      · next f v h1 h2 =>
        simp only [FlOpts.parserCfg, given, h1, h2, Option.filter] at hf
        by_cases h3 : f = []
        · simp [h3]
        · by_cases h4 : v = []
          · simp [h4]
          · simp [h3, h4] at hf
      · rfl
    rw [List.filter_eq_self.2 (fun j _ => hpass j), ← hf]
    exact ⟨st, h, rfl, rfl⟩
  · cases hc : (o.parserCfg env schema rollup).filter with
    | none => exact absurd hc hf
    | some fv =>
      obtain ⟨f, v⟩ := fv
      have hsel : passes o = selected f v := by
        funext j
        simp only [FlOpts.parserCfg] at hc
        split at hc
        · next f' v' h1 h2 =>
          cases hc
          obtain ⟨h3, h4⟩ := given_some.1 h1
          obtain ⟨h5, h6⟩ := given_some.1 h2
          simp [passes, h3, h5, h4, h6]
        · cases hc
      have hres := C28_filter_selects _ f v hc root (by simp [FlOpts.parserCfg, hw])
      rw [h, hsel.symm] at hres
      cases hr : Verif.flatten { o.parserCfg env schema rollup with filter := none } (root.filter (passes o)) with
      | error e => rw [hr] at hres; cases hres
      | ok st' =>
        rw [hr] at hres
        simp only [sheetsResult, Except.ok.injEq, Prod.mk.injEq] at hres
        exact ⟨st', rfl, hres.1.symm, hres.2.symm⟩

theorem rollup_means {o : FlOpts} {env : FlEnv} {schema : Option Parsed} {rolls : Str → Str → Prop} (h : RollsUp o env schema rolls)
    (hs : parseOpt o.schemaCfg o.schema = .ok schema) {rollup : List Str} {ig : Bool} (hr : rollupOf o.rollup schema env.file = .ok (rollup, ig)) :
    (rollup = [] ∧ ∀ key k, ¬ rolls key k) ∨ (rollup ≠ [] ∧ ∀ key, '/' ∉ key → ∀ k, rolls key k ↔
      (key ∈ rollup ∨ ∃ sp, schema = some sp ∧ pathText [key, s%"0", k] ∈ sp.main.headings)) := by
  have hdirect : (∀ p, schema = some p → p.rollup = []) → o.rollup.truthy = true → rollupOf.direct o.rollup env.file = .ok (rollup, ig) := by
    intro hp ht
    unfold rollupOf at hr
    rw [if_neg (by simp [ht])] at hr
    cases hsch : schema with
    | none => rw [hsch] at hr; exact hr
    | some p => rw [hsch] at hr; simp only [hp p hsch, List.isEmpty_nil, if_true] at hr; exact hr
  cases h with
  | off ho =>
    have ht : o.rollup.truthy = false := by rcases ho with h | h <;> rw [h] <;> rfl
    unfold rollupOf at hr
    rw [if_pos (by simp [ht])] at hr
    cases hr
    exact .inl ⟨rfl, fun _ _ h => h⟩
  | @schema p h1 h2 h3 h4 =>
    have ht : o.rollup.truthy = true := by
      cases ho : o.rollup with
      | off => exact absurd ho h1
      | flag => rfl
      | list l => cases l with
        | nil => exact absurd ho h2
        | cons _ _ => rfl
    unfold rollupOf at hr
    rw [if_neg (by simp [ht]), h3] at hr
    simp only [List.isEmpty_iff, h4, if_false] at hr
    injection hr with hr
    injection hr with hr _
    subst hr
    refine .inr ⟨h4, fun key hk k => ⟨fun h => .inr ⟨p, h3, h⟩, ?_⟩⟩
    rintro (h | ⟨sp, h5, h6⟩)
    · obtain ⟨sch, hsch⟩ := schema_parsed hs h3
      exact absurd (parseRoot_rollup hsch key h) hk
    · rw [h3] at h5; cases h5; exact h6
  | @names names h1 h2 h3 h4 =>
    have ht : o.rollup.truthy = true := by
      rw [h1]
      cases names with
      | nil => exact absurd rfl h2
      | cons _ _ => rfl
    have h5 := hdirect h4 ht
    rw [h1] at h5
    have : rollup = names := by
      unfold rollupOf.direct at h5
      match names, h2, h3, h5 with
      | [n], _, h3, h5 =>
        simp only [List.map_cons, List.map_nil, h3 n rfl] at h5
        cases h5; rfl
      | a :: b :: r, _, _, h5 =>
        simp only [List.map_cons] at h5
        injection h5 with h5
        injection h5 with h5 _
        rw [← h5]
        simp
    rw [this]
    exact .inr ⟨h2, fun key _ k => Iff.rfl⟩
  | @file name lines h1 h2 h4 =>
    have h5 := hdirect h4 (by rw [h1]; rfl)
    rw [h1] at h5
    unfold rollupOf.direct at h5
    simp only [h2] at h5
    injection h5 with h5
    injection h5 with h5 _
    subst h5
    by_cases hl : lines = []
    · exact .inl ⟨by simp [hl], fun _ _ h => h.1 hl⟩
    · exact .inr ⟨by simpa using hl, fun key _ k => ⟨fun h => h.2, fun h => ⟨hl, h⟩⟩⟩

theorem rolled_iff {R S : Str → Str → Prop} {fs : List (Str × Json)} (h : ∀ key ∈ Dict.keys fs, ∀ k, R key k ↔ S key k) {q : List Str} {v : Json} :
    Rolled R fs q v ↔ Rolled S fs q v := by
  constructor
  · intro hr
    cases hr with
    | one h1 h2 h3 => exact .one h1 ((h _ (Dict.mem_keys_of_mem h1) _).1 h2) h3
    | many h1 h2 h3 h4 h5 => exact .many h1 h2 h3 h4 ((h _ (Dict.mem_keys_of_mem h1) _).1 h5)
  · intro hr
    cases hr with
    | one h1 h2 h3 => exact .one h1 ((h _ (Dict.mem_keys_of_mem h1) _).2 h2) h3
    | many h1 h2 h3 h4 h5 => exact .many h1 h2 h3 h4 ((h _ (Dict.mem_keys_of_mem h1) _).2 h5)

theorem rolled_not {R : Str → Str → Prop} {fs : List (Str × Json)} (h : ∀ key k, ¬ R key k) {q : List Str} {v : Json} : ¬ Rolled R fs q v := by
  intro hr
  cases hr with
  | one _ h2 _ => exact h _ _ h2
  | many _ _ _ _ h5 => exact h _ _ h5

theorem preserve_lines {lines : List Str} {paths : List (List Str)} (h : lines.map (Py.strip Py.isSpace) = paths.map pathText)
    (ht : ∀ l ∈ paths, Py.strip Py.isSpace (pathText l) = pathText l) : preserveSet lines = preserveSet (paths.map pathText) := by
  have key : ∃ g : Str → List Str, ∀ ls, preserveSet ls = (ls.map (Py.strip Py.isSpace)).flatMap g := by
    refine ⟨fun l => (match (Py.split '/' l).reverse with
      | last :: (p :: ps) => [Py.join s%"/" (p :: ps).reverse, last]
      | _ => [l]) ++ [Py.rstrip (· = '/') l], fun ls => ?_⟩
    rw [List.flatMap_map]
    rfl
  obtain ⟨g, hg⟩ := key
  rw [hg, hg, h, List.map_map]
  congr 1
  exact List.map_congr_left (fun l hl => (ht l hl).symm)

/-- The set of paths the parser keeps is made from the list asked for. -/
def PreserveIs : Option (List (List Str)) → List Str → Prop
  | none, p => p = []
  | some paths, p => p = preserveSet (paths.map pathText)

/-- The lines of a flattening with the options: `keep` is what is asked for. -/
theorem asked_lines {cfg : FCfg} (hp : Plain cfg) (hf : cfg.filter = none) (hs : FromSchemaParser cfg) {asked : Option (List (List Str))} {root : List Json}
    (hk : PreserveIs asked cfg.preserve) (hfit : PathsFit root asked)
    (hc : ∀ fs ∈ objects root, CleanKeys (.obj fs)) {st : FState} (h : flatten cfg root = .ok st) :
    All₂ (MainLine (keeps asked) (fun _ _ => False)) (objects root) st.main.lines ∧
    ∀ name, All₂ (SubLine (idOpts cfg) (keeps asked)) ((docItems (keeps asked) root).filter (fun i => sheetName cfg.trunc i.array = name)) (subLines st name) := by
  have hmain : ∀ {keep fs line}, Holds keep [] fs (fun _ _ => False) line → MainLine keep (fun _ _ => False) fs line := by
    intro keep fs line hh heading v
    constructor
    · intro hg
      rcases hh.sound heading v hg with ⟨q, h1, h2⟩ | h1
      · exact ⟨q, h1, .inl h2⟩
      · exact h1.elim
    · rintro ⟨q, rfl, h1 | h1⟩
      · exact hh.complete q v h1
      · exact absurd h1 (rolled_not (by simp))
  cases asked with
  | none =>
    obtain ⟨h1, h2⟩ := C24_lines_hold_the_values cfg hp hf hk hs root hc st h
    refine ⟨All₂.imp h1 (fun _ _ => hmain), fun name => ?_⟩
    rw [(C23_one_line_per_object cfg hp hf hk hs root st h).2 name]
    apply all₂_map_right
    intro i hi
    have hi' := docItems_ok everything root hc i (List.mem_filter.1 hi).1
    exact ⟨item_line_holds hi', fun ha hb => item_line_carries hi' ha hb⟩
  | some paths =>
    obtain ⟨hg, hz⟩ := hfit
    obtain ⟨h1, h2⟩ := C29_preserve_fields cfg hp hf hs paths hk root hg hc hz st h
    refine ⟨All₂.imp h1 (fun _ _ => hmain), fun name => ?_⟩
    have hd : docItems (keepOf cfg) root = docItems (preserved paths) root := by
      unfold docItems
      rw [List.flatMap_def, List.flatMap_def]
      congr 1
      apply List.map_congr_left
      intro fs hfs
      exact (kept_cells hg hk hc hz hfs).2.1
    have hl : ∀ i ∈ docItems (keepOf cfg) root, i.line (idOpts cfg) (keepOf cfg) = i.line (idOpts cfg) (preserved paths) := by
      intro i hi
      simp only [docItems, List.mem_flatMap] at hi
      obtain ⟨fs, hfs, hi⟩ := hi
      exact (kept_cells hg hk hc hz hfs).2.2 i hi
    rw [(plain_lines hp hf hs h).2, wanted]
    show All₂ _ ((docItems (preserved paths) root).filter _) _
    rw [← hd]
    apply all₂_map_right
    intro i hi
    have hi1 := (List.mem_filter.1 hi).1
    have hi' := docItems_ok _ root hc i hi1
    rw [hl i hi1]
    exact ⟨item_line_holds hi', fun ha hb => item_line_carries hi' ha hb⟩

theorem mem_objects_iff {root : List Json} {fs : List (Str × Json)} : fs ∈ objects root ↔ .obj fs ∈ root := by
  induction root with
  | nil => simp [objects]
  | cons j r ih => cases j <;> simp [objects, ih]

/-- C69: what `flatten` writes (without titles and geometries, from JSON).  In whatever format, what is written shows one table for the main sheet and
tables for the sub-sheets, in the order of their names: the main sheet has a line for each object of the root list that passes the filter, with the values of the fields asked
for and the values rolled up; the sheet of an array has a line for each object in the arrays with that sheet name, with the values of the
fields asked for and the ids around. -/
theorem C69_flatten_writes (o : FlOpts) (env : FlEnv) (out : FlOut) (hx : o.xml = false) (ht : o.useTitles = false) (hw : o.wkt = false)
    (schema : Option Parsed) (hschema : SchemaOf o schema)
    (hcols : ∀ p, schema = some p → p.main.headings.Nodup ∧ ∀ n s, (n, s) ∈ p.subs → s.headings.Nodup)
    (root : List Json) (hroot : RootList o env.content root) (hc : ∀ fs, .obj fs ∈ root → passes o (.obj fs) = true → CleanKeys (.obj fs))
    (asked : Option (List (List Str))) (hask : Asks o asked) (hfit : PathsFit (root.filter (passes o)) asked)
    (rolls : Str → Str → Prop) (hrolls : RollsUp o env schema rolls) (hord : ∀ l x, x ∈ env.order l ↔ x ∈ l)
    (h : runFlatten o env = .ok out) :
    ∃ main subs, main.name = o.mainSheetName ∧ (∀ t ∈ main :: subs, t.Complete) ∧ (subs.map (·.name)).Pairwise NameLt ∧
      (∀ p, schema = some p → o.removeEmpty = false → p.main.headings <+: main.header ∧
        ∀ n s, Dict.get p.subs n = some s → ∃ t ∈ subs, t.name = n ∧ s.headings <+: t.header) ∧
      All₂ (MainLine (keeps asked) (fun key k => rolls key k ∧ RollsAsked asked key k)) (objects (root.filter (passes o))) main.lines ∧
      (∀ name, All₂ (SubLine ⟨o.idName, given o.rootId⟩ (keeps asked))
        ((docItems (keeps asked) (root.filter (passes o))).filter (fun i => sheetName o.trunc i.array = name)) (linesOf subs name)) ∧
      ∀ w ∈ out.written, WrittenShows env o.sheetPrefix (main :: subs) w := by
  have hs := schema_of hschema
  obtain ⟨-, st, sw, ig, written, h1, h2, rfl⟩ := runFlatten_ok.1 h
  obtain ⟨schema', rollup, root', h3, h4, h5, h6⟩ := flattenState_ok h1
  rw [hs] at h3
  injection h3 with h3
  subst h3
  rw [hx, rootList_items hroot] at h5
  injection h5 with h5
  subst h5
  -- the schema
  have hfrom : ∀ f r, FromSchemaParser { o.parserCfg env schema r with filter := f } := by
    intro f r sp hsp
    obtain ⟨sch, hsch⟩ := schema_parsed hs hsp
    exact ⟨_, sch, hsch⟩
  have hnd := subs_nodup (hfrom _ rollup) h6
  obtain ⟨st1, h7, h8, h9⟩ := filter_passes hw h6
  have hc' : ∀ fs ∈ objects (root.filter (passes o)), CleanKeys (.obj fs) := by
    intro fs hfs
    have := List.mem_filter.1 (mem_objects_iff.1 hfs)
    exact hc fs this.1 this.2
  have hmeans := rollup_means hrolls hs h4
  have hpres : PreserveIs asked (o.parserCfg env schema rollup).preserve := by
    cases hask with
    | everything he => simp [PreserveIs, FlOpts.parserCfg, he, preserveSet]
    | listed h1 h2 =>
      simp only [PreserveIs, FlOpts.parserCfg, h1, Option.getD_some]
      exact preserve_lines h2 hfit.1.trim
  refine ⟨tableOf (o.mainSheetName, st.main), (sortSheets st.subs).map tableOf, rfl, ?_, ?_, ?_, ?_, ?_, ?_⟩
  · intro t htm
    have : ∃ n s, s ∈ sheetsOf st ∧ t = tableOf (n, s) := by
      rcases List.mem_cons.1 htm with rfl | htm
      · exact ⟨_, _, by simp [sheetsOf], rfl⟩
      · obtain ⟨⟨n, s⟩, hm, rfl⟩ := List.mem_map.1 htm
        exact ⟨n, s, by simp only [sheetsOf, List.mem_cons, List.mem_map]; exact .inr ⟨(n, s), (sortSheets_perm _).mem_iff.1 hm, rfl⟩, rfl⟩
    obtain ⟨n, s, hm, rfl⟩ := this
    exact ⟨C26_no_repeated_headings _ (hfrom _ rollup) hcols root st h6 s hm, (C25_every_value_has_a_column _ (hfrom _ rollup) root st h6 s hm).1⟩
  · rw [List.map_map]
    exact sortSheets_sorted hnd
  · intro p hp hre
    subst hp
    have hkept : ∀ (cfg : FCfg) (sh : Sheet), cfg.removeEmpty = false → keptColumns cfg sh = sh.headings := by
      intro cfg sh hr
      simp only [keptColumns, hr, Sheet.headings]
      cases sh.rootId <;> simp
    have htop : ∀ (cfg : FCfg), cfg.schema = some p → cfg.removeEmpty = false →
        templateColumns cfg none = p.main.headings ∧ ∀ n s, Dict.get p.subs n = some s → templateColumns cfg (some n) = s.headings := by
      intro cfg h1 h2
      refine ⟨by simp [templateColumns, h1, hkept _ _ h2], fun n s hn => by simp [templateColumns, h1, hkept _ _ h2, hn]⟩
    constructor
    · have := C57_schema_columns_first _ (hfrom _ rollup) root st h6 none st.main rfl
      rwa [(htop _ rfl hre).1] at this
    · intro n s hn
      obtain ⟨s', hs'⟩ : ∃ s', Dict.get st.subs n = some s' := by
        rw [← Option.isSome_iff_exists, Dict.get_isSome_iff]
        exact kept_sub (hre : (o.parserCfg env (some p) rollup).removeEmpty = false) rfl h6 (Dict.get_isSome_iff.1 (by rw [hn]; rfl))
      have := C57_schema_columns_first _ (hfrom _ rollup) root st h6 (some n) s' hs'
      have hm := Dict.get_eq_some_mem hs'
      refine ⟨tableOf (n, s'), List.mem_map.2 ⟨_, (sortSheets_perm _).mem_iff.2 hm, rfl⟩, rfl, ?_⟩
      rwa [(htop _ rfl hre).2 n s hn] at this
  · show All₂ _ _ st.main.lines
    rw [← h8]
    rcases hmeans with ⟨rfl, hno⟩ | ⟨hne, hyes⟩
    · have := (asked_lines (cfg := { o.parserCfg env schema [] with filter := none }) ⟨ht, hw, hx, rfl⟩ rfl (hfrom _ []) hpres hfit hc' h7).1
      refine All₂.imp this ?_
      intro fs line hl heading v
      rw [hl heading v]
      exact exists_congr (fun q => and_congr_right fun _ => or_congr_right ⟨fun hr => absurd hr (rolled_not (by simp)), fun hr => absurd hr (rolled_not (fun key k h => hno key k h.1))⟩)
    · have hyes' : ∀ fs ∈ objects (root.filter (passes o)), ∀ key ∈ Dict.keys fs, ∀ k, Rolls { o.parserCfg env schema rollup with filter := none } key k ↔ rolls key k := by
        intro fs hfs key hkey k
        have hcl := hc' fs hfs
        rw [CleanKeys] at hcl
        exact (hyes key (hcl.2.1 key hkey) k).symm
      cases asked with
      | none =>
        have := C30_main_lines { o.parserCfg env schema rollup with filter := none } ht hw hx hne rfl hpres (hfrom _ rollup) hord _ hc' st1 h7
        refine All₂.imp_mem this ?_
        intro fs hfs line _ hl heading v
        rw [hl heading v]
        refine exists_congr (fun q => and_congr_right fun _ => or_congr_right (rolled_iff ?_))
        intro key hkey k
        rw [hyes' fs hfs key hkey k]
        simp [RollsAsked]
      | some paths =>
        have := C30_preserved_fields { o.parserCfg env schema rollup with filter := none } ht hw hx hne rfl (hfrom _ rollup) hord paths hpres _ hfit.1 hc' hfit.2 st1 h7
        refine All₂.imp_mem this ?_
        intro fs hfs line _ hl heading v
        rw [hl heading v]
        refine exists_congr (fun q => and_congr_right fun _ => or_congr_right (rolled_iff ?_))
        intro key hkey k
        rw [hyes' fs hfs key hkey k]
        rfl
  · intro name
    obtain ⟨st2, h10, h11⟩ := C30_sub_sheets_unchanged { o.parserCfg env schema rollup with filter := none } hx _ st1 h7
    have := (asked_lines (cfg := { o.parserCfg env schema [] with filter := none }) ⟨ht, hw, hx, rfl⟩ rfl (hfrom _ []) hpres hfit hc' h10).2 name
    rw [find_table hnd, ← h9, ← h11]
    exact this
  · exact all_shown h2

namespace EndToEndEx

/-- Two cafés, of which one is of kind `a`; the dishes are rolled up because a file says so. -/
def o : FlOpts :=
  { rootListPath := s%"data/cafes", filterField := some s%"kind", filterValue := some s%"a", rollup := .list [some s%"rollup.txt"], sheetPrefix := s%"p_" }
def cafe : List (Str × Json) :=
  [(s%"id", .leaf (.str s%"1")), (s%"kind", .leaf (.str s%"a")), (s%"dishes", .arr [.obj [(s%"name", .leaf (.str s%"soup"))]])]
def other : List (Str × Json) := [(s%"id", .leaf (.str s%"2")), (s%"kind", .leaf (.str s%"b"))]
def env : FlEnv :=
  { content := .obj [(s%"data", .obj [(s%"cafes", .arr [.obj cafe, .obj other])])]
    file := fun n => if n = s%"rollup.txt" then some [s%" dishes", s%"tags "] else none }

/-- What is written. -/
def files : Except Err FlOut → List (Str × List (List Str))
  | .ok r => r.written.flatMap (fun | .csv _ files => files | _ => [])
  | .error _ => [(s%"!", [])]

/-- C69: the CSV files. -/
example : files (runFlatten { o with outputFormat := s%"csv" } env) =
    [(s%"p_main.csv", [[s%"id", s%"kind", s%"dishes/0/name"], [s%"1", s%"a", s%"soup"]]), (s%"p_dishes.csv", [[s%"id", s%"dishes/0/name"], [s%"1", s%"soup"]])] := by
  decide +kernel

/-- C69: its hypotheses are met, with a filter and a file that says what to roll up. -/
example : SchemaOf o none ∧ RootList o env.content [.obj cafe, .obj other] ∧
    [.obj cafe, .obj other].filter (passes o) = [.obj cafe] ∧ CleanKeys (.obj cafe) ∧ Asks o none ∧ PathsFit [.obj cafe] none ∧
    ∃ rolls, RollsUp o env none rolls ∧ rolls s%"dishes" s%"name" ∧ ¬ rolls s%"id" s%"name" := by
  refine ⟨.none rfl, ?_, by decide +kernel, ?_, .everything rfl, trivial, ?_⟩
  · refine RootList.path (content := env.content) rfl (by decide +kernel) ?_
    have : Py.split '/' o.rootListPath = [s%"data", s%"cafes"] := by decide +kernel
    rw [this]
    refine ⟨by decide, by decide, fun v hv => ?_⟩
    have : v = .obj [(s%"cafes", .arr [.obj cafe, .obj other])] := by
      have h : Dict.get [(s%"data", Json.obj [(s%"cafes", .arr [.obj cafe, .obj other])])] s%"data" = some (.obj [(s%"cafes", .arr [.obj cafe, .obj other])]) := rfl
      rw [h] at hv
      exact (Option.some.inj hv).symm
    subst this
    refine ⟨by decide, by decide, fun v hv => ?_⟩
    have h : Dict.get [(s%"cafes", Json.arr [.obj cafe, .obj other])] s%"cafes" = some (.arr [.obj cafe, .obj other]) := rfl
    rw [h] at hv
    rw [← Option.some.inj hv]
    trivial
  · simp only [cafe, CleanKeys, CleanFields, CleanList]; decide
  · have h : env.file s%"rollup.txt" = some [s%" dishes", s%"tags "] := by decide +kernel
    refine ⟨_, .file rfl h (by simp), ?_, ?_⟩
    · exact ⟨by decide, .inl (by decide +kernel)⟩
    · rintro ⟨-, h | ⟨p, h, -⟩⟩
      · revert h; decide +kernel
      · cases h

/-- C69: a list of fields to preserve, in the lines of a file. -/
def po : FlOpts := { rootIsList := true, preserve := some [s%"title ", s%"dishes/title"] }

example : Asks po (some preserveList) := .listed rfl (by decide +kernel)
example : files (runFlatten { po with outputFormat := s%"csv" } { env with content := .arr preserveDoc }) =
    [(s%"main.csv", [[s%"id", s%"title"], [[], s%"t"]]), (s%"dishes.csv", [[s%"id", s%"dishes/0/title"], [s%"1", s%"x"]])] := by
  decide +kernel

end EndToEndEx

end Verif.Api
