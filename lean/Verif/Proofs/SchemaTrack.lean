import Verif.Proofs.SchemaInv
import Verif.Spec.Schema
/-! What the schema parser yields and what it adds to the sheets and the types. -/
namespace Verif
open Spec

theorem Schema.ind {P : Schema → Prop}
    (h : ∀ info props items one, (∀ n p, (n, p) ∈ props.getD [] → P p) → (∀ i, items = some i → P i) →
      P (.mk info props items one)) (s : Schema) : P s := by
  match s with
  | .mk info props items one =>
    refine h info props items one (fun n p hp => ?_) (fun i hi => ?_)
    · have : sizeOf p < sizeOf (Schema.mk info props items one) := by
        cases props with
        | none => simp at hp
        | some l =>
          have h1 := List.sizeOf_lt_of_mem hp
          simp at h1 ⊢
          omega
      exact Schema.ind h p
    · have : sizeOf i < sizeOf (Schema.mk info props items one) := by
        subst hi; simp; omega
      exact Schema.ind h i
termination_by sizeOf s
decreasing_by all_goals assumption

/-! ### Kinds -/

theorem effTitle_eq (p : Schema) : p.info.effTitle = titleOf p := by
  unfold SchemaInfo.effTitle titleOf
  cases p.info.refTitle with
  | none =>
    cases h : p.info.title with
    | none => rfl
    | some t => cases t <;> simp
  | some t =>
    cases t with
    | none => rfl
    | some t => cases t <;> simp

theorem titleOf_ne (p : Schema) : titleOf p ≠ some [] := by
  unfold titleOf
  cases p.info.refTitle.getD p.info.title with
  | none => simp
  | some t => simp

theorem itemKind_list (i : Schema) :
    match itemKind i with
    | .scalars t => listKind i = .column t
    | .objects => listKind i = .objects
    | .bad _ => listKind i = .refused := by
  cases i with
  | mk info props items one =>
  unfold itemKind listKind
  dsimp only
  simp only [List.contains_eq_mem, List.isEmpty_iff, Bool.or_eq_true, decide_eq_true_eq]
  by_cases h1 : s%"string" ∈ info.type.set ∨ info.type.set = []
  · have g1 : HasType (.mk info props items one) s%"string" ∨ Untyped (.mk info props items one) := h1
    simp only [if_pos h1, if_pos g1]
  · have g1 : ¬ (HasType (.mk info props items one) s%"string" ∨ Untyped (.mk info props items one)) := h1
    simp only [if_neg h1, if_neg g1]
    by_cases h2 : s%"number" ∈ info.type.set
    · have g2 : HasType (.mk info props items one) s%"number" := h2
      simp only [if_pos h2, if_pos g2]
    · have g2 : ¬ HasType (.mk info props items one) s%"number" := h2
      simp only [if_neg h2, if_neg g2]
      by_cases h3 : s%"array" ∈ info.type.set
      · have g3 : HasType (.mk info props items one) s%"array" := h3
        simp only [if_pos h3, if_pos g3]
        cases items with
        | none => rfl
        | some x =>
          cases x with
          | mk ni np nit no =>
          simp only [Schema.items]
          by_cases h4 : s%"string" ∈ ni.type.set ∨ s%"number" ∈ ni.type.set
          · have g4 : HasType (.mk ni np nit no) s%"string" ∨ HasType (.mk ni np nit no) s%"number" := h4
            simp only [if_pos h4, if_pos g4]
          · have g4 : ¬ (HasType (.mk ni np nit no) s%"string" ∨ HasType (.mk ni np nit no) s%"number") := h4
            simp only [if_neg h4, if_neg g4]
      · have g3 : ¬ HasType (.mk info props items one) s%"array" := h3
        simp only [if_neg h3, if_neg g3]
        by_cases h4 : s%"object" ∈ info.type.set
        · have g4 : HasType (.mk info props items one) s%"object" := h4
          simp only [if_pos h4, if_pos g4]
        · have g4 : ¬ HasType (.mk info props items one) s%"object" := h4
          simp only [if_neg h4, if_neg g4]

theorem listKind_objects {i : Schema} (h : listKind i = .objects) : HasType i s%"object" := by
  unfold listKind at h
  grind

theorem isOneOf_false {p : Schema} (h : HasType p s%"object") : isOneOfArray p.info p.items = false := by
  unfold isOneOfArray
  split
  · next ht _ =>
    simp only [HasType, typesOf, ht, List.mem_singleton] at h
    subst h; rfl
  · rfl

theorem kind_scalar {wkt : Bool} {p : Schema} (h1 : ¬ HasType p s%"object") (h2 : ¬ HasType p s%"array") :
    kind wkt p = match scalarType p.info with | some t => .column t | none => .nothing := by
  unfold kind
  rw [if_neg h1, if_neg h2]
  unfold scalarType
  dsimp only
  simp only [List.contains_eq_mem, List.isEmpty_iff, Bool.or_eq_true, decide_eq_true_eq]
  by_cases g1 : HasType p s%"string" ∨ Untyped p
  · have h1 : s%"string" ∈ p.info.type.set ∨ p.info.type.set = [] := g1
    simp only [if_pos h1, if_pos g1]
  · have h1 : ¬ (s%"string" ∈ p.info.type.set ∨ p.info.type.set = []) := g1
    simp only [if_neg h1, if_neg g1]
    by_cases g2 : HasType p s%"number"
    · have h2 : s%"number" ∈ p.info.type.set := g2
      simp only [if_pos h2, if_pos g2]
    · have h2 : s%"number" ∉ p.info.type.set := g2
      simp only [if_neg h2, if_neg g2]
      by_cases g3 : HasType p s%"integer"
      · have h3 : s%"integer" ∈ p.info.type.set := g3
        simp only [if_pos h3, if_pos g3]
      · have h3 : s%"integer" ∉ p.info.type.set := g3
        simp only [if_neg h3, if_neg g3]
        by_cases g4 : HasType p s%"boolean"
        · have h4 : s%"boolean" ∈ p.info.type.set := g4
          simp only [if_pos h4, if_pos g4]
        · have h4 : s%"boolean" ∉ p.info.type.set := g4
          simp only [if_neg h4, if_neg g4]

theorem isGeo_iff {cfg : SchemaCfg} {p : Schema} :
    isGeo cfg p.properties = true ↔ cfg.wkt = true ∧ s%"type" ∈ names p ∧ s%"coordinates" ∈ names p := by
  unfold isGeo names
  simp only [Bool.and_eq_true, Dict.has_iff, Dict.keys, and_assoc]

theorem skipped_iff {cfg : SchemaCfg} {p : Schema} :
    skipped cfg p.info = false ↔ (cfg.noDeprecated = true → ¬ Deprecated p) := by
  unfold skipped Deprecated
  cases cfg.noDeprecated <;> simp

/-! ### Events -/

/-- Something the parser adds. -/
inductive SEv where
  | sheet (nm : Str)
  | ids (nm f : Str)
  | col (nm c : Str)
  | type (k : Str) (t : CType)

def HasSheet (st : SState) (nm : Str) : Prop := ∃ sh, Dict.get st.subs nm = some sh
def HasCol (st : SState) (nm c : Str) : Prop := ∃ sh, Dict.get st.subs nm = some sh ∧ c ∈ sh.columns
def HasId (st : SState) (nm f : Str) : Prop := ∃ sh, Dict.get st.subs nm = some sh ∧ f ∈ sh.idColumns

/-- `st'` has what `st` has and what `E` says. -/
structure Tracks (st st' : SState) (E : SEv → Prop) : Prop where
  has : ∀ nm, HasSheet st' nm ↔ HasSheet st nm ∨ E (.sheet nm)
  col : ∀ nm c, HasCol st' nm c ↔ HasCol st nm c ∨ E (.col nm c)
  ids : ∀ nm f, HasId st' nm f ↔ HasId st nm f ∨ E (.ids nm f)
  typ : ∀ k t, Dict.get st'.flattened k = some t → Dict.get st.flattened k = some t ∨ E (.type k t)
  typ' : ∀ k, (Dict.get st'.flattened k).isSome ↔ (Dict.get st.flattened k).isSome ∨ ∃ t, E (.type k t)

theorem Tracks.refl {st : SState} : Tracks st st (fun _ => False) :=
  ⟨by simp, by simp, by simp, by simp, by simp⟩

theorem Tracks.same {st st' : SState} (h1 : st'.subs = st.subs) (h2 : st'.flattened = st.flattened) :
    Tracks st st' (fun _ => False) := by
  refine ⟨?_, ?_, ?_, ?_, ?_⟩ <;> simp [HasSheet, HasCol, HasId, h1, h2]

theorem Tracks.trans {st st1 st2 : SState} {E F : SEv → Prop} (h1 : Tracks st st1 E) (h2 : Tracks st1 st2 F) :
    Tracks st st2 (fun e => E e ∨ F e) := by
  refine ⟨?_, ?_, ?_, ?_, ?_⟩
  · intro nm; rw [h2.has, h1.has, or_assoc]
  · intro nm c; rw [h2.col, h1.col, or_assoc]
  · intro nm f; rw [h2.ids, h1.ids, or_assoc]
  · intro k t h
    rcases h2.typ k t h with h | h
    · rcases h1.typ k t h with h | h
      · exact .inl h
      · exact .inr (.inl h)
    · exact .inr (.inr h)
  · intro k; rw [h2.typ', h1.typ', or_assoc, exists_or]

theorem Tracks.congr {st st' : SState} {E F : SEv → Prop} (h : Tracks st st' E) (hEF : ∀ e, E e ↔ F e) : Tracks st st' F := by
  have : E = F := funext fun e => propext (hEF e)
  rwa [← this]

theorem Tracks.eqv {st st1 st2 : SState} {E : SEv → Prop} (h : Tracks st st1 E) (h1 : st2.subs = st1.subs)
    (h2 : st2.flattened = st1.flattened) : Tracks st st2 E :=
  (h.trans (Tracks.same h1 h2)).congr (fun e => or_iff_left id)

theorem tracks_setType (st : SState) (k : Str) (t : CType) : Tracks st (st.setType k t) (fun e => e = .type k t) := by
  refine ⟨?_, ?_, ?_, ?_, ?_⟩
  · intro nm; simp [HasSheet, SState.setType]
  · intro nm c; simp [HasCol, SState.setType]
  · intro nm c; simp [HasId, SState.setType]
  · intro k' t' h
    simp only [SState.setType, Dict.get_set] at h
    grind
  · intro k'
    simp only [SState.setType, Dict.get_set]
    by_cases hk : k = k'
    · simp [hk]
    · simp [hk]; intro h; exact absurd h.symm hk

theorem addField_cols (s : Sheet) (f c : Str) : c ∈ (s.addField f).columns ↔ c ∈ s.columns ∨ c = f := by
  unfold Sheet.addField; grind
theorem addField_ids (s : Sheet) (f : Str) : (s.addField f).idColumns = s.idColumns := by
  unfold Sheet.addField; grind
theorem addField_cols' (s : Sheet) (f : Str) : (s.addField f true).columns = s.columns := by
  unfold Sheet.addField; grind
theorem addField_ids' (s : Sheet) (f c : Str) : c ∈ (s.addField f true).idColumns ↔ c ∈ s.idColumns ∨ c = f := by
  unfold Sheet.addField; grind

theorem tracks_modCol {st : SState} {nm f : Str} (hs : HasSheet st nm) {g : Sheet → Sheet}
    (hc : ∀ s c, c ∈ (g s).columns ↔ c ∈ s.columns ∨ c = f) (hi : ∀ s, (g s).idColumns = s.idColumns) :
    Tracks st (st.modSub nm g) (fun e => e = .col nm f) := by
  obtain ⟨sh, hsh⟩ := hs
  have hm : st.modSub nm g = { st with subs := Dict.set st.subs nm (g sh) } := by
    unfold SState.modSub; rw [hsh]
  rw [hm]
  refine ⟨?_, ?_, ?_, ?_, ?_⟩
  · intro nm'
    simp only [HasSheet, Dict.get_set]
    by_cases h : nm = nm'
    · subst h; simp [hsh]
    · simp [h]
  · intro nm' c
    simp only [HasCol, Dict.get_set]
    by_cases h : nm = nm'
    · subst h; simp [hsh, hc]
    · simp [h]; intro h'; exact absurd h'.symm h
  · intro nm' c
    simp only [HasId, Dict.get_set]
    by_cases h : nm = nm'
    · subst h; simp [hsh, hi]
    · simp [h]
  · intro k t h; exact .inl h
  · intro k; simp

theorem tracks_modId {st : SState} {nm f : Str} (hs : HasSheet st nm) {g : Sheet → Sheet}
    (hc : ∀ s, (g s).columns = s.columns) (hi : ∀ s c, c ∈ (g s).idColumns ↔ c ∈ s.idColumns ∨ c = f) :
    Tracks st (st.modSub nm g) (fun e => e = .ids nm f) := by
  obtain ⟨sh, hsh⟩ := hs
  have hm : st.modSub nm g = { st with subs := Dict.set st.subs nm (g sh) } := by
    unfold SState.modSub; rw [hsh]
  rw [hm]
  refine ⟨?_, ?_, ?_, ?_, ?_⟩
  · intro nm'
    simp only [HasSheet, Dict.get_set]
    by_cases h : nm = nm'
    · subst h; simp [hsh]
    · simp [h]
  · intro nm' c
    simp only [HasCol, Dict.get_set]
    by_cases h : nm = nm'
    · subst h; simp [hsh, hc]
    · simp [h]
  · intro nm' c
    simp only [HasId, Dict.get_set]
    by_cases h : nm = nm'
    · subst h; simp [hsh, hi]
    · simp [h]; intro h'; exact absurd h'.symm h
  · intro k t h; exact .inl h
  · intro k; simp

theorem Tracks.hasSheet {st st' : SState} {E : SEv → Prop} (h : Tracks st st' E) {nm : Str} (hs : HasSheet st nm) :
    HasSheet st' nm := (h.has nm).2 (.inl hs)

theorem tracks_addIds (lk : TitleTree) (nm : Str) (ids : List Str) (st : SState) (hs : HasSheet st nm) :
    Tracks st (ids.foldl (addIdColumn lk nm) st) (fun e => ∃ f ∈ ids, e = .ids nm f) := by
  induction ids generalizing st with
  | nil => exact Tracks.refl.congr (by simp)
  | cons f r ih =>
    have h1 : Tracks st (addIdColumn lk nm st f) (fun e => e = .ids nm f) :=
      tracks_modId hs (fun s => addField_cols' s f) (fun s c => addField_ids' s f c)
    exact (h1.trans (ih _ (h1.hasSheet hs))).congr (by simp)

theorem tracks_open (cfg : SchemaCfg) (ctx : SCtx) (name : Str) (title : Option Str) (ids : List Str) (st : SState) :
    Tracks st (openSubSheet cfg ctx name title ids st).1
      (fun e => e = .sheet (subNameOf cfg ctx name title) ∨ ∃ f ∈ ids, e = .ids (subNameOf cfg ctx name title) f) ∧
    HasSheet (openSubSheet cfg ctx name title ids st).1 (subNameOf cfg ctx name title) := by
  have h0 : Tracks st (noteSubTitle cfg ctx name (subNameOf cfg ctx name title) st) (fun _ => False) := by
    apply Tracks.same <;> (unfold noteSubTitle; split <;> rfl)
  have h1 : ∀ (sub : Str) (st : SState), Tracks st (ensureSub cfg sub st) (fun e => e = .sheet sub) ∧
      HasSheet (ensureSub cfg sub st) sub := by
    intro sub st
    unfold ensureSub
    split
    · next hh =>
      have hs : HasSheet st sub := Option.isSome_iff_exists.1 (Dict.get_isSome_iff.2 (Dict.has_iff.1 hh))
      refine ⟨⟨?_, by simp, by simp, by simp, by simp⟩, hs⟩
      intro nm
      by_cases h : nm = sub
      · subst h; simp [hs]
      · simp [h]
    · next hn =>
      have hg : Dict.get st.subs sub = none := Dict.get_none_iff.2 (fun hc => hn (Dict.has_iff.2 hc))
      refine ⟨⟨?_, ?_, ?_, by simp, by simp⟩, ⟨_, Dict.get_set_same _ _ _⟩⟩
      · intro nm
        simp only [HasSheet, Dict.get_set]
        by_cases h : sub = nm
        · subst h; simp
        · simp [h]; intro h'; exact absurd h'.symm h
      · intro nm c
        simp only [HasCol, Dict.get_set]
        by_cases h : sub = nm
        · subst h; simp [hg]
        · simp [h]
      · intro nm c
        simp only [HasId, Dict.get_set]
        by_cases h : sub = nm
        · subst h; simp [hg]
        · simp [h]
  obtain ⟨h2, h3⟩ := h1 (subNameOf cfg ctx name title) (noteSubTitle cfg ctx name (subNameOf cfg ctx name title) st)
  have h4 := tracks_addIds (titleAt ctx.place st.lookup) (subNameOf cfg ctx name title) ids _ h3
  exact ⟨((h0.trans h2).trans h4).congr (by simp), h4.hasSheet h3⟩

/-! ### Fields of an array of objects -/

/-- The column of a sub-sheet for a yielded field. -/
inductive ColOf (cfg : SchemaCfg) (pp name : Str) (title pt : Option Str) (f : Str) (t : Option Str) : Str → Prop
  | plain : cfg.useTitles = false → ColOf cfg pp name title pt f t (pp ++ (name ++ (s%"/0/" ++ f)))
  | titled {p a b : Str} : cfg.useTitles = true → pt = some p → title = some a → t = some b →
      ColOf cfg pp name title pt f t (p ++ (a ++ ':' :: b))

/-- A title joined to a child title. -/
def joinTitles (a b : Option Str) : Option Str := a.bind (fun a => b.map (fun b => a ++ s%":" ++ b))

theorem tracks_arrayField (cfg : SchemaCfg) (pp name : Str) (title pt : Option Str) (sub : Str) (ru : Option (List Str))
    {st : SState} (hs : HasSheet st sub) (f : Str) (t : Option Str) (ht : t ≠ some []) :
    Tracks st (arrayField cfg pp name title pt sub ru st (f, t)).1
      (fun e => ∃ c, e = .col sub c ∧ ColOf cfg pp name title pt f t c) ∧
    ∀ g u, (g, u) ∈ (arrayField cfg pp name title pt sub ru st (f, t)).2 ↔
      cfg.rollup = true ∧ f ∈ ru.getD [] ∧ g = name ++ s%"/0/" ++ f ∧ u = joinTitles title t := by
  have hc : truthy t = t := by
    cases t with
    | none => rfl
    | some x => cases x with
      | nil => exact absurd rfl ht
      | cons a b => rfl
  have hj : titlePair title t = joinTitles title t := by
    cases title <;> cases t <;> simp [joinTitles, titlePair]
  unfold arrayField
  dsimp only
  rw [hc, hj]
  refine ⟨?_, ?_⟩
  · have key : Tracks st (addColumn cfg pp name title pt sub st f t)
        (fun e => ∃ c, e = .col sub c ∧ ColOf cfg pp name title pt f t c) := by
      clear hc hj ht
      unfold addColumn
      split
      · next hu =>
        split
        · next c p =>
          split
          · next a =>
            refine Tracks.congr (tracks_modCol (f := p ++ (a ++ ':' :: c)) (g := fun s => { s.addField (p ++ (a ++ ':' :: c)) with
              titles := Dict.set s.titles (pp ++ (name ++ (s%"/0/" ++ f))) (p ++ (a ++ ':' :: c)) })
              hs (fun s c => addField_cols s _ c) (fun s => addField_ids s _)) (fun e => ?_)
            constructor
            · intro h; exact ⟨_, h, .titled hu rfl rfl rfl⟩
            · rintro ⟨c', rfl, h⟩
              cases h with
              | plain h => simp [hu] at h
              | titled _ h1 h2 h3 => grind
          · refine Tracks.congr (Tracks.same (st' := st.warn _) rfl rfl) (fun e => ⟨False.elim, ?_⟩)
            rintro ⟨c', rfl, h⟩
            cases h <;> simp_all
        · next hno =>
          refine Tracks.congr (Tracks.same (st' := st.warn _) rfl rfl) (fun e => ⟨False.elim, ?_⟩)
          rintro ⟨c', rfl, h⟩
          cases h with
          | plain h => simp [hu] at h
          | titled _ h1 h2 h3 => exact hno _ _ h3 h1
      · next hu =>
        refine (tracks_modCol hs (fun s c => addField_cols s _ c) (fun s => addField_ids s _)).congr (fun e => ?_)
        constructor
        · intro h; exact ⟨_, h, .plain (by simpa using hu)⟩
        · rintro ⟨c', rfl, h⟩
          cases h with
          | plain _ => rfl
          | titled h _ _ _ => exact absurd h hu
    split
    · exact key.eqv rfl rfl
    · exact key
  · intro g u
    split
    · next h => simp at h; simp [h]
    · next h => simp at h; simp; intro h1 h2; exact absurd h2 (h h1)

theorem tracks_arrayFields (cfg : SchemaCfg) (pp name : Str) (title pt : Option Str) (sub : Str) (ru : Option (List Str))
    (ys : List Yield) {st : SState} (hs : HasSheet st sub) (hy : ∀ f t, (f, t) ∈ ys → t ≠ some []) :
    Tracks st (arrayFields cfg pp name title pt sub ru ys st).1
      (fun e => ∃ f t, (f, t) ∈ ys ∧ ∃ c, e = .col sub c ∧ ColOf cfg pp name title pt f t c) ∧
    ∀ g u, (g, u) ∈ (arrayFields cfg pp name title pt sub ru ys st).2 ↔
      ∃ f t, (f, t) ∈ ys ∧ cfg.rollup = true ∧ f ∈ ru.getD [] ∧ g = name ++ s%"/0/" ++ f ∧ u = joinTitles title t := by
  induction ys generalizing st with
  | nil => exact ⟨Tracks.refl.congr (by simp), by simp [arrayFields]⟩
  | cons y r ih =>
    obtain ⟨f, t⟩ := y
    obtain ⟨h1, h2⟩ := tracks_arrayField cfg pp name title pt sub ru hs f t (hy f t (by simp))
    obtain ⟨h3, h4⟩ := ih (h1.hasSheet hs) (fun f t h => hy f t (by simp [h]))
    refine ⟨?_, ?_⟩
    · refine (h1.trans h3).congr (fun e => ?_)
      constructor
      · rintro (⟨c, hc⟩ | ⟨f', t', hm, h⟩)
        · exact ⟨f, t, by simp, c, hc⟩
        · exact ⟨f', t', by simp [hm], h⟩
      · rintro ⟨f', t', hm, h⟩
        rcases List.mem_cons.1 hm with hm | hm
        · cases hm; exact .inl h
        · exact .inr ⟨f', t', hm, h⟩
    · intro g u
      rw [arrayFields]
      simp only [List.mem_append]
      rw [h2, h4]
      constructor
      · rintro (h | ⟨f', t', hm, h⟩)
        · exact ⟨f, t, by simp, h⟩
        · exact ⟨f', t', by simp [hm], h⟩
      · rintro ⟨f', t', hm, h⟩
        rcases List.mem_cons.1 hm with hm | hm
        · cases hm; exact .inl h
        · exact .inr ⟨f', t', hm, h⟩

/-! ### The whole -/

/-- What the property `n` adds by itself. -/
inductive LEv (cfg : SchemaCfg) (ctx : SCtx) (ids : List Str) (n : Str) (p : Schema) : SEv → Prop
  | typ {t : CType} : kind cfg.wkt p = .column t → LEv cfg ctx ids n p (.type (noIndex ctx.parentPath ++ n) t)
  | obj : kind cfg.wkt p = .object → LEv cfg ctx ids n p (.type (ctx.parentPath ++ n) .object)
  | arr : kind cfg.wkt p = .objects → LEv cfg ctx ids n p (.type (noIndex ctx.parentPath ++ n) .array)
  | sheet : kind cfg.wkt p = .objects → LEv cfg ctx ids n p (.sheet (subNameOf cfg ctx n (titleOf p)))
  | id {f : Str} : kind cfg.wkt p = .objects → f ∈ ids → LEv cfg ctx ids n p (.ids (subNameOf cfg ctx n (titleOf p)) f)
  | col {i : Schema} {f c : Str} {t : Option Str} : kind cfg.wkt p = .objects → p.items = some i → Shown cfg i f t →
      ColOf cfg ctx.parentPath n (titleOf p) ctx.parentTitle f t c →
      LEv cfg ctx ids n p (.col (subNameOf cfg ctx n (titleOf p)) c)

/-- The ids passed on below a schema. -/
def idsBelow (cfg : SchemaCfg) (ctx : SCtx) (s : Schema) : List Str := childIds cfg ctx (s.properties.getD [])

/-- What the schema adds. -/
inductive PEv (cfg : SchemaCfg) : SCtx → Schema → SEv → Prop
  | here {ctx : SCtx} {s p : Schema} {n : Str} {e : SEv} : Field cfg s n p → LEv cfg ctx (idsBelow cfg ctx s) n p e → PEv cfg ctx s e
  | object {ctx : SCtx} {s p : Schema} {n : Str} {e : SEv} : Field cfg s n p → kind cfg.wkt p = .object →
      PEv cfg (childCtx ctx (ctx.parentPath ++ n) (idsBelow cfg ctx s) (titleOf p)) p e → PEv cfg ctx s e
  | list {ctx : SCtx} {s p i : Schema} {n : Str} {e : SEv} : Field cfg s n p → kind cfg.wkt p = .objects → p.items = some i →
      PEv cfg (childCtx ctx (ctx.parentPath ++ (n ++ s%"/0")) (idsBelow cfg ctx s) (titleOf p)) i e → PEv cfg ctx s e

/-- What one property adds with everything below it. -/
inductive QEv (cfg : SchemaCfg) (ctx : SCtx) (ids : List Str) (n : Str) (p : Schema) : SEv → Prop
  | here {e : SEv} : LEv cfg ctx ids n p e → QEv cfg ctx ids n p e
  | object {e : SEv} : kind cfg.wkt p = .object →
      PEv cfg (childCtx ctx (ctx.parentPath ++ n) ids (titleOf p)) p e → QEv cfg ctx ids n p e
  | list {i : Schema} {e : SEv} : kind cfg.wkt p = .objects → p.items = some i →
      PEv cfg (childCtx ctx (ctx.parentPath ++ (n ++ s%"/0")) ids (titleOf p)) i e → QEv cfg ctx ids n p e

/-- What one property yields. -/
inductive QShown (cfg : SchemaCfg) (n : Str) (p : Schema) : Str → Option Str → Prop
  | own {t : CType} : kind cfg.wkt p = .column t → QShown cfg n p n (titleOf p)
  | inside {f : Str} {t : Option Str} : kind cfg.wkt p = .object → Shown cfg p f t →
      QShown cfg n p (n ++ s%"/" ++ f) (joinTitles (titleOf p) t)
  | rolled {i : Schema} {f : Str} {t : Option Str} {listed : List Str} : cfg.rollup = true → kind cfg.wkt p = .objects →
      p.items = some i → Shown cfg i f t → p.info.rollUp = some listed → f ∈ listed →
      QShown cfg n p (n ++ s%"/0/" ++ f) (joinTitles (titleOf p) t)

theorem shown_iff {cfg : SchemaCfg} {s : Schema} {f : Str} {t : Option Str} :
    Shown cfg s f t ↔ ∃ n p, Field cfg s n p ∧ QShown cfg n p f t := by
  constructor
  · intro h
    cases h with
    | own h1 h2 => exact ⟨_, _, h1, .own h2⟩
    | inside h1 h2 h3 => exact ⟨_, _, h1, .inside h2 h3⟩
    | rolled h0 h1 h2 h3 h4 h5 h6 => exact ⟨_, _, h1, .rolled h0 h2 h3 h4 h5 h6⟩
  · rintro ⟨n, p, h1, h⟩
    cases h with
    | own h2 => exact .own h1 h2
    | inside h2 h3 => exact .inside h1 h2 h3
    | rolled h0 h2 h3 h4 h5 h6 => exact .rolled h0 h1 h2 h3 h4 h5 h6

theorem pev_iff {cfg : SchemaCfg} {ctx : SCtx} {s : Schema} {e : SEv} :
    PEv cfg ctx s e ↔ ∃ n p, Field cfg s n p ∧ QEv cfg ctx (idsBelow cfg ctx s) n p e := by
  constructor
  · intro h
    cases h with
    | here h1 h2 => exact ⟨_, _, h1, .here h2⟩
    | object h1 h2 h3 => exact ⟨_, _, h1, .object h2 h3⟩
    | list h1 h2 h3 h4 => exact ⟨_, _, h1, .list h2 h3 h4⟩
  · rintro ⟨n, p, h1, h⟩
    cases h with
    | here h2 => exact .here h1 h2
    | object h2 h3 => exact .object h1 h2 h3
    | list h2 h3 h4 => exact .list h1 h2 h3 h4

theorem shown_title {cfg : SchemaCfg} {s : Schema} {f : Str} {t : Option Str} (h : Shown cfg s f t) : t ≠ some [] := by
  cases h with
  | own => exact titleOf_ne _
  | inside _ _ h =>
    intro hc
    simp [Option.bind_eq_some_iff] at hc
  | rolled =>
    intro hc
    simp [Option.bind_eq_some_iff] at hc

/-- The claim about a schema. -/
def Parses (cfg : SchemaCfg) (s : Schema) : Prop :=
  ∀ ctx st ys st', isOneOfArray s.info s.items = false → parseSchema cfg ctx s st = .ok (ys, st') →
    (∀ f t, (f, t) ∈ ys ↔ Shown cfg s f t) ∧ Tracks st st' (PEv cfg ctx s)

theorem kind_object {wkt : Bool} {p : Schema} (h : kind wkt p = .object) : HasType p s%"object" := by
  unfold kind listKind at h
  grind

theorem prop_ok {cfg : SchemaCfg} {p : Schema} (hp : Parses cfg p) (hi : ∀ i, p.items = some i → Parses cfg i)
    {ctx : SCtx} {ids : List Str} {n : Str} {st : SState} {ys : List Yield} {st' : SState}
    (h : parseProp cfg ctx ids n p st = .ok (ys, st')) :
    (∀ f t, (f, t) ∈ ys ↔ QShown cfg n p f t) ∧ Tracks st st' (QEv cfg ctx ids n p) := by
  obtain ⟨info, props, items, one⟩ := p
  have het := effTitle_eq (.mk info props items one)
  have hgeo := isGeo_iff (cfg := cfg) (p := .mk info props items one)
  simp only [Schema.info, Schema.properties] at het hgeo
  simp only [parseProp, List.contains_eq_mem, decide_eq_true_eq] at h
  rw [het] at h
  split at h
  · next ho =>
    have hobj : HasType (.mk info props items one) s%"object" := ho
    split at h
    · next hg =>
      have hk : kind cfg.wkt (.mk info props items one) = .column .geojson := by
        unfold kind
        rw [if_pos hobj, if_pos (hgeo.1 hg)]
      simp only [Except.ok.injEq, Prod.mk.injEq] at h
      rw [← h.1, ← h.2]
      refine ⟨fun f t => ?_, (tracks_setType _ _ _).congr (fun e => ?_)⟩
      · simp only [List.mem_singleton, Prod.mk.injEq]
        constructor
        · rintro ⟨rfl, rfl⟩; exact .own hk
        · intro h; cases h <;> simp_all
      · constructor
        · rintro rfl; exact .here (.typ hk)
        · intro h
          cases h with
          | here h => cases h <;> simp_all
          | object => simp_all
          | list => simp_all
    · next hg =>
      have hk : kind cfg.wkt (.mk info props items one) = .object := by
        unfold kind
        rw [if_pos hobj, if_neg (fun hc => hg (hgeo.2 hc))]
      obtain ⟨y1, st1, h1, h2⟩ := sThen_ok.1 h
      simp only [Except.ok.injEq, Prod.mk.injEq] at h2
      rw [← h2.1, ← h2.2]
      have hno := isOneOf_false hobj
      simp only [Schema.info, Schema.items] at hno
      have h3 : parseSchema cfg (childCtx ctx (ctx.parentPath ++ n) ids (titleOf (.mk info props items one)))
          (.mk info props items one) (st.setType (ctx.parentPath ++ n) .object) = .ok (y1, st1) := by
        rw [parseSchema]; exact h1
      obtain ⟨hs, ht⟩ := hp _ _ _ _ hno h3
      refine ⟨fun f t => ?_, ((tracks_setType _ _ _).trans ht).congr (fun e => ?_)⟩
      · rw [List.mem_map]
        have hoy : ∀ g u, u ≠ some [] → objYield n (titleOf (.mk info props items one)) (g, u) =
            (n ++ s%"/" ++ g, joinTitles (titleOf (.mk info props items one)) u) := by
          intro g u hu
          unfold objYield joinTitles
          cases titleOf (.mk info props items one) with
          | none => simp
          | some a =>
            cases u with
            | none => simp
            | some b =>
              cases b with
              | nil => exact absurd rfl hu
              | cons => simp
        constructor
        · rintro ⟨⟨g, u⟩, hm, he⟩
          have hsh := (hs g u).1 hm
          rw [hoy g u (shown_title hsh)] at he
          simp only [Prod.mk.injEq] at he
          rw [← he.1, ← he.2]
          exact .inside hk hsh
        · intro h
          cases h with
          | own h => simp [hk] at h
          | inside _ h => exact ⟨_, (hs _ _).2 h, hoy _ _ (shown_title h)⟩
          | rolled _ h => simp [hk] at h
      · constructor
        · rintro (rfl | h)
          · exact .here (.obj hk)
          · exact .object hk h
        · intro h
          cases h with
          | here h => cases h <;> simp_all
          | object _ h => exact .inr h
          | list h => simp [hk] at h
  · next ho =>
    have hobj : ¬ HasType (.mk info props items one) s%"object" := ho
    split at h
    · next ha =>
      have harr : HasType (.mk info props items one) s%"array" := ha
      cases items with
      | none => simp [parseArray] at h
      | some item =>
      have hk : kind cfg.wkt (.mk info props (some item) one) = listKind item := by
        unfold kind
        rw [if_neg hobj, if_pos harr]
        rfl
      have hik := itemKind_list item
      rw [parseArray] at h
      split at h
      · cases h
      · next t hit =>
        rw [hit] at hik
        dsimp only at hik
        rw [hik] at hk
        simp only [Except.ok.injEq, Prod.mk.injEq] at h
        rw [← h.1, ← h.2]
        refine ⟨fun f t => ?_, (tracks_setType _ _ _).congr (fun e => ?_)⟩
        · simp only [List.mem_singleton, Prod.mk.injEq, het]
          constructor
          · rintro ⟨rfl, rfl⟩; exact .own hk
          · intro h; cases h <;> simp_all
        · constructor
          · rintro rfl; exact .here (.typ hk)
          · intro h
            cases h with
            | here h => cases h <;> simp_all
            | object => simp_all
            | list => simp_all
      · next hit =>
        rw [hit] at hik
        dsimp only at hik
        rw [hik] at hk
        obtain ⟨y1, st1, h1, h2⟩ := sThen_ok.1 h
        simp only [Except.ok.injEq] at h2
        rw [het] at h1
        have hno := isOneOf_false (listKind_objects hik)
        obtain ⟨hs, ht⟩ := hi item rfl _ _ _ _ hno h1
        obtain ⟨ho1, ho2⟩ := tracks_open cfg ctx n (titleOf (.mk info props (some item) one)) ids (st.setType (noIndex ctx.parentPath ++ n) .array)
        obtain ⟨ha1, ha2⟩ := tracks_arrayFields cfg ctx.parentPath n (titleOf (.mk info props (some item) one)) ctx.parentTitle
          (subNameOf cfg ctx n (titleOf (.mk info props (some item) one))) info.rollUp y1 (ht.hasSheet ho2)
          (fun f t hm => shown_title ((hs f t).1 hm))
        simp only [finishArray, het, Prod.mk.injEq] at h2
        rw [← h2.1]
        refine ⟨fun f t => ?_, ?_⟩
        · rw [ha2]
          constructor
          · rintro ⟨g, u, hm, hr, hl, rfl, rfl⟩
            cases hru : info.rollUp with
            | none => simp [hru] at hl
            | some l =>
              rw [hru] at hl
              exact .rolled hr hk rfl ((hs _ _).1 hm) hru hl
          · intro h
            cases h with
            | own h => simp [hk] at h
            | inside h => simp [hk] at h
            | rolled hr _ hit h hru hl =>
              cases hit
              exact ⟨_, _, (hs _ _).2 h, hr, by simp only [Schema.info] at hru; simp [hru, hl], rfl, rfl⟩
        · have hlast : ∀ st2, Tracks st2 (checkRollUp cfg info y1 st2) (fun _ => False) := by
            intro st2; unfold checkRollUp; dsimp only; split <;> exact Tracks.same rfl rfl
          rw [← h2.2]
          refine (((((tracks_setType _ _ _).trans ho1).trans ht).trans ha1).trans (hlast _)).congr (fun e => ?_)
          constructor
          · rintro ((((rfl | (rfl | ⟨f, hf, rfl⟩)) | h) | ⟨f, t, hm, c, rfl, hc⟩) | h)
            · exact .here (.arr hk)
            · exact .here (.sheet hk)
            · exact .here (.id hk hf)
            · exact .list hk rfl h
            · exact .here (.col hk rfl ((hs _ _).1 hm) hc)
            · exact h.elim
          · intro h
            cases h with
            | here h =>
              cases h with
              | typ h => simp [hk] at h
              | obj h => simp [hk] at h
              | arr => exact .inl (.inl (.inl (.inl rfl)))
              | sheet => exact .inl (.inl (.inl (.inr (.inl rfl))))
              | id _ h => exact .inl (.inl (.inl (.inr (.inr ⟨_, h, rfl⟩))))
              | col _ hit h hc =>
                cases hit
                exact .inl (.inr ⟨_, _, (hs _ _).2 h, _, rfl, hc⟩)
            | object h => simp [hk] at h
            | list _ hit h => cases hit; exact .inl (.inl (.inr h))
    · next ha =>
      have harr : ¬ HasType (.mk info props items one) s%"array" := ha
      have hk := kind_scalar (wkt := cfg.wkt) hobj harr
      simp only [Schema.info] at hk
      simp only [Except.ok.injEq] at h
      unfold parseScalar at h
      split at h
      · next t hst =>
        rw [hst] at hk
        dsimp only at hk
        simp only [Prod.mk.injEq] at h
        rw [← h.1, ← h.2]
        refine ⟨fun f t => ?_, (tracks_setType _ _ _).congr (fun e => ?_)⟩
        · simp only [List.mem_singleton, Prod.mk.injEq, het]
          constructor
          · rintro ⟨rfl, rfl⟩; exact .own hk
          · intro h; cases h <;> simp_all
        · constructor
          · rintro rfl; exact .here (.typ hk)
          · intro h
            cases h with
            | here h => cases h <;> simp_all
            | object => simp_all
            | list => simp_all
      · next hst =>
        rw [hst] at hk
        dsimp only at hk
        simp only [Prod.mk.injEq] at h
        rw [← h.1, ← h.2]
        refine ⟨fun f t => ?_, Tracks.congr (Tracks.same (st' := st.warn _) rfl rfl) (fun e => ?_)⟩
        · simp only [List.not_mem_nil, false_iff]
          intro h; cases h <;> simp_all
        · simp only [false_iff]
          intro h
          cases h with
          | here h => cases h <;> simp_all
          | object => simp_all
          | list => simp_all

theorem props_ok {cfg : SchemaCfg} {ctx : SCtx} {ids : List Str} (ps : List (Str × Schema))
    (hp : ∀ n p, (n, p) ∈ ps → Parses cfg p ∧ ∀ i, p.items = some i → Parses cfg i)
    {st : SState} {ys : List Yield} {st' : SState} (h : parseProps cfg ctx ids ps st = .ok (ys, st')) :
    (∀ f t, (f, t) ∈ ys ↔ ∃ n p, ((n, p) ∈ ps ∧ (cfg.noDeprecated = true → ¬ Deprecated p)) ∧ QShown cfg n p f t) ∧
    Tracks st st' (fun e => ∃ n p, ((n, p) ∈ ps ∧ (cfg.noDeprecated = true → ¬ Deprecated p)) ∧ QEv cfg ctx ids n p e) := by
  induction ps generalizing st ys st' with
  | nil =>
    simp only [parseProps, Except.ok.injEq, Prod.mk.injEq] at h
    rw [← h.1, ← h.2]
    exact ⟨by simp, Tracks.refl.congr (by simp)⟩
  | cons x r ih =>
    obtain ⟨n, p⟩ := x
    replace ih := fun st ys st' => @ih (fun n p hm => hp n p (by simp [hm])) st ys st'
    simp only [parseProps] at h
    split at h
    · next hsk =>
      have hd : ¬ (cfg.noDeprecated = true → ¬ Deprecated p) := fun hc => by
        rw [skipped_iff.2 hc] at hsk; cases hsk
      obtain ⟨h1, h2⟩ := ih _ _ _ h
      refine ⟨fun f t => (h1 f t).trans ?_, h2.congr (fun e => ?_)⟩
      · constructor
        · rintro ⟨n', p', ⟨hm, hd'⟩, hq⟩; exact ⟨n', p', ⟨by simp [hm], hd'⟩, hq⟩
        · rintro ⟨n', p', ⟨hm, hd'⟩, hq⟩
          rcases List.mem_cons.1 hm with hm | hm
          · cases hm; exact absurd hd' hd
          · exact ⟨n', p', ⟨hm, hd'⟩, hq⟩
      · constructor
        · rintro ⟨n', p', ⟨hm, hd'⟩, hq⟩; exact ⟨n', p', ⟨by simp [hm], hd'⟩, hq⟩
        · rintro ⟨n', p', ⟨hm, hd'⟩, hq⟩
          rcases List.mem_cons.1 hm with hm | hm
          · cases hm; exact absurd hd' hd
          · exact ⟨n', p', ⟨hm, hd'⟩, hq⟩
    · next hsk =>
      have hd := skipped_iff.1 (by simpa using hsk)
      obtain ⟨y1, st1, h1, h2⟩ := sThen_ok.1 h
      obtain ⟨y2, st2, h3, h4⟩ := sThen_ok.1 h2
      simp only [Except.ok.injEq, Prod.mk.injEq] at h4
      rw [← h4.1, ← h4.2]
      obtain ⟨hpp, hpi⟩ := hp n p (by simp)
      obtain ⟨a1, a2⟩ := prop_ok hpp hpi h1
      obtain ⟨b1, b2⟩ := ih _ _ _ h3
      have hn : Tracks st (noteTitle ctx n p.info st) (fun _ => False) := by
        apply Tracks.same <;> (unfold noteTitle; split <;> rfl)
      refine ⟨fun f t => ?_, ((hn.trans a2).trans b2).congr (fun e => ?_)⟩
      · rw [List.mem_append, a1, b1]
        constructor
        · rintro (hq | ⟨n', p', ⟨hm, hd'⟩, hq⟩)
          · exact ⟨n, p, ⟨by simp, hd⟩, hq⟩
          · exact ⟨n', p', ⟨by simp [hm], hd'⟩, hq⟩
        · rintro ⟨n', p', ⟨hm, hd'⟩, hq⟩
          rcases List.mem_cons.1 hm with hm | hm
          · cases hm; exact .inl hq
          · exact .inr ⟨n', p', ⟨hm, hd'⟩, hq⟩
      · constructor
        · rintro ((hf | hq) | ⟨n', p', ⟨hm, hd'⟩, hq⟩)
          · exact hf.elim
          · exact ⟨n, p, ⟨by simp, hd⟩, hq⟩
          · exact ⟨n', p', ⟨by simp [hm], hd'⟩, hq⟩
        · rintro ⟨n', p', ⟨hm, hd'⟩, hq⟩
          rcases List.mem_cons.1 hm with hm | hm
          · cases hm; exact .inl (.inr hq)
          · exact .inr ⟨n', p', ⟨hm, hd'⟩, hq⟩

theorem parses (cfg : SchemaCfg) (s : Schema) : Parses cfg s := by
  suffices h : Parses cfg s ∧ ∀ i, s.items = some i → Parses cfg i from h.1
  induction s using Schema.ind with
  | h info props items one ih1 ih2 =>
  refine ⟨?_, fun i hi => (ih2 i hi).1⟩
  intro ctx st ys st' hno h
  simp only [Schema.info, Schema.items] at hno
  simp only [parseSchema, hno] at h
  cases props with
  | none =>
    simp only [parseBody, if_neg Bool.false_ne_true, Except.ok.injEq, Prod.mk.injEq] at h
    rw [← h.1, ← h.2]
    refine ⟨fun f t => ?_, Tracks.congr (Tracks.same (st' := st.warn _) rfl rfl) (fun e => ?_)⟩
    · rw [shown_iff]; simp [Field, Schema.properties]
    · rw [pev_iff]; simp [Field, Schema.properties]
  | some ps =>
    simp only [parseBody, if_neg Bool.false_ne_true] at h
    obtain ⟨h1, h2⟩ := props_ok ps ih1 h
    exact ⟨fun f t => (h1 f t).trans (shown_iff (s := .mk info (some ps) items one)).symm,
      h2.congr (fun e => (pev_iff (s := .mk info (some ps) items one)).symm)⟩

/-- The parser at the root. -/
theorem parseSchema_root {cfg : SchemaCfg} {s : Schema} {ys : List Yield} {st' : SState}
    (h : parseSchema cfg {} s {} = .ok (ys, st')) :
    (∀ f t, (f, t) ∈ ys ↔ ∃ r, Starts s r ∧ Shown cfg r f t) ∧
    Tracks {} st' (fun e => ∃ r, Starts s r ∧ PEv cfg {} r e) := by
  obtain ⟨info, props, items, one⟩ := s
  by_cases hno : isOneOfArray info items = true
  · have hst : ∃ alts ia ip ii, items = some (.mk ia ip ii (some alts)) ∧
        ∀ r, Starts (.mk info props items one) r ↔ r ∈ alts ∧ r.info.type = .one s%"object" := by
      unfold isOneOfArray at hno
      split at hno
      · next t ia ip ii alts hty =>
        refine ⟨alts, ia, ip, ii, rfl, fun r => ?_⟩
        simp only [decide_eq_true_eq] at hno
        subst hno
        simp only [Starts, Schema.info, Schema.items, hty, if_true]
      · cases hno
    obtain ⟨alts, ia, ip, ii, rfl, hs⟩ := hst
    rw [parseSchema, if_pos hno, parseItemsOneOf] at h
    dsimp only at h
    have key : ∀ (alts : List Schema) (st : SState) (ys : List Yield) (st' : SState), parseAlts cfg {} alts st = .ok (ys, st') →
        (∀ f t, (f, t) ∈ ys ↔ ∃ r, (r ∈ alts ∧ r.info.type = .one s%"object") ∧ Shown cfg r f t) ∧
        Tracks st st' (fun e => ∃ r, (r ∈ alts ∧ r.info.type = .one s%"object") ∧ PEv cfg {} r e) := by
      intro alts
      induction alts with
      | nil =>
        intro st ys st' h
        simp only [parseAlts, Except.ok.injEq, Prod.mk.injEq] at h
        rw [← h.1, ← h.2]
        exact ⟨by simp, Tracks.refl.congr (by simp)⟩
      | cons a r ih =>
        intro st ys st' h
        rw [parseAlts] at h
        split at h
        · next hty =>
          obtain ⟨y1, st1, h1, h2⟩ := sThen_ok.1 h
          obtain ⟨y2, st2, h3, h4⟩ := sThen_ok.1 h2
          simp only [Except.ok.injEq, Prod.mk.injEq] at h4
          rw [← h4.1, ← h4.2]
          have hobj : HasType a s%"object" := by simp [HasType, typesOf, hty]
          obtain ⟨a1, a2⟩ := parses cfg a _ _ _ _ (isOneOf_false hobj) h1
          obtain ⟨b1, b2⟩ := ih _ _ _ h3
          refine ⟨fun f t => ?_, (a2.trans b2).congr (fun e => ?_)⟩
          · rw [List.mem_append, a1, b1]
            constructor
            · rintro (hq | ⟨x, ⟨hm, hd'⟩, hq⟩)
              · exact ⟨a, ⟨by simp, hty⟩, hq⟩
              · exact ⟨x, ⟨by simp [hm], hd'⟩, hq⟩
            · rintro ⟨x, ⟨hm, hd'⟩, hq⟩
              rcases List.mem_cons.1 hm with hm | hm
              · cases hm; exact .inl hq
              · exact .inr ⟨x, ⟨hm, hd'⟩, hq⟩
          · constructor
            · rintro (hq | ⟨x, ⟨hm, hd'⟩, hq⟩)
              · exact ⟨a, ⟨by simp, hty⟩, hq⟩
              · exact ⟨x, ⟨by simp [hm], hd'⟩, hq⟩
            · rintro ⟨x, ⟨hm, hd'⟩, hq⟩
              rcases List.mem_cons.1 hm with hm | hm
              · cases hm; exact .inl hq
              · exact .inr ⟨x, ⟨hm, hd'⟩, hq⟩
        · next hty =>
          obtain ⟨b1, b2⟩ := ih _ _ _ h
          refine ⟨fun f t => (b1 f t).trans ?_, b2.congr (fun e => ?_)⟩
          · constructor
            · rintro ⟨x, ⟨hm, hd'⟩, hq⟩; exact ⟨x, ⟨by simp [hm], hd'⟩, hq⟩
            · rintro ⟨x, ⟨hm, hd'⟩, hq⟩
              rcases List.mem_cons.1 hm with hm | hm
              · cases hm; exact absurd hd' hty
              · exact ⟨x, ⟨hm, hd'⟩, hq⟩
          · constructor
            · rintro ⟨x, ⟨hm, hd'⟩, hq⟩; exact ⟨x, ⟨by simp [hm], hd'⟩, hq⟩
            · rintro ⟨x, ⟨hm, hd'⟩, hq⟩
              rcases List.mem_cons.1 hm with hm | hm
              · cases hm; exact absurd hd' hty
              · exact ⟨x, ⟨hm, hd'⟩, hq⟩
    obtain ⟨k1, k2⟩ := key _ _ _ _ h
    refine ⟨fun f t => (k1 f t).trans ?_, k2.congr (fun e => ?_)⟩
    · simp only [hs]
    · simp only [hs]
  · have hno' : isOneOfArray info items = false := by simpa using hno
    obtain ⟨h1, h2⟩ := parses cfg (.mk info props items one) _ _ _ _ hno' h
    have hs : ∀ r, Starts (.mk info props items one) r ↔ r = .mk info props items one := by
      intro r
      unfold Starts
      simp only [Schema.info, Schema.items]
      split
      · next ht =>
        simp only [isOneOfArray, ht, decide_eq_false_iff_not] at hno'
        rw [if_neg hno']
      · exact Iff.rfl
    refine ⟨fun f t => (h1 f t).trans (by simp [hs]), h2.congr (fun e => by simp [hs])⟩

end Verif
