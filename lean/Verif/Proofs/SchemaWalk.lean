import Verif.Proofs.SchemaTrails
/-! Invariants of the schema parser that depend on the place in the schema. -/
namespace Verif
open Spec

/-- `I` is kept by what the parser does at the places `C` (a context and the schema parsed there). -/
structure Walk (cfg : SchemaCfg) (C : SCtx → Schema → Prop) (I : SState → Prop) : Prop where
  object : ∀ {ctx s n p}, C ctx s → Field cfg s n p → kind cfg.wkt p = .object →
    C (childCtx ctx (ctx.parentPath ++ n) (idsBelow cfg ctx s) (titleOf p)) p
  list : ∀ {ctx s n p i}, C ctx s → Field cfg s n p → kind cfg.wkt p = .objects → p.items = some i →
    C (childCtx ctx (ctx.parentPath ++ (n ++ s%"/0")) (idsBelow cfg ctx s) (titleOf p)) i
  title : ∀ {ctx s n p st}, C ctx s → Field cfg s n p → I st → I (noteTitle ctx n p.info st)
  type : ∀ {st k t}, I st → I (st.setType k t)
  warn : ∀ {st w}, I st → I (st.warn w)
  opened : ∀ {ctx s n p st}, C ctx s → Field cfg s n p → kind cfg.wkt p = .objects → I st →
    I (openSubSheet cfg ctx n (titleOf p) (idsBelow cfg ctx s) st).1
  column : ∀ {ctx s n p i f t st}, C ctx s → Field cfg s n p → kind cfg.wkt p = .objects → p.items = some i → Shown cfg i f t → I st →
    I (arrayField cfg ctx.parentPath n (titleOf p) ctx.parentTitle (subNameOf cfg ctx n (titleOf p)) p.info.rollUp st (f, t)).1

/-- Parsing the schema keeps the invariant. -/
def Walks (cfg : SchemaCfg) (C : SCtx → Schema → Prop) (I : SState → Prop) (s : Schema) : Prop :=
  ∀ ctx st ys st', isOneOfArray s.info s.items = false → C ctx s → I st → parseSchema cfg ctx s st = .ok (ys, st') → I st'

theorem walk_columns {cfg : SchemaCfg} {C : SCtx → Schema → Prop} {I : SState → Prop} (w : Walk cfg C I) {ctx : SCtx} {s p i : Schema} {n : Str}
    (hC : C ctx s) (hf : Field cfg s n p) (hk : kind cfg.wkt p = .objects) (hi : p.items = some i) (ys : List Yield)
    (hy : ∀ f t, (f, t) ∈ ys → Shown cfg i f t) {st : SState} (h : I st) :
    I (arrayFields cfg ctx.parentPath n (titleOf p) ctx.parentTitle (subNameOf cfg ctx n (titleOf p)) p.info.rollUp ys st).1 := by
  induction ys generalizing st with
  | nil => exact h
  | cons y r ih =>
    obtain ⟨f, t⟩ := y
    exact ih (fun f t hm => hy f t (by simp [hm])) (w.column hC hf hk hi (hy f t (by simp)) h)

theorem walk_prop {cfg : SchemaCfg} {C : SCtx → Schema → Prop} {I : SState → Prop} (w : Walk cfg C I) {s p : Schema} (hp : Walks cfg C I p)
    (hi : ∀ i, p.items = some i → Walks cfg C I i) {ctx : SCtx} {n : Str} (hC : C ctx s) (hf : Field cfg s n p) {st : SState} {ys : List Yield} {st' : SState}
    (h : parseProp cfg ctx (idsBelow cfg ctx s) n p st = .ok (ys, st')) (hI : I st) : I st' := by
  obtain ⟨info, props, items, one⟩ := p
  have het := effTitle_eq (.mk info props items one)
  have hgeo := isGeo_iff (cfg := cfg) (p := .mk info props items one)
  simp only [Schema.info, Schema.properties] at het hgeo
  simp only [parseProp, List.contains_eq_mem, decide_eq_true_eq] at h
  rw [het] at h
  split at h
  · next ho =>
    have hobj : HasType (.mk info props items one) s%"object" := ho
    split at h
    · simp only [Except.ok.injEq, Prod.mk.injEq] at h
      rw [← h.2]
      exact w.type hI
    · next hg =>
      have hk : kind cfg.wkt (.mk info props items one) = .object := by
        unfold kind
        rw [if_pos hobj, if_neg (fun hc => hg (hgeo.2 hc))]
      obtain ⟨y1, st1, h1, h2⟩ := sThen_ok.1 h
      simp only [Except.ok.injEq, Prod.mk.injEq] at h2
      rw [← h2.2]
      have hno := isOneOf_false hobj
      have h3 : parseSchema cfg (childCtx ctx (ctx.parentPath ++ n) (idsBelow cfg ctx s) (titleOf (.mk info props items one)))
          (.mk info props items one) (st.setType (ctx.parentPath ++ n) .object) = .ok (y1, st1) := by
        rw [parseSchema]; exact h1
      exact hp _ _ _ _ hno (w.object hC hf hk) (w.type hI) h3
  · next ho =>
    have hobj : ¬ HasType (.mk info props items one) s%"object" := ho
    split at h
    · next haa =>
      have harr : HasType (.mk info props items one) s%"array" := haa
      cases items with
      | none => simp [parseArray] at h
      | some item =>
      have hk : kind cfg.wkt (.mk info props (some item) one) = listKind item := by
        unfold kind
        rw [if_neg hobj, if_pos harr]
        rfl
      have hik := itemKind_list item
      rw [parseArray] at h
      split at h
      · cases h
      · simp only [Except.ok.injEq, Prod.mk.injEq] at h
        rw [← h.2]
        exact w.type hI
      · next hit =>
        rw [hit] at hik
        dsimp only at hik
        rw [hik] at hk
        obtain ⟨y1, st1, h1, h2⟩ := sThen_ok.1 h
        simp only [Except.ok.injEq] at h2
        rw [het] at h1
        have hno := isOneOf_false (listKind_objects hik)
        have hsh := (parses cfg item _ _ _ _ hno h1).1
        have h3 := hi item rfl _ _ _ _ hno (w.list hC hf hk rfl) (w.opened hC hf hk (w.type hI)) h1
        have h4 := walk_columns w hC hf hk rfl y1 (fun f t hm => (hsh f t).1 hm) h3
        have e : st' = (finishArray cfg ctx n info y1 st1).2 := by rw [h2]
        rw [e]
        unfold finishArray checkRollUp
        dsimp only
        rw [het]
        split
        · exact w.warn h4
        · exact h4
    · simp only [Except.ok.injEq] at h
      unfold parseScalar at h
      split at h
      · simp only [Prod.mk.injEq] at h; rw [← h.2]; exact w.type hI
      · simp only [Prod.mk.injEq] at h; rw [← h.2]; exact w.warn hI

theorem walk_props {cfg : SchemaCfg} {C : SCtx → Schema → Prop} {I : SState → Prop} (w : Walk cfg C I) {s : Schema} {ctx : SCtx} (hC : C ctx s)
    (ps : List (Str × Schema)) (hm : ∀ x ∈ ps, x ∈ s.properties.getD [])
    (hp : ∀ n p, (n, p) ∈ ps → Walks cfg C I p ∧ ∀ i, p.items = some i → Walks cfg C I i)
    {st : SState} {ys : List Yield} {st' : SState} (h : parseProps cfg ctx (idsBelow cfg ctx s) ps st = .ok (ys, st')) (hI : I st) : I st' := by
  induction ps generalizing st ys st' with
  | nil =>
    simp only [parseProps, Except.ok.injEq, Prod.mk.injEq] at h
    rw [← h.2]; exact hI
  | cons x r ih =>
    obtain ⟨n, p⟩ := x
    replace ih := fun st ys st' => @ih (fun x hx => hm x (by simp [hx])) (fun n p hm => hp n p (by simp [hm])) st ys st'
    simp only [parseProps] at h
    split at h
    · exact ih _ _ _ h hI
    · next hsk =>
      have hf : Field cfg s n p := ⟨hm _ (by simp), skipped_iff.1 (by simpa using hsk)⟩
      obtain ⟨y1, st1, h1, h2⟩ := sThen_ok.1 h
      obtain ⟨y2, st2, h3, h4⟩ := sThen_ok.1 h2
      simp only [Except.ok.injEq, Prod.mk.injEq] at h4
      rw [← h4.2]
      obtain ⟨hpp, hpi⟩ := hp n p (by simp)
      exact ih _ _ _ h3 (walk_prop w hpp hpi hC hf h1 (w.title hC hf hI))

theorem walks {cfg : SchemaCfg} {C : SCtx → Schema → Prop} {I : SState → Prop} (w : Walk cfg C I) (s : Schema) : Walks cfg C I s := by
  suffices h : Walks cfg C I s ∧ ∀ i, s.items = some i → Walks cfg C I i from h.1
  induction s using Schema.ind with
  | h info props items one ih1 ih2 =>
  refine ⟨?_, fun i hi => (ih2 i hi).1⟩
  intro ctx st ys st' hno hC hI h
  simp only [Schema.info, Schema.items] at hno
  simp only [parseSchema, hno] at h
  cases props with
  | none =>
    simp only [parseBody, if_neg Bool.false_ne_true, Except.ok.injEq, Prod.mk.injEq] at h
    rw [← h.2]
    exact w.warn hI
  | some ps =>
    simp only [parseBody, if_neg Bool.false_ne_true] at h
    exact walk_props w hC ps (fun _ hx => hx) ih1 h hI

/-! ### What is certainly done -/

/-- The title of every array of objects that is reached is noted, and `I` holds since. -/
def Notes (cfg : SchemaCfg) (s : Schema) : Prop :=
  ∀ ctx st ys st' steps q n p, isOneOfArray s.info s.items = false → parseSchema cfg ctx s st = .ok (ys, st') → Trail cfg s steps q → Field cfg q n p →
    kind cfg.wkt p = .objects → cfg.useTitles = true → (ctxAt cfg ctx s steps).parentTitle ≠ none →
    ((ctxAt cfg ctx s steps).parentPath, n) ∈ Dict.keys st'.subTitles

theorem subTitles_modSub (st : SState) (n : Str) (f : Sheet → Sheet) : (st.modSub n f).subTitles = st.subTitles := by
  unfold SState.modSub; split <;> rfl

theorem subTitles_addIds (lk : TitleTree) (sub : Str) (ids : List Str) (st : SState) :
    (ids.foldl (addIdColumn lk sub) st).subTitles = st.subTitles := by
  induction ids generalizing st with
  | nil => rfl
  | cons f r ih => rw [List.foldl_cons, ih]; exact subTitles_modSub _ _ _

theorem subTitles_open (cfg : SchemaCfg) (ctx : SCtx) (name : Str) (title : Option Str) (ids : List Str) (st : SState) :
    (openSubSheet cfg ctx name title ids st).1.subTitles = (noteSubTitle cfg ctx name (subNameOf cfg ctx name title) st).subTitles := by
  unfold openSubSheet
  rw [subTitles_addIds]
  unfold ensureSub
  split <;> rfl

theorem subTitles_addColumn (cfg : SchemaCfg) (pp name : Str) (title pt : Option Str) (sub : Str) (st : SState) (f : Str) (c : Option Str) :
    (addColumn cfg pp name title pt sub st f c).subTitles = st.subTitles := by
  unfold addColumn
  split
  · split
    · split
      · exact subTitles_modSub _ _ _
      · rfl
    · rfl
  · exact subTitles_modSub _ _ _

theorem subTitles_arrayField (cfg : SchemaCfg) (pp name : Str) (title pt : Option Str) (sub : Str) (ru : Option (List Str)) (st : SState) (y : Yield) :
    (arrayField cfg pp name title pt sub ru st y).1.subTitles = st.subTitles := by
  unfold arrayField
  dsimp only
  split <;> exact subTitles_addColumn _ _ _ _ _ _ _ _ _

theorem walk_noted (cfg : SchemaCfg) (k : Str × Str) : Walk cfg (fun _ _ => True) (fun st => k ∈ Dict.keys st.subTitles) where
  object := fun _ _ _ => trivial
  list := fun _ _ _ _ => trivial
  title := fun _ _ h => by unfold noteTitle; split <;> exact h
  type := fun h => h
  warn := fun h => h
  opened := fun _ _ _ h => by
    rw [subTitles_open]
    unfold noteSubTitle
    split
    · exact Dict.mem_keys_set.2 (.inr h)
    · exact h
  column := fun _ _ _ _ _ h => by rw [subTitles_arrayField]; exact h

theorem notes (cfg : SchemaCfg) (s : Schema) : Notes cfg s := by
  suffices h : Notes cfg s ∧ ∀ i, s.items = some i → Notes cfg i from h.1
  induction s using Schema.ind with
  | h info props items one ih1 ih2 =>
  refine ⟨?_, fun i hi => (ih2 i hi).1⟩
  intro ctx st ys st' steps q n p hno h ht hf hk hu hpt
  simp only [Schema.info, Schema.items] at hno
  simp only [parseSchema, hno] at h
  cases props with
  | none =>
    exfalso
    cases ht with
    | here => simp [Field, Schema.properties] at hf
    | object h1 => simp [Field, Schema.properties] at h1
    | list h1 => simp [Field, Schema.properties] at h1
  | some ps =>
    simp only [parseBody, if_neg Bool.false_ne_true] at h
    -- the first property on the way
    have hw := walks (walk_noted cfg ((ctxAt cfg ctx (.mk info (some ps) items one) steps).parentPath, n))
    have visit : ∀ (ps' : List (Str × Schema)), (∀ x ∈ ps', x ∈ ps) → ∀ (st : SState) (ys : List Yield) (m : Str) (x : Schema), (m, x) ∈ ps' →
        (cfg.noDeprecated = true → ¬ Deprecated x) →
        (∀ stA ysA stB, parseProp cfg ctx (idsBelow cfg ctx (.mk info (some ps) items one)) m x stA = .ok (ysA, stB) →
          ((ctxAt cfg ctx (.mk info (some ps) items one) steps).parentPath, n) ∈ Dict.keys stB.subTitles) →
        parseProps cfg ctx (idsBelow cfg ctx (.mk info (some ps) items one)) ps' st = .ok (ys, st') →
        ((ctxAt cfg ctx (.mk info (some ps) items one) steps).parentPath, n) ∈ Dict.keys st'.subTitles := by
      intro ps'
      induction ps' with
      | nil => intro _ st ys m x hm; cases hm
      | cons y r ih =>
        intro hsub st ys m x hm hd hv hps
        obtain ⟨m', x'⟩ := y
        have hsub' : ∀ x ∈ r, x ∈ ps := fun x hx => hsub x (by simp [hx])
        simp only [parseProps] at hps
        split at hps
        · next hsk =>
          rcases List.mem_cons.1 hm with hm | hm
          · cases hm
            rw [skipped_iff.2 hd] at hsk; cases hsk
          · exact ih hsub' _ _ _ _ hm hd hv hps
        · obtain ⟨y1, st1, h1, h2⟩ := sThen_ok.1 hps
          obtain ⟨y2, st2, h3, h4⟩ := sThen_ok.1 h2
          simp only [Except.ok.injEq, Prod.mk.injEq] at h4
          rw [h4.2] at h3
          rcases List.mem_cons.1 hm with hm | hm
          · cases hm
            exact walk_props (s := .mk info (some ps) items one) (walk_noted cfg _) trivial r hsub' (fun n p _ => ⟨hw p, fun i _ => hw i⟩) h3 (hv _ _ _ h1)
          · exact ih hsub' _ _ _ _ hm hd hv h3
    have array : ∀ (m : Str) (x i : Schema) (stA : SState) (ysA : List Yield) (stB : SState), kind cfg.wkt x = .objects → x.items = some i →
        parseProp cfg ctx (idsBelow cfg ctx (.mk info (some ps) items one)) m x stA = .ok (ysA, stB) →
        ∃ st0 ys1 st1, parseSchema cfg (childCtx ctx (ctx.parentPath ++ (m ++ s%"/0")) (idsBelow cfg ctx (.mk info (some ps) items one)) (titleOf x)) i
            (openSubSheet cfg ctx m (titleOf x) (idsBelow cfg ctx (.mk info (some ps) items one)) st0).1 = .ok (ys1, st1) ∧ stB.subTitles = st1.subTitles ∧
          isOneOfArray i.info i.items = false := by
      intro m x i stA ysA stB hkx hix hpp
      obtain ⟨xi, xp, xit, xo⟩ := x
      have het := effTitle_eq (.mk xi xp xit xo)
      have hgeo := isGeo_iff (cfg := cfg) (p := .mk xi xp xit xo)
      simp only [Schema.info, Schema.properties] at het hgeo
      simp only [Schema.items] at hix
      subst hix
      simp only [parseProp, List.contains_eq_mem, decide_eq_true_eq] at hpp
      rw [het] at hpp
      split at hpp
      · next ho =>
        have hobj : HasType (.mk xi xp (some i) xo) s%"object" := ho
        unfold kind at hkx
        rw [if_pos hobj] at hkx
        split at hkx <;> simp at hkx
      · next ho =>
        have hobj : ¬ HasType (.mk xi xp (some i) xo) s%"object" := ho
        split at hpp
        · next haa =>
          have harr : HasType (.mk xi xp (some i) xo) s%"array" := haa
          unfold kind at hkx
          rw [if_neg hobj, if_pos harr] at hkx
          simp only [Schema.items] at hkx
          have hik := itemKind_list i
          rw [parseArray] at hpp
          split at hpp
          · cases hpp
          · next hit => rw [hit] at hik; dsimp only at hik; rw [hik] at hkx; cases hkx
          · obtain ⟨y1, st1, h1, h2⟩ := sThen_ok.1 hpp
            simp only [Except.ok.injEq] at h2
            rw [het] at h1
            refine ⟨_, _, _, h1, ?_, isOneOf_false (listKind_objects hkx)⟩
            have e : stB = (finishArray cfg ctx m xi y1 st1).2 := by rw [h2]
            rw [e]
            have hfold : ∀ (ys : List Yield) (st : SState) (a b c d f), (arrayFields cfg a m b c d f ys st).1.subTitles = st.subTitles := by
              intro ys
              induction ys with
              | nil => intros; rfl
              | cons y r ih => intro st a b c d f; exact (ih _ _ _ _ _ _).trans (subTitles_arrayField _ _ _ _ _ _ _ _ _)
            unfold finishArray checkRollUp
            dsimp only
            split
            · exact hfold _ _ _ _ _ _ _
            · exact hfold _ _ _ _ _ _ _
        · next haa =>
          exfalso
          have harr : ¬ HasType (.mk xi xp (some i) xo) s%"array" := haa
          have hk' := kind_scalar (wkt := cfg.wkt) hobj harr
          rw [hkx] at hk'
          split at hk' <;> simp at hk'
    cases ht with
    | here =>
      refine visit ps (fun _ hx => hx) st ys n p hf.1 hf.2 ?_ h
      intro stA ysA stB hpp
      obtain ⟨i, hi⟩ : ∃ i, p.items = some i := by
        cases hi : p.items with
        | some i => exact ⟨i, rfl⟩
        | none =>
          unfold kind at hk
          rw [hi] at hk
          grind
      obtain ⟨st0, ys1, st1, h1, h2, h3⟩ := array n p i stA ysA stB hk hi hpp
      rw [h2]
      refine walks (walk_noted cfg _) i _ _ _ _ h3 trivial ?_ h1
      show _ ∈ Dict.keys (openSubSheet _ _ _ _ _ _).1.subTitles
      rw [subTitles_open]
      simp only [ctxAt] at hpt ⊢
      unfold noteSubTitle
      rw [hu]
      cases hpt' : ctx.parentTitle with
      | none => exact absurd hpt' hpt
      | some a => exact Dict.mem_keys_set.2 (.inl rfl)
    | @object _ x _ m r h1 h2 h3 =>
      refine visit ps (fun _ hx => hx) st ys m x h1.1 h1.2 ?_ h
      intro stA ysA stB hpp
      have hx := (ih1 m x h1.1).1
      obtain ⟨xi, xp, xit, xo⟩ := x
      have het := effTitle_eq (.mk xi xp xit xo)
      have hgeo := isGeo_iff (cfg := cfg) (p := .mk xi xp xit xo)
      have hobj := kind_object h2
      simp only [Schema.info, Schema.properties] at het hgeo
      simp only [parseProp, List.contains_eq_mem, decide_eq_true_eq] at hpp
      rw [het, if_pos (show s%"object" ∈ xi.type.set from hobj)] at hpp
      split at hpp
      · next hg =>
        unfold kind at h2
        rw [if_pos hobj, if_pos (hgeo.1 hg)] at h2
        cases h2
      · obtain ⟨y1, st1, g1, g2⟩ := sThen_ok.1 hpp
        simp only [Except.ok.injEq, Prod.mk.injEq] at g2
        rw [← g2.2]
        have h5 : parseSchema cfg (childCtx ctx (ctx.parentPath ++ m) (idsBelow cfg ctx (.mk info (some ps) items one)) (titleOf (.mk xi xp xit xo)))
            (.mk xi xp xit xo) (stA.setType (ctx.parentPath ++ m) .object) = .ok (y1, st1) := by
          rw [parseSchema]; exact g1
        exact hx _ _ _ _ r q n p (isOneOf_false hobj) h5 h3 hf hk hu (by simpa [ctxAt, stepTo] using hpt)
    | @list _ x i _ m r h1 h2 h3 h4 =>
      refine visit ps (fun _ hx => hx) st ys m x h1.1 h1.2 ?_ h
      intro stA ysA stB hpp
      obtain ⟨st0, ys1, st1, g1, g2, g3⟩ := array m x i stA ysA stB h2 h3 hpp
      rw [g2]
      have := (ih1 m x h1.1).2 i h3 _ _ _ _ r q n p g3 g1 h4 hf hk hu (by simpa [ctxAt, stepTo, h3] using hpt)
      simpa [ctxAt, stepTo, h3] using this

end Verif
