import Verif.Spec.SchemaWarns
import Verif.Proofs.SchemaWalk
/-! The warnings of the schema parser. -/
namespace Verif
open Spec

/-- What is reported about the property itself. -/
inductive LWarn (cfg : SchemaCfg) (ctx : SCtx) (n : Str) (p : Schema) : SWarn → Prop
  | unknown : kind cfg.wkt p = .nothing → LWarn cfg ctx n p (.unrecognised (typesOf p) n ctx.parentPath)
  | missed {i : Schema} {listed : List Str} {m : Str → Bool} : cfg.rollup = true → kind cfg.wkt p = .objects → p.items = some i →
      p.info.rollUp = some listed → (∀ f, m f = true ↔ ¬ ∃ t, Shown cfg i f t) → (∃ f ∈ listed, m f = true) →
      LWarn cfg ctx n p (.missedRollUp (listed.filter m))
  | missing {i : Schema} {f : Str} {t : Option Str} : cfg.useTitles = true → kind cfg.wkt p = .objects → p.items = some i → Shown cfg i f t →
      (t = none ∨ ctx.parentTitle = none) → LWarn cfg ctx n p (.missingTitle (ctx.parentPath ++ (n ++ (s%"/0/" ++ f))))
  | untitled {i : Schema} {f t : Str} : cfg.useTitles = true → kind cfg.wkt p = .objects → p.items = some i → Shown cfg i f (some t) →
      ctx.parentTitle ≠ none → titleOf p = none → LWarn cfg ctx n p (.noTitle (ctx.parentPath ++ n))

/-- What is reported about a schema. -/
inductive PWarn (cfg : SchemaCfg) : SCtx → Schema → SWarn → Prop
  | bare {ctx : SCtx} {s : Schema} : s.properties = none → PWarn cfg ctx s (.noProperties ctx.parentPath)
  | here {ctx : SCtx} {s p : Schema} {n : Str} {w : SWarn} : Field cfg s n p → LWarn cfg ctx n p w → PWarn cfg ctx s w
  | object {ctx : SCtx} {s p : Schema} {n : Str} {w : SWarn} : Field cfg s n p → kind cfg.wkt p = .object →
      PWarn cfg (childCtx ctx (ctx.parentPath ++ n) (idsBelow cfg ctx s) (titleOf p)) p w → PWarn cfg ctx s w
  | list {ctx : SCtx} {s p i : Schema} {n : Str} {w : SWarn} : Field cfg s n p → kind cfg.wkt p = .objects → p.items = some i →
      PWarn cfg (childCtx ctx (ctx.parentPath ++ (n ++ s%"/0")) (idsBelow cfg ctx s) (titleOf p)) i w → PWarn cfg ctx s w

/-- What is reported about one property with everything below it. -/
inductive QWarn (cfg : SchemaCfg) (ctx : SCtx) (ids : List Str) (n : Str) (p : Schema) : SWarn → Prop
  | here {w : SWarn} : LWarn cfg ctx n p w → QWarn cfg ctx ids n p w
  | object {w : SWarn} : kind cfg.wkt p = .object → PWarn cfg (childCtx ctx (ctx.parentPath ++ n) ids (titleOf p)) p w → QWarn cfg ctx ids n p w
  | list {i : Schema} {w : SWarn} : kind cfg.wkt p = .objects → p.items = some i →
      PWarn cfg (childCtx ctx (ctx.parentPath ++ (n ++ s%"/0")) ids (titleOf p)) i w → QWarn cfg ctx ids n p w

theorem pwarn_iff {cfg : SchemaCfg} {ctx : SCtx} {s : Schema} {w : SWarn} :
    PWarn cfg ctx s w ↔ (s.properties = none ∧ w = .noProperties ctx.parentPath) ∨ ∃ n p, Field cfg s n p ∧ QWarn cfg ctx (idsBelow cfg ctx s) n p w := by
  constructor
  · intro h
    cases h with
    | bare h => exact .inl ⟨h, rfl⟩
    | here h1 h2 => exact .inr ⟨_, _, h1, .here h2⟩
    | object h1 h2 h3 => exact .inr ⟨_, _, h1, .object h2 h3⟩
    | list h1 h2 h3 h4 => exact .inr ⟨_, _, h1, .list h2 h3 h4⟩
  · rintro (⟨h, rfl⟩ | ⟨n, p, h1, h⟩)
    · exact .bare h
    · cases h with
      | here h2 => exact .here h1 h2
      | object h2 h3 => exact .object h1 h2 h3
      | list h2 h3 h4 => exact .list h1 h2 h3 h4

/-- The claim about a schema. -/
def WarnsOf (cfg : SchemaCfg) (s : Schema) : Prop :=
  ∀ ctx st ys st', isOneOfArray s.info s.items = false → parseSchema cfg ctx s st = .ok (ys, st') →
    ∀ w, w ∈ st'.warns ↔ w ∈ st.warns ∨ PWarn cfg ctx s w

theorem warns_modSub (st : SState) (n : Str) (f : Sheet → Sheet) : (st.modSub n f).warns = st.warns := by
  unfold SState.modSub; split <;> rfl

theorem warns_addIds (lk : TitleTree) (sub : Str) (ids : List Str) (st : SState) : (ids.foldl (addIdColumn lk sub) st).warns = st.warns := by
  induction ids generalizing st with
  | nil => rfl
  | cons f r ih => rw [List.foldl_cons, ih]; exact warns_modSub _ _ _

theorem warns_open (cfg : SchemaCfg) (ctx : SCtx) (name : Str) (title : Option Str) (ids : List Str) (st : SState) :
    (openSubSheet cfg ctx name title ids st).1.warns = st.warns := by
  unfold openSubSheet
  rw [warns_addIds]
  unfold ensureSub noteSubTitle
  split <;> split <;> rfl

theorem warns_title (ctx : SCtx) (n : Str) (i : SchemaInfo) (st : SState) : (noteTitle ctx n i st).warns = st.warns := by
  unfold noteTitle; split <;> rfl

/-- What one field of the items of an array gives rise to. -/
def ColWarn (cfg : SchemaCfg) (pp name : Str) (title pt : Option Str) (f : Str) (t : Option Str) (w : SWarn) : Prop :=
  cfg.useTitles = true ∧
    (((t = none ∨ pt = none) ∧ w = .missingTitle (pp ++ (name ++ (s%"/0/" ++ f)))) ∨ (t ≠ none ∧ pt ≠ none ∧ title = none ∧ w = .noTitle (pp ++ name)))

theorem warns_column (cfg : SchemaCfg) (pp name : Str) (title pt : Option Str) (sub : Str) (st : SState) (f : Str) (t : Option Str) (w : SWarn) :
    w ∈ (addColumn cfg pp name title pt sub st f t).warns ↔ w ∈ st.warns ∨ ColWarn cfg pp name title pt f t w := by
  unfold addColumn ColWarn
  cases hu : cfg.useTitles with
  | false => simp [warns_modSub]
  | true =>
    cases t with
    | none => simp [SState.warn]
    | some c =>
      cases pt with
      | none => simp [SState.warn]
      | some p =>
        cases title with
        | none => simp [SState.warn]
        | some a => simp [warns_modSub]

theorem truthy_id {t : Option Str} (h : t ≠ some []) : truthy t = t := by
  cases t with
  | none => rfl
  | some c => cases c with
    | nil => exact absurd rfl h
    | cons _ _ => rfl

theorem warns_fields (cfg : SchemaCfg) (pp name : Str) (title pt : Option Str) (sub : Str) (ru : Option (List Str)) (ys : List Yield)
    (hy : ∀ f t, (f, t) ∈ ys → t ≠ some []) (st : SState) (w : SWarn) :
    w ∈ (arrayFields cfg pp name title pt sub ru ys st).1.warns ↔ w ∈ st.warns ∨ ∃ f t, (f, t) ∈ ys ∧ ColWarn cfg pp name title pt f t w := by
  induction ys generalizing st with
  | nil => simp [arrayFields]
  | cons y r ih =>
    obtain ⟨f, t⟩ := y
    have h1 : w ∈ (arrayField cfg pp name title pt sub ru st (f, t)).1.warns ↔ w ∈ st.warns ∨ ColWarn cfg pp name title pt f t w := by
      rw [← warns_column cfg pp name title pt sub st f t w]
      unfold arrayField
      dsimp only
      rw [truthy_id (hy f t (by simp))]
      split <;> rfl
    have := ih (fun f t h => hy f t (by simp [h])) (arrayField cfg pp name title pt sub ru st (f, t)).1
    simp only [arrayFields]
    rw [this, h1]
    constructor
    · rintro ((h | h) | ⟨f', t', h, h'⟩)
      · exact .inl h
      · exact .inr ⟨f, t, by simp, h⟩
      · exact .inr ⟨f', t', by simp [h], h'⟩
    · rintro (h | ⟨f', t', h, h'⟩)
      · exact .inl (.inl h)
      · rcases List.mem_cons.1 h with h | h
        · cases h; exact .inl (.inr h')
        · exact .inr ⟨f', t', h, h'⟩

theorem warns_finish {cfg : SchemaCfg} {ctx : SCtx} {n : Str} {p i : Schema} {ys : List Yield} (hk : kind cfg.wkt p = .objects) (hi : p.items = some i)
    (hy : ∀ f t, (f, t) ∈ ys ↔ Shown cfg i f t) (st : SState) (w : SWarn) :
    w ∈ (finishArray cfg ctx n p.info ys st).2.warns ↔ w ∈ st.warns ∨ LWarn cfg ctx n p w := by
  have hf := warns_fields cfg ctx.parentPath n p.info.effTitle ctx.parentTitle (subNameOf cfg ctx n p.info.effTitle) p.info.rollUp ys
    (fun f t h => shown_title ((hy f t).1 h)) st w
  have hcol : (∃ f t, (f, t) ∈ ys ∧ ColWarn cfg ctx.parentPath n p.info.effTitle ctx.parentTitle f t w) ↔
      LWarn cfg ctx n p w ∧ ∀ m, w ≠ .missedRollUp m := by
    constructor
    · rintro ⟨f, t, h1, hu, ⟨h2, rfl⟩ | ⟨h2, h3, h4, rfl⟩⟩
      · exact ⟨.missing hu hk hi ((hy _ _).1 h1) h2, by simp⟩
      · obtain ⟨c, rfl⟩ := Option.ne_none_iff_exists'.1 h2
        exact ⟨.untitled hu hk hi ((hy _ _).1 h1) h3 (by rw [← effTitle_eq]; exact h4), by simp⟩
    · rintro ⟨h, hm⟩
      cases h with
      | unknown h => rw [hk] at h; cases h
      | missed => exact absurd rfl (hm _)
      | missing hu _ hi' hs hn =>
        rw [hi] at hi'; cases hi'
        exact ⟨_, _, (hy _ _).2 hs, hu, .inl ⟨hn, rfl⟩⟩
      | untitled hu _ hi' hs hn ht =>
        rw [hi] at hi'; cases hi'
        exact ⟨_, _, (hy _ _).2 hs, hu, .inr ⟨by simp, hn, by rw [effTitle_eq]; exact ht, rfl⟩⟩
  rw [hcol] at hf
  have hmiss : ∀ f, (!(ys.map (·.1)).contains f) = true ↔ ¬ ∃ t, Shown cfg i f t := by
    intro f
    simp only [List.contains_eq_mem, Bool.not_eq_true', decide_eq_false_iff_not, List.mem_map, Prod.exists]
    constructor
    · rintro h ⟨t, ht⟩; exact h ⟨f, t, (hy _ _).2 ht, rfl⟩
    · rintro h ⟨f', t, h1, rfl⟩; exact h ⟨t, (hy _ _).1 h1⟩
  unfold finishArray checkRollUp
  dsimp only
  split
  · next hc =>
    simp only [Bool.and_eq_true, Bool.not_eq_true', List.isEmpty_eq_false_iff] at hc
    obtain ⟨hr, hne⟩ := hc
    rw [SState.warn]
    simp only [List.mem_append, List.mem_singleton]
    rw [hf]
    cases hl : p.info.rollUp with
    | none => rw [hl] at hne; simp at hne
    | some listed =>
      rw [hl] at hne
      simp only [Option.getD_some] at hne ⊢
      have hthis : LWarn cfg ctx n p (.missedRollUp (listed.filter fun f => !(ys.map (·.1)).contains f)) := by
        refine .missed hr hk hi hl hmiss ?_
        obtain ⟨f, hf⟩ := List.exists_mem_of_ne_nil _ hne
        exact ⟨f, (List.mem_filter.1 hf).1, (List.mem_filter.1 hf).2⟩
      constructor
      · rintro ((h | h) | rfl)
        · exact .inl h
        · exact .inr h.1
        · exact .inr hthis
      · rintro (h | h)
        · exact .inl (.inl h)
        · cases h with
          | @missed i' listed' m h1 h2 h3 h4 h5 h6 =>
            refine .inr ?_
            rw [hi] at h3; cases h3
            rw [hl] at h4; cases h4
            congr 1
            apply List.filter_congr
            intro f _
            rw [Bool.eq_iff_iff, h5, hmiss]
          | unknown h => exact .inl (.inr ⟨.unknown h, by simp⟩)
          | missing a b c d e => exact .inl (.inr ⟨.missing a b c d e, by simp⟩)
          | untitled a b c d e f => exact .inl (.inr ⟨.untitled a b c d e f, by simp⟩)
  · next hc =>
    rw [hf]
    refine or_congr Iff.rfl ⟨fun h => h.1, fun h => ⟨h, ?_⟩⟩
    rintro m rfl
    cases h with
    | @missed i' listed m h1 h2 h3 h4 h5 h6 =>
      rw [hi] at h3; cases h3
      apply hc
      obtain ⟨f, g1, g2⟩ := h6
      simp only [h1, h4, Option.getD_some, Bool.true_and, Bool.not_eq_true', List.isEmpty_eq_false_iff]
      exact List.ne_nil_of_mem (List.mem_filter.2 ⟨g1, (hmiss f).2 ((h5 f).1 g2)⟩)

theorem warns_prop {cfg : SchemaCfg} {p : Schema} (hp : WarnsOf cfg p) (hi : ∀ i, p.items = some i → WarnsOf cfg i) {ctx : SCtx} {ids : List Str} {n : Str}
    {st : SState} {ys : List Yield} {st' : SState} (h : parseProp cfg ctx ids n p st = .ok (ys, st')) (w : SWarn) :
    w ∈ st'.warns ↔ w ∈ st.warns ∨ QWarn cfg ctx ids n p w := by
  obtain ⟨info, props, items, one⟩ := p
  have het := effTitle_eq (.mk info props items one)
  have hgeo := isGeo_iff (cfg := cfg) (p := .mk info props items one)
  simp only [Schema.info, Schema.properties] at het hgeo
  simp only [parseProp, List.contains_eq_mem, decide_eq_true_eq] at h
  rw [het] at h
  have hcolumn : ∀ t, kind cfg.wkt (.mk info props items one) = .column t → ¬ QWarn cfg ctx ids n (.mk info props items one) w := by
    intro t hk hq
    cases hq with
    | here hl => cases hl <;> simp_all
    | object h => simp_all
    | list h => simp_all
  split at h
  · next ho =>
    have hobj : HasType (.mk info props items one) s%"object" := ho
    split at h
    · next hg =>
      have hk : kind cfg.wkt (.mk info props items one) = .column .geojson := by
        unfold kind
        rw [if_pos hobj, if_pos (hgeo.1 hg)]
      simp only [Except.ok.injEq, Prod.mk.injEq] at h
      rw [← h.2]
      exact ⟨fun h => .inl h, fun h => h.resolve_right (hcolumn _ hk)⟩
    · next hg =>
      have hk : kind cfg.wkt (.mk info props items one) = .object := by
        unfold kind
        rw [if_pos hobj, if_neg (fun hc => hg (hgeo.2 hc))]
      obtain ⟨y1, st1, h1, h2⟩ := sThen_ok.1 h
      simp only [Except.ok.injEq, Prod.mk.injEq] at h2
      rw [← h2.2]
      have hno := isOneOf_false hobj
      have h3 : parseSchema cfg (childCtx ctx (ctx.parentPath ++ n) ids (titleOf (.mk info props items one)))
          (.mk info props items one) (st.setType (ctx.parentPath ++ n) .object) = .ok (y1, st1) := by
        rw [parseSchema]; exact h1
      rw [hp _ _ _ _ hno h3 w]
      refine or_congr Iff.rfl ⟨fun h => .object hk h, fun h => ?_⟩
      cases h with
      | here hl => cases hl <;> simp_all
      | object _ h => exact h
      | list h => simp_all
  · next ho =>
    have hobj : ¬ HasType (.mk info props items one) s%"object" := ho
    split at h
    · next haa =>
      have harr : HasType (.mk info props items one) s%"array" := haa
      cases items with
      | none => rw [parseArray] at h; cases h
      | some i =>
        have hk0 : kind cfg.wkt (.mk info props (some i) one) = listKind i := by
          unfold kind
          rw [if_neg hobj, if_pos harr]
          rfl
        have hik := itemKind_list i
        rw [parseArray] at h
        split at h
        · cases h
        · next hit =>
          rw [hit] at hik; dsimp only at hik; rw [hik] at hk0
          simp only [Except.ok.injEq, Prod.mk.injEq] at h
          rw [← h.2]
          exact ⟨fun h => .inl h, fun h => h.resolve_right (hcolumn _ hk0)⟩
        · next hit =>
          rw [hit] at hik; dsimp only at hik; rw [hik] at hk0
          obtain ⟨y1, st1, h1, h2⟩ := sThen_ok.1 h
          simp only [Except.ok.injEq] at h2
          have hno := isOneOf_false (listKind_objects hik)
          rw [het] at h1
          have hys := (parses cfg i _ _ _ _ hno h1).1
          have hw1 := hi i rfl _ _ _ _ hno h1 w
          have e : st' = (finishArray cfg ctx n info y1 st1).2 := by rw [h2]
          rw [e]
          have := warns_finish (ctx := ctx) (n := n) (p := .mk info props (some i) one) hk0 rfl hys st1 w
          rw [show (Schema.mk info props (some i) one).info = info from rfl] at this
          rw [this, hw1, warns_open]
          constructor
          · rintro ((h | h) | h)
            · exact .inl h
            · exact .inr (.list hk0 rfl h)
            · exact .inr (.here h)
          · rintro (h | h)
            · exact .inl (.inl h)
            · cases h with
              | here h => exact .inr h
              | object h => simp_all
              | list _ hit' h => cases hit'; exact .inl (.inr h)
    · next haa =>
      have harr : ¬ HasType (.mk info props items one) s%"array" := haa
      have hk := kind_scalar (wkt := cfg.wkt) hobj harr
      simp only [Schema.info] at hk
      simp only [Except.ok.injEq, parseScalar] at h
      split at h
      · next t hs =>
        rw [hs] at hk
        simp only [Prod.mk.injEq] at h
        rw [← h.2]
        exact ⟨fun h => .inl h, fun h => h.resolve_right (hcolumn _ hk)⟩
      · next hs =>
        rw [hs] at hk
        simp only [Prod.mk.injEq] at h
        rw [← h.2]
        simp only [SState.warn, List.mem_append, List.mem_singleton]
        refine or_congr Iff.rfl ⟨?_, fun h => ?_⟩
        · rintro rfl; exact .here (.unknown hk)
        · cases h with
          | here hl =>
            cases hl with
            | unknown => rfl
            | missed => simp_all
            | missing => simp_all
            | untitled => simp_all
          | object h => simp_all
          | list h => simp_all

theorem warns_props {cfg : SchemaCfg} {ctx : SCtx} {ids : List Str} (ps : List (Str × Schema))
    (hps : ∀ n p, (n, p) ∈ ps → WarnsOf cfg p ∧ ∀ i, p.items = some i → WarnsOf cfg i) {st : SState} {ys : List Yield} {st' : SState}
    (h : parseProps cfg ctx ids ps st = .ok (ys, st')) (w : SWarn) :
    w ∈ st'.warns ↔ w ∈ st.warns ∨ ∃ n p, ((n, p) ∈ ps ∧ (cfg.noDeprecated = true → ¬ Deprecated p)) ∧ QWarn cfg ctx ids n p w := by
  induction ps generalizing st ys with
  | nil =>
    simp only [parseProps, Except.ok.injEq, Prod.mk.injEq] at h
    rw [← h.2]; simp
  | cons x r ih =>
    obtain ⟨n, p⟩ := x
    have ihr := fun {st ys} => ih (st := st) (ys := ys) (fun m q hm => hps m q (by simp [hm]))
    simp only [parseProps] at h
    split at h
    · next hsk =>
      rw [ihr h]
      refine or_congr Iff.rfl ⟨?_, ?_⟩
      · rintro ⟨m, q, ⟨h1, h2⟩, h3⟩; exact ⟨m, q, ⟨by simp [h1], h2⟩, h3⟩
      · rintro ⟨m, q, ⟨h1, h2⟩, h3⟩
        rcases List.mem_cons.1 h1 with h1 | h1
        · cases h1; rw [skipped_iff.2 h2] at hsk; cases hsk
        · exact ⟨m, q, ⟨h1, h2⟩, h3⟩
    · next hsk =>
      obtain ⟨y1, st1, h1, h2⟩ := sThen_ok.1 h
      obtain ⟨y2, st2, h3, h4⟩ := sThen_ok.1 h2
      simp only [Except.ok.injEq, Prod.mk.injEq] at h4
      rw [h4.2] at h3
      obtain ⟨hp, hi⟩ := hps n p (by simp)
      rw [ihr h3, warns_prop hp hi h1 w, warns_title]
      have hd := skipped_iff.1 (by simpa using hsk : skipped cfg p.info = false)
      constructor
      · rintro ((h | h) | ⟨m, q, ⟨h5, h6⟩, h7⟩)
        · exact .inl h
        · exact .inr ⟨n, p, ⟨by simp, hd⟩, h⟩
        · exact .inr ⟨m, q, ⟨by simp [h5], h6⟩, h7⟩
      · rintro (h | ⟨m, q, ⟨h5, h6⟩, h7⟩)
        · exact .inl (.inl h)
        · rcases List.mem_cons.1 h5 with h5 | h5
          · cases h5; exact .inl (.inr h7)
          · exact .inr ⟨m, q, ⟨h5, h6⟩, h7⟩

theorem warns_of (cfg : SchemaCfg) (s : Schema) : WarnsOf cfg s := by
  suffices h : WarnsOf cfg s ∧ ∀ i, s.items = some i → WarnsOf cfg i from h.1
  induction s using Schema.ind with
  | h info props items one ih1 ih2 =>
  refine ⟨?_, fun i hi => (ih2 i hi).1⟩
  intro ctx st ys st' hno h w
  simp only [Schema.info, Schema.items] at hno
  simp only [parseSchema, hno] at h
  cases props with
  | none =>
    simp only [parseBody, if_neg Bool.false_ne_true, Except.ok.injEq, Prod.mk.injEq] at h
    rw [← h.2, pwarn_iff]
    simp [Field, Schema.properties, SState.warn]
  | some ps =>
    simp only [parseBody, if_neg Bool.false_ne_true] at h
    rw [warns_props ps ih1 h w, pwarn_iff]
    simp [Field, Schema.properties, idsBelow]

/-- The warnings of the parser at the root. -/
theorem warns_root {cfg : SchemaCfg} {s : Schema} {ys : List Yield} {st' : SState} (h : parseSchema cfg {} s {} = .ok (ys, st')) (w : SWarn) :
    w ∈ st'.warns ↔ ∃ r, Starts s r ∧ PWarn cfg {} r w := by
  obtain ⟨info, props, items, one⟩ := s
  by_cases hno : isOneOfArray info items = true
  · have hst : ∃ alts ia ip ii, items = some (.mk ia ip ii (some alts)) ∧
        ∀ r, Starts (.mk info props items one) r ↔ r ∈ alts ∧ r.info.type = .one s%"object" := by
      unfold isOneOfArray at hno
      split at hno
      · next t ia ip ii alts hty =>
        refine ⟨alts, ia, ip, ii, rfl, fun r => ?_⟩
        simp only [decide_eq_true_eq] at hno
        subst hno
        simp only [Starts, Schema.info, Schema.items, hty, if_true]
      · cases hno
    obtain ⟨alts, ia, ip, ii, rfl, hs⟩ := hst
    rw [parseSchema, if_pos hno, parseItemsOneOf] at h
    dsimp only at h
    have key : ∀ (alts : List Schema) (st : SState) (ys : List Yield) (st' : SState), parseAlts cfg {} alts st = .ok (ys, st') →
        (w ∈ st'.warns ↔ w ∈ st.warns ∨ ∃ r, (r ∈ alts ∧ r.info.type = .one s%"object") ∧ PWarn cfg {} r w) := by
      intro alts
      induction alts with
      | nil =>
        intro st ys st' h
        simp only [parseAlts, Except.ok.injEq, Prod.mk.injEq] at h
        rw [← h.2]
        simp
      | cons a r ih =>
        intro st ys st' h
        rw [parseAlts] at h
        split at h
        · next hty =>
          obtain ⟨y1, st1, h1, h2⟩ := sThen_ok.1 h
          obtain ⟨y2, st2, h3, h4⟩ := sThen_ok.1 h2
          simp only [Except.ok.injEq, Prod.mk.injEq] at h4
          rw [← h4.2]
          have hobj : HasType a s%"object" := by simp [HasType, typesOf, hty]
          rw [ih _ _ _ h3, warns_of cfg a _ _ _ _ (isOneOf_false hobj) h1 w]
          constructor
          · rintro ((h | h) | ⟨x, ⟨hm, hd'⟩, hq⟩)
            · exact .inl h
            · exact .inr ⟨a, ⟨by simp, hty⟩, h⟩
            · exact .inr ⟨x, ⟨by simp [hm], hd'⟩, hq⟩
          · rintro (h | ⟨x, ⟨hm, hd'⟩, hq⟩)
            · exact .inl (.inl h)
            · rcases List.mem_cons.1 hm with hm | hm
              · cases hm; exact .inl (.inr hq)
              · exact .inr ⟨x, ⟨hm, hd'⟩, hq⟩
        · next hty =>
          rw [ih _ _ _ h]
          refine or_congr Iff.rfl ⟨?_, ?_⟩
          · rintro ⟨x, ⟨hm, hd'⟩, hq⟩; exact ⟨x, ⟨by simp [hm], hd'⟩, hq⟩
          · rintro ⟨x, ⟨hm, hd'⟩, hq⟩
            rcases List.mem_cons.1 hm with hm | hm
            · cases hm; exact absurd hd' hty
            · exact ⟨x, ⟨hm, hd'⟩, hq⟩
    rw [key _ _ _ _ h]
    simp only [hs, List.not_mem_nil, false_or]
  · have hno' : isOneOfArray info items = false := by simpa using hno
    have hs : ∀ r, Starts (.mk info props items one) r ↔ r = .mk info props items one := by
      intro r
      unfold Starts
      simp only [Schema.info, Schema.items]
      split
      · next ht =>
        simp only [isOneOfArray, ht, decide_eq_false_iff_not] at hno'
        rw [if_neg hno']
      · exact Iff.rfl
    rw [warns_of cfg (.mk info props items one) _ _ _ _ hno' h w]
    simp [hs]

theorem pwarn_trail {cfg : SchemaCfg} {ctx : SCtx} {s : Schema} {w : SWarn} :
    PWarn cfg ctx s w ↔ ∃ steps q, Trail cfg s steps q ∧
      ((q.properties = none ∧ w = .noProperties (ctxAt cfg ctx s steps).parentPath) ∨ ∃ n p, Field cfg q n p ∧ LWarn cfg (ctxAt cfg ctx s steps) n p w) := by
  constructor
  · intro h
    induction h with
    | bare h => exact ⟨[], _, .here _, .inl ⟨h, rfl⟩⟩
    | here h1 h2 => exact ⟨[], _, .here _, .inr ⟨_, _, h1, h2⟩⟩
    | object h1 h2 _ ih =>
      obtain ⟨steps, q, ht, h⟩ := ih
      exact ⟨_ :: steps, q, .object h1 h2 ht, h⟩
    | list h1 h2 h3 _ ih =>
      obtain ⟨steps, q, ht, h⟩ := ih
      refine ⟨_ :: steps, q, .list h1 h2 h3 ht, ?_⟩
      simpa [ctxAt, stepTo, h3] using h
  · rintro ⟨steps, q, ht, h⟩
    induction ht generalizing ctx with
    | here =>
      rcases h with ⟨h, rfl⟩ | ⟨n, p, hf, hl⟩
      · exact .bare h
      · exact .here hf hl
    | object h1 h2 _ ih => exact .object h1 h2 (ih (by simpa [ctxAt, stepTo] using h))
    | list h1 h2 h3 _ ih => exact .list h1 h2 h3 (ih (by simpa [ctxAt, stepTo, h3] using h))

theorem ctxAt_titled (cfg : SchemaCfg) (steps : List Hop) (s : Schema) : (ctxAt cfg {} s steps).parentTitle = none ↔ stepTitles steps = none := by
  rw [ctxAt_title]
  have : ∀ (steps : List Hop) (a : Str), steps.foldl (fun t x => t.bind (fun a => (titleOf x.prop).map (fun b => a ++ (b ++ s%":")))) (some a) = none ↔ stepTitles steps = none := by
    intro steps
    induction steps with
    | nil => intro a; simp [stepTitles]
    | cons x r ih =>
      intro a
      simp only [List.foldl_cons, stepTitles]
      cases titleOf x.prop with
      | none =>
        simp only [Option.map_none, Option.bind_none, iff_true, Option.bind_some]
        clear ih
        induction r with
        | nil => rfl
        | cons y r ih => exact ih
      | some b =>
        simp only [Option.bind_some, Option.map_some]
        rw [ih]
        cases stepTitles r <;> simp
  exact this steps []

theorem warns_main {cfg : SchemaCfg} (ys : List Yield) (hy : ∀ f t, (f, t) ∈ ys → t ≠ some []) (sh : Sheet) (ws : List SWarn) (w : SWarn) :
    w ∈ (mainFields cfg ys (sh, ws)).2 ↔ w ∈ ws ∨ (cfg.useTitles = true ∧ ∃ f, (f, none) ∈ ys ∧ w = .noTitle f) := by
  induction ys generalizing sh ws with
  | nil => simp [mainFields]
  | cons y r ih =>
    obtain ⟨f, t⟩ := y
    have ihr := fun {sh ws} => ih (fun f t h => hy f t (by simp [h])) sh ws
    simp only [mainFields]
    cases hu : cfg.useTitles with
    | false => simp only [Bool.false_eq_true, if_false]; rw [ihr]; simp [hu]
    | true =>
      simp only [if_true]
      cases t with
      | none =>
        dsimp only
        rw [ihr]
        simp [hu, or_assoc]
      | some c =>
        cases c with
        | nil => exact absurd rfl (hy f (some []) (by simp))
        | cons a b => dsimp only; rw [ihr]; simp [hu]

end Verif
