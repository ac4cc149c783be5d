import Verif.Proofs.SchemaWarns
import Verif.Proofs.SchemaTitles
import Verif.Proofs.Main
import Verif.Props.Outputs
import Verif.Props.EndToEnd
import Verif.Props.Template
import Verif.Spec.Tables
import Verif.Proofs.Described
import Verif.Proofs.DecEq
/-! C84: the warnings about a schema. -/
namespace Verif
open Spec

theorem parseRoot_warns {cfg : SchemaCfg} {s : Schema} {sp : Parsed} (h : parseRoot cfg s = .ok sp) :
    ∃ ys st, parseSchema cfg {} s {} = .ok (ys, st) ∧ sp.warns = st.warns ++ (mainFields cfg ys ({}, [])).2 := by
  unfold parseRoot at h
  split at h
  · cases h
  · next ys st h1 => cases h; exact ⟨ys, st, h1, rfl⟩

/-- C84: the parser of the schema gives exactly the warnings it has reason for. -/
theorem C84_schema_warnings (cfg : SchemaCfg) (s : Schema) (sp : Parsed) (h : parseRoot cfg s = .ok sp) (hn : Named cfg s) (w : SWarn) :
    w ∈ sp.warns ↔ Complaint cfg s w := by
  obtain ⟨ys, st, h1, h2⟩ := parseRoot_warns h
  have hys := (parseSchema_root h1).1
  have hne : ∀ {r steps q}, Starts s r → Trail cfg r steps q → ∀ x ∈ steps, x.name ≠ [] := by
    intro r steps q hr ht
    have : ∀ {a steps q}, Trail cfg a steps q → ∀ pre, Trail cfg r pre a → ∀ x ∈ steps, x.name ≠ [] := by
      intro a steps q ht
      induction ht with
      | here => intro _ _ x hx; cases hx
      | @object a p q n rest hf hk _ ih =>
        intro pre hp x hx
        rcases List.mem_cons.1 hx with rfl | hx
        · exact hn pre n p ⟨r, a, hr, hp, hf⟩
        · exact ih (pre ++ [⟨n, p, false⟩]) (Trail.append hp (.object hf hk (.here _))) x hx
      | @list a p i q n rest hf hk hi _ ih =>
        intro pre hp x hx
        rcases List.mem_cons.1 hx with rfl | hx
        · exact hn pre n p ⟨r, a, hr, hp, hf⟩
        · exact ih (pre ++ [⟨n, p, true⟩]) (Trail.append hp (.list hf hk hi (.here _))) x hx
    exact this ht [] (.here _)
  have hpath : ∀ {r steps q}, Starts s r → Trail cfg r steps q → (ctxAt cfg {} r steps).parentPath = pathAbove steps ∧
      ∀ n, (ctxAt cfg {} r steps).parentPath ++ n = columnPath steps n := by
    intro r steps q hr ht
    have e : (ctxAt cfg {} r steps).parentPath = pnOf (indexed steps) := ctxAt_path cfg steps {} r (hne hr ht)
    rw [e]
    refine ⟨?_, fun n => (columnPath_eq steps n).symm⟩
    unfold pathAbove
    rw [columnPath_eq, List.append_nil]
  rw [h2, List.mem_append, warns_root h1, warns_main ys (fun f t hm => by
    obtain ⟨r, _, hs⟩ := (hys f t).1 hm
    exact shown_title hs)]
  simp only [List.not_mem_nil, false_or]
  constructor
  · rintro (⟨r, hr, hw⟩ | ⟨hu, f, hf, rfl⟩)
    · obtain ⟨steps, q, ht, ⟨hp, rfl⟩ | ⟨n, p, hf, hl⟩⟩ := pwarn_trail.1 hw
      · rw [(hpath hr ht).1]
        exact .noProperties hr ht hp
      · have hre : Reached cfg s steps n p := ⟨r, q, hr, ht, hf⟩
        cases hl with
        | unknown hk => rw [(hpath hr ht).1]; exact .unknownType hre hk
        | missed a b c d e f => exact .rollUp a hre b c d e f
        | @missing i f t a b c d e =>
          have := Complaint.itemTitle a hre b c d (e.imp_right (ctxAt_titled cfg steps r).1)
          rw [← (hpath hr ht).2] at this
          simpa using this
        | untitled a b c d e f =>
          rw [(hpath hr ht).2]
          exact .arrayTitle a hre b c d (fun hc => e ((ctxAt_titled cfg steps r).2 hc)) f
    · obtain ⟨r, hr, hs⟩ := (hys _ _).1 hf
      exact .mainTitle hu hr hs
  · intro hw
    cases hw with
    | @unknownType steps n p hre hk =>
      obtain ⟨r, q, hr, ht, hf⟩ := hre
      refine .inl ⟨r, hr, pwarn_trail.2 ⟨steps, q, ht, .inr ⟨n, p, hf, ?_⟩⟩⟩
      rw [← (hpath hr ht).1]
      exact .unknown hk
    | @noProperties r steps q hr ht hp => exact .inl ⟨r, hr, pwarn_trail.2 ⟨steps, q, ht, .inl ⟨hp, by rw [(hpath hr ht).1]⟩⟩⟩
    | @rollUp steps n p i listed m a hre b c d e f =>
      obtain ⟨r, q, hr, ht, hf⟩ := hre
      exact .inl ⟨r, hr, pwarn_trail.2 ⟨steps, q, ht, .inr ⟨n, p, hf, .missed a b c d e f⟩⟩⟩
    | @mainTitle r f hu hr hs => exact .inr ⟨hu, f, (hys _ _).2 ⟨r, hr, hs⟩, rfl⟩
    | @itemTitle steps n p i f t a hre b c d e =>
      obtain ⟨r, q, hr, ht, hf⟩ := hre
      refine .inl ⟨r, hr, pwarn_trail.2 ⟨steps, q, ht, .inr ⟨n, p, hf, ?_⟩⟩⟩
      have := LWarn.missing (ctx := ctxAt cfg {} r steps) (n := n) a b c d (e.imp_right (ctxAt_titled cfg steps r).2)
      rw [← (hpath hr ht).2]
      simpa using this
    | @arrayTitle steps n p i f t a hre b c d e g =>
      obtain ⟨r, q, hr, ht, hf⟩ := hre
      refine .inl ⟨r, hr, pwarn_trail.2 ⟨steps, q, ht, .inr ⟨n, p, hf, ?_⟩⟩⟩
      rw [← (hpath hr ht).2]
      exact .untitled a b c d (fun hc => e ((ctxAt_titled cfg steps r).1 hc)) g

namespace Api

theorem parseOpt_warns {cfg : SchemaCfg} {os : Option Schema} {osp : Option Parsed} (h : parseOpt cfg os = .ok osp) (hn : ∀ s, os = some s → Named cfg s) (w : SWarn) :
    w ∈ schemaWarnsOf osp ↔ ∃ s, os = some s ∧ Complaint cfg s w := by
  unfold parseOpt at h
  split at h
  · cases h; simp [schemaWarnsOf]
  · next s =>
    split at h
    · cases h
    · next p hp =>
      cases h
      simp only [schemaWarnsOf, C84_schema_warnings cfg s p hp (hn s rfl) w, Option.some.injEq, exists_eq_left']

/-- C84: `create_template` reports exactly the complaints about its schema. -/
theorem C84_template (o : TmplOpts) (env : FlEnv) (out : List Written × List SWarn) (h : runTemplate o env = .ok out) (hn : Named (templateCfg o) o.schema) (w : SWarn) :
    w ∈ out.2 ↔ Complaint (templateCfg o) o.schema w := by
  obtain ⟨_, p, hp, _, he⟩ := runTemplate_ok.1 h
  rw [he]
  exact C84_schema_warnings _ _ p hp hn w

/-- C84: `flatten` reports exactly the complaints about its schema, if it has one. -/
theorem C84_flatten (o : FlOpts) (env : FlEnv) (out : FlOut) (h : runFlatten o env = .ok out) (rollup : Bool) (hr : rollup = false ↔ o.rollup = .off ∨ o.rollup = .list [])
    (cfg : SchemaCfg) (hc : cfg = { rollup, rootId := o.rootId.getD [], useTitles := o.useTitles, trunc := o.trunc, wkt := o.wkt })
    (hn : ∀ s, o.schema = some s → Named cfg s) (w : SWarn) :
    w ∈ out.schemaWarns ↔ ∃ s, o.schema = some s ∧ Complaint cfg s w := by
  obtain ⟨_, st, sw, ig, wr, hs, _, rfl⟩ := runFlatten_ok.1 h
  have hc' : cfg = o.schemaCfg := by
    rw [hc]
    unfold FlOpts.schemaCfg
    congr 1
    cases rollup with
    | false =>
      rcases hr.1 rfl with h | h <;> rw [h] <;> rfl
    | true =>
      cases ho : o.rollup with
      | off => exact absurd (hr.2 (.inl ho)) (by simp)
      | flag => rfl
      | list l =>
        cases l with
        | nil => exact absurd (hr.2 (.inr ho)) (by simp)
        | cons _ _ => rfl
  obtain ⟨schema, _, _, h1, _⟩ := flattenState_ok hs
  have e : sw = schemaWarnsOf schema := by
    unfold flattenState at hs
    rw [h1] at hs
    dsimp only at hs
    split at hs
    · cases hs
    · split at hs
      · cases hs
      · split at hs
        · cases hs
        · cases hs; rfl
  rw [← hc'] at h1
  dsimp only
  rw [e]
  exact parseOpt_warns h1 hn w

theorem pass_schemaWarns {o : UnOpts} {env : Env} {schema : Option Parsed} {cfg : UnCfg} {rc : ReadCfg} {root : Option Str} {incl : List Str} {excl : List (Option Str)}
    {p : Pass} (h : pass o env schema cfg rc root incl excl = .ok p) : p.schemaWarns = schemaWarnsOf schema := by
  unfold pass at h
  split at h
  · cases h
  · split at h
    · cases h
    · split at h
      · cases h
      · split at h
        · cases h
        · cases h; rfl

/-- C84: `unflatten` reports exactly the complaints about the schema of the metatab, if the metatab is read, and about the schema of the
other sheets, if they are read. -/
theorem C84_unflatten (o : UnOpts) (env : Env) (out : UnOut) (h : runUnflatten o env = .ok out)
    (cfg : SchemaCfg) (hc : cfg = { rollup := true, rootId := o.rootId.getD [], trunc := o.trunc, wkt := o.wkt })
    (hn : ∀ s, o.schema = some s → Named cfg s) (hm : ∀ s, o.metatabSchema = some s → Named { wkt := o.wkt } s) (w : SWarn) :
    w ∈ out.schemaWarns ↔
      (o.rootIsList = false ∧ (∃ c r, o.metatabName = some (c :: r)) ∧ ∃ s, o.metatabSchema = some s ∧ Complaint { wkt := o.wkt } s w) ∨
      ((o.metatabOnly = true → o.rootIsList = true) ∧ ∃ s, o.schema = some s ∧ Complaint cfg s w) := by
  have hgiven : ∀ name, given o.metatabName = some name ↔ o.metatabName = some name ∧ name ≠ [] := by
    intro name
    unfold given
    rw [Option.filter_eq_some_iff]
    simp
  have hstage : ∀ s, stage1 o env = .ok s → (w ∈ s.md.schemaWarns ↔
      (o.rootIsList = false ∧ (∃ c r, o.metatabName = some (c :: r)) ∧ ∃ s, o.metatabSchema = some s ∧ Complaint { wkt := o.wkt } s w)) := by
    intro s hs
    unfold stage1 at hs
    dsimp only at hs
    split at hs
    · next hg =>
      cases hs
      simp only [List.not_mem_nil, false_iff]
      rintro ⟨_, ⟨c, r, hcr⟩, _⟩
      have := (hgiven (c :: r)).2 ⟨hcr, by simp⟩
      rw [hg] at this; cases this
    · next name hg =>
      split at hs
      · next hl =>
        cases hs
        simp [hl]
      · next hl =>
        split at hs
        · cases hs
        · next m hmp =>
          split at hs
          · cases hs
          · split at hs
            · cases hs
            · cases hs
              dsimp only
              unfold metaPass at hmp
              split at hmp
              · cases hmp
              · next schema hps =>
                rw [pass_schemaWarns hmp, parseOpt_warns hps hm w]
                obtain ⟨h1, h2⟩ := (hgiven name).1 hg
                obtain ⟨c, r, rfl⟩ := List.exists_cons_of_ne_nil h2
                have : o.rootIsList = false := by simpa using hl
                exact ⟨fun h => ⟨this, ⟨c, r, h1⟩, h⟩, fun h => h.2.2⟩
  by_cases hm' : (o.metatabOnly && !o.rootIsList) = true
  · have hno : ¬ (o.metatabOnly = true → o.rootIsList = true) := by
      intro hc
      simp only [Bool.and_eq_true, Bool.not_eq_true'] at hm'
      rw [hc hm'.1] at hm'
      simp at hm'
    unfold runUnflatten at h
    split at h
    · cases h
    · split at h
      · cases h
      · split at h
        · cases h
        · next s hs =>
          split at h
          · cases h
          · cases h
            rw [hstage s hs]
            simp [hno]
  · have hm'' : (o.metatabOnly && !o.rootIsList) = false := by simpa using hm'
    obtain ⟨_, _, s, m, doc, d, hs, hmp, _, _, rfl⟩ := (run_full hm'').1 h
    have hyes : (o.metatabOnly = true → o.rootIsList = true) := by
      intro hc; rw [hc] at hm''; simpa using hm''
    dsimp only
    rw [List.mem_append, hstage s hs]
    refine or_congr Iff.rfl ?_
    unfold mainPass at hmp
    split at hmp
    · cases hmp
    · next schema hps =>
      rw [← hc] at hps
      rw [pass_schemaWarns hmp, parseOpt_warns hps hn w]
      exact ⟨fun h => ⟨hyes, h⟩, fun h => h.2⟩

end Api

/-! ### An example -/

namespace Complaints

deriving instance DecidableEq for SWarn

/-- A text with a title. -/
def text (t : Str) : Schema := .mk { type := .one s%"string", title := some t } none none none

/-- A schema with something wrong: `odd` has an unknown type, `empty` is an object without properties, `items` has no title and rolls up a
field it does not have; and `b` of the items has no title. -/
def schema : Schema :=
  .mk { type := .one s%"object" } (some [(s%"id", text s%"Id"), (s%"odd", .mk { type := .one s%"null" } none none none),
    (s%"empty", .mk { type := .many [s%"null", s%"object"] } none none none),
    (s%"items", .mk { type := .one s%"array", rollUp := some [s%"a", s%"c"] } none
      (some (.mk { type := .one s%"object" } (some [(s%"a", text s%"A"), (s%"b", .mk { type := .one s%"integer" } none none none)]) none none)) none)]) none none

/-- What the parser says about it with titles. -/
def said (titles : Bool) : List SWarn :=
  match parseRoot { rollup := true, useTitles := titles } schema with
  | .ok sp => sp.warns
  | .error _ => []

example : said false = [.unrecognised [s%"null"] s%"odd" [], .noProperties s%"empty/", .missedRollUp [s%"c"]] := by decide +kernel

example : said true = [.unrecognised [s%"null"] s%"odd" [], .noProperties s%"empty/", .noTitle s%"items", .missingTitle s%"items/0/b",
    .missedRollUp [s%"c"], .noTitle s%"items/0/a"] := by decide +kernel

theorem named (cfg : SchemaCfg) : Named cfg schema := fun steps n p h => (wellNamed_of_inside (cfg := cfg) (s := schema) (by decide +kernel) steps n p h).1

/-- The theorem applies, and says that these are the complaints. -/
example (w : SWarn) : w ∈ said true ↔ Complaint { rollup := true, useTitles := true } schema w := by
  unfold said
  cases h : parseRoot { rollup := true, useTitles := true } schema with
  | ok sp => exact C84_schema_warnings _ _ sp h (named _) w
  | error e =>
    have : (match parseRoot { rollup := true, useTitles := true } schema with | .ok _ => true | .error _ => false) = true := by decide +kernel
    rw [h] at this; cases this

end Complaints
end Verif
