import Verif.Model.SchemaModel
import Verif.Proofs.Dict
/-! Invariants of the sub-sheets built by the schema parser. -/
namespace Verif

/-- A property of the sub-sheets kept by everything the schema parser does to them. -/
structure SheetInv (rootId : Str) (P : List (Str × Sheet) → Prop) : Prop where
  fresh : ∀ l n, P l → Dict.get l n = none → P (Dict.set l n { rootId := rootId })
  add : ∀ l n s f t ts, P l → Dict.get l n = some s → P (Dict.set l n { s.addField f t with titles := ts })
  add' : ∀ l n s f, P l → Dict.get l n = some s → P (Dict.set l n (s.addField f))

/-- The property holds, and the paths rolled up are paths of fields inside of something. -/
def SubsAll (P : List (Str × Sheet) → Prop) (st : SState) : Prop := P st.subs ∧ ∀ x ∈ st.rollup, '/' ∈ x

theorem subsAll_modSub {P : List (Str × Sheet) → Prop} {st : SState} (h : SubsAll P st) (n : Str) (f : Sheet → Sheet)
    (hf : ∀ s, Dict.get st.subs n = some s → P (Dict.set st.subs n (f s))) : SubsAll P (st.modSub n f) := by
  unfold SState.modSub
  split
  · next s hs => exact ⟨hf s hs, h.2⟩
  · exact h

theorem subsAll_arrayField {cfg : SchemaCfg} {P : List (Str × Sheet) → Prop} (hP : SheetInv cfg.rootId P) (pp name : Str)
    (title pt : Option Str) (sub : Str) (ru : Option (List Str)) {st : SState} (h : SubsAll P st) (y : Yield) :
    SubsAll P (arrayField cfg pp name title pt sub ru st y).1 := by
  have key : SubsAll P (addColumn cfg pp name title pt sub st y.1 (truthy y.2)) := by
    unfold addColumn
    split
    · split
      · split
        · exact subsAll_modSub h _ _ (fun s hs => hP.add _ _ _ _ _ _ h.1 hs)
        · exact h
      · exact h
    · exact subsAll_modSub h _ _ (fun s hs => hP.add' _ _ _ _ h.1 hs)
  unfold arrayField
  dsimp only
  split
  · refine ⟨key.1, ?_⟩
    dsimp only
    split
    · exact key.2
    · intro x hx
      rcases List.mem_append.1 hx with hx | hx
      · exact key.2 x hx
      · rw [List.mem_singleton.1 hx]; simp
  · exact key

theorem subsAll_arrayFields {cfg : SchemaCfg} {P : List (Str × Sheet) → Prop} (hP : SheetInv cfg.rootId P) (pp name : Str)
    (title pt : Option Str) (sub : Str) (ru : Option (List Str)) (ys : List Yield) {st : SState} (h : SubsAll P st) :
    SubsAll P (arrayFields cfg pp name title pt sub ru ys st).1 := by
  induction ys generalizing st with
  | nil => exact h
  | cons y r ih => exact ih (subsAll_arrayField hP _ _ _ _ _ _ h y)

theorem subsAll_open {cfg : SchemaCfg} {P : List (Str × Sheet) → Prop} (hP : SheetInv cfg.rootId P) (ctx : SCtx) (name : Str)
    (title : Option Str) (ids : List Str) {st : SState} (h : SubsAll P st) :
    SubsAll P (openSubSheet cfg ctx name title ids st).1 := by
  have hfold : ∀ (sub : Str) (lk : TitleTree) (ids : List Str) (st : SState), SubsAll P st →
      SubsAll P (ids.foldl (addIdColumn lk sub) st) := by
    intro sub lk ids
    induction ids with
    | nil => intro st h; exact h
    | cons f r ih => intro st h; exact ih _ (subsAll_modSub h _ _ (fun s hs => hP.add _ _ _ _ _ _ h.1 hs))
  apply hfold
  have h1 : SubsAll P (noteSubTitle cfg ctx name (subNameOf cfg ctx name title) st) := by
    unfold noteSubTitle; split <;> exact h
  unfold ensureSub
  split
  · exact h1
  · next hn =>
    refine ⟨hP.fresh _ _ h1.1 ?_, h1.2⟩
    rw [Dict.get_none_iff]; exact fun hc => hn (Dict.has_iff.2 hc)

theorem sThen_ok {m : Except Err (List Yield × SState)} {k : List Yield → SState → Except Err (List Yield × SState)}
    {ys : List Yield} {st : SState} :
    sThen m k = .ok (ys, st) ↔ ∃ y1 st1, m = .ok (y1, st1) ∧ k y1 st1 = .ok (ys, st) := by
  cases m with
  | error e => simp [sThen]
  | ok p => obtain ⟨y, s⟩ := p; simp [sThen, and_assoc]

mutual
theorem subsAll_parseSchema {cfg : SchemaCfg} {P : List (Str × Sheet) → Prop} (hP : SheetInv cfg.rootId P) (ctx : SCtx) (sch : Schema)
    (st : SState) (h : SubsAll P st) (ys : List Yield) (st' : SState) (hr : parseSchema cfg ctx sch st = .ok (ys, st')) :
    SubsAll P st' := by
  match sch with
  | .mk info props items one =>
    rw [parseSchema] at hr
    split at hr
    · exact subsAll_itemsOneOf hP ctx items st h ys st' hr
    · exact subsAll_body hP ctx props st h ys st' hr
termination_by structural sch
theorem subsAll_body {cfg : SchemaCfg} {P : List (Str × Sheet) → Prop} (hP : SheetInv cfg.rootId P) (ctx : SCtx)
    (props : Option (List (Str × Schema)))
    (st : SState) (h : SubsAll P st) (ys : List Yield) (st' : SState) (hr : parseBody cfg ctx props st = .ok (ys, st')) :
    SubsAll P st' := by
  match props with
  | some ps => rw [parseBody] at hr; exact subsAll_props hP ctx _ ps st h ys st' hr
  | none => simp [parseBody] at hr; rw [← hr.2]; exact h
termination_by structural props
theorem subsAll_itemsOneOf {cfg : SchemaCfg} {P : List (Str × Sheet) → Prop} (hP : SheetInv cfg.rootId P) (ctx : SCtx) (items : Option Schema)
    (st : SState) (h : SubsAll P st) (ys : List Yield) (st' : SState) (hr : parseItemsOneOf cfg ctx items st = .ok (ys, st')) :
    SubsAll P st' := by
  match items with
  | some (.mk _ _ _ (some alts)) =>
    rw [parseItemsOneOf] at hr
    exact subsAll_alts hP _ alts st h ys st' hr
  | none => simp [parseItemsOneOf] at hr; rw [← hr.2]; exact h
  | some (.mk _ _ _ none) => simp [parseItemsOneOf] at hr; rw [← hr.2]; exact h
termination_by structural items
theorem subsAll_alts {cfg : SchemaCfg} {P : List (Str × Sheet) → Prop} (hP : SheetInv cfg.rootId P) (ctx : SCtx) (alts : List Schema)
    (st : SState) (h : SubsAll P st) (ys : List Yield) (st' : SState) (hr : parseAlts cfg ctx alts st = .ok (ys, st')) :
    SubsAll P st' := by
  match alts with
  | [] => simp [parseAlts] at hr; rw [← hr.2]; exact h
  | a :: r =>
    have ha := fun ys st' => subsAll_parseSchema hP ctx a st h ys st'
    have hrr := fun st h ys st' => subsAll_alts hP ctx r st h ys st'
    rw [parseAlts] at hr
    split at hr
    · obtain ⟨y1, st1, h1, h2⟩ := sThen_ok.1 hr
      obtain ⟨y2, st2, h3, h4⟩ := sThen_ok.1 h2
      simp only [Except.ok.injEq, Prod.mk.injEq] at h4; rw [← h4.2]
      exact hrr _ (ha _ _ h1) _ _ h3
    · exact hrr _ h _ _ hr
termination_by structural alts
theorem subsAll_props {cfg : SchemaCfg} {P : List (Str × Sheet) → Prop} (hP : SheetInv cfg.rootId P) (ctx : SCtx) (ids : List Str)
    (ps : List (Str × Schema)) (st : SState) (h : SubsAll P st) (ys : List Yield) (st' : SState)
    (hr : parseProps cfg ctx ids ps st = .ok (ys, st')) : SubsAll P st' := by
  match ps with
  | [] => simp [parseProps] at hr; rw [← hr.2]; exact h
  | (name, s) :: r =>
    have ha := fun st h ys st' => subsAll_prop hP ctx ids name s st h ys st'
    have hrr := fun st h ys st' => subsAll_props hP ctx ids r st h ys st'
    have hn : SubsAll P (noteTitle ctx name s.info st) := by unfold noteTitle; split <;> exact h
    rw [parseProps] at hr
    split at hr
    · exact hrr _ h _ _ hr
    · obtain ⟨y1, st1, h1, h2⟩ := sThen_ok.1 hr
      obtain ⟨y2, st2, h3, h4⟩ := sThen_ok.1 h2
      simp only [Except.ok.injEq, Prod.mk.injEq] at h4; rw [← h4.2]
      exact hrr _ (ha _ hn _ _ h1) _ _ h3
termination_by structural ps
theorem subsAll_prop {cfg : SchemaCfg} {P : List (Str × Sheet) → Prop} (hP : SheetInv cfg.rootId P) (ctx : SCtx) (ids : List Str)
    (name : Str) (sch : Schema) (st : SState) (h : SubsAll P st) (ys : List Yield) (st' : SState)
    (hr : parseProp cfg ctx ids name sch st = .ok (ys, st')) : SubsAll P st' := by
  match sch with
  | .mk info props items one =>
    have hset : ∀ p t, SubsAll P (st.setType p t) := fun p t => h
    rw [parseProp] at hr
    split at hr
    · split at hr
      · simp only [Except.ok.injEq, Prod.mk.injEq] at hr; rw [← hr.2]; exact hset _ _
      · obtain ⟨y1, st1, h1, h2⟩ := sThen_ok.1 hr
        simp only [Except.ok.injEq, Prod.mk.injEq] at h2; rw [← h2.2]
        split at h1
        · exact subsAll_itemsOneOf hP _ items _ (hset _ _) _ _ h1
        · exact subsAll_body hP _ props _ (hset _ _) _ _ h1
    · split at hr
      · exact subsAll_array hP ctx ids name info items st h ys st' hr
      · simp only [Except.ok.injEq] at hr
        unfold parseScalar at hr
        split at hr
        · simp only [Prod.mk.injEq] at hr; rw [← hr.2]; exact hset _ _
        · simp only [Prod.mk.injEq] at hr; rw [← hr.2]; exact h
termination_by structural sch
theorem subsAll_array {cfg : SchemaCfg} {P : List (Str × Sheet) → Prop} (hP : SheetInv cfg.rootId P) (ctx : SCtx) (ids : List Str)
    (name : Str) (info : SchemaInfo) (items : Option Schema) (st : SState) (h : SubsAll P st) (ys : List Yield) (st' : SState)
    (hr : parseArray cfg ctx ids name info items st = .ok (ys, st')) : SubsAll P st' := by
  have hset : ∀ p t, SubsAll P (st.setType p t) := fun p t => h
  match items with
  | none => simp [parseArray] at hr
  | some item =>
    rw [parseArray] at hr
    split at hr
    · cases hr
    · simp only [Except.ok.injEq, Prod.mk.injEq] at hr; rw [← hr.2]; exact hset _ _
    · obtain ⟨y1, st1, h1, h2⟩ := sThen_ok.1 hr
      have h3 := subsAll_parseSchema hP _ item _ (subsAll_open hP ctx name info.effTitle ids (hset _ _)) _ _ h1
      have h4 := subsAll_arrayFields hP ctx.parentPath name info.effTitle ctx.parentTitle
        (subNameOf cfg ctx name info.effTitle) info.rollUp y1 h3
      simp only [Except.ok.injEq, finishArray, Prod.mk.injEq] at h2; rw [← h2.2]
      unfold checkRollUp
      dsimp only
      split
      · exact h4
      · exact h4
termination_by structural items
end

/-- A property of the main sheet kept by adding fields. -/
theorem main_inv {cfg : SchemaCfg} {P : Sheet → Prop} (hadd : ∀ s f ts, P s → P { s.addField f with titles := ts })
    (hadd' : ∀ s f, P s → P (s.addField f)) (ys : List Yield) (sh : Sheet) (w : List SWarn)
    (h : P sh) : P (mainFields cfg ys (sh, w)).1 := by
  induction ys generalizing sh w with
  | nil => exact h
  | cons y r ih =>
    obtain ⟨f, t⟩ := y
    unfold mainFields
    split
    · split
      · exact ih _ _ (hadd _ _ _ h)
      · exact ih _ _ h
    · exact ih _ _ (hadd' _ _ h)

theorem parseRoot_subs {cfg : SchemaCfg} {P : List (Str × Sheet) → Prop} (hP : SheetInv cfg.rootId P) (h0 : P []) {sch : Schema} {sp : Parsed}
    (h : parseRoot cfg sch = .ok sp) : P sp.subs := by
  unfold parseRoot at h
  split at h
  · cases h
  · next ys st he =>
    simp only [Except.ok.injEq] at h
    rw [← h]
    exact (subsAll_parseSchema hP {} sch {} ⟨h0, by simp⟩ _ _ he).1

theorem parseRoot_rollup {cfg : SchemaCfg} {sch : Schema} {sp : Parsed} (h : parseRoot cfg sch = .ok sp) : ∀ x ∈ sp.rollup, '/' ∈ x := by
  unfold parseRoot at h
  split at h
  · cases h
  · next ys st he =>
    simp only [Except.ok.injEq] at h
    rw [← h]
    exact (subsAll_parseSchema (P := fun _ => True) ⟨fun _ _ _ _ => trivial, fun _ _ _ _ _ _ _ _ => trivial, fun _ _ _ _ _ _ => trivial⟩
      {} sch {} ⟨trivial, by simp⟩ _ _ he).2

theorem parseRoot_main {cfg : SchemaCfg} {P : Sheet → Prop} (hadd : ∀ s f ts, P s → P { s.addField f with titles := ts })
    (hadd' : ∀ s f, P s → P (s.addField f)) (h0 : P {}) {sch : Schema} {sp : Parsed}
    (h : parseRoot cfg sch = .ok sp) : P sp.main := by
  unfold parseRoot at h
  split at h
  · cases h
  · next ys st he =>
    simp only [Except.ok.injEq] at h
    rw [← h]
    exact main_inv hadd hadd' _ _ _ h0

theorem addField_lines (s : Sheet) (f : Str) (t : Bool) : (s.addField f t).lines = s.lines := by
  unfold Sheet.addField; grind

theorem parseRoot_lines {cfg : SchemaCfg} {sch : Schema} {sp : Parsed} (h : parseRoot cfg sch = .ok sp) :
    sp.main.lines = [] ∧ ∀ n s, (n, s) ∈ sp.subs → s.lines = [] := by
  refine ⟨parseRoot_main (P := fun s => s.lines = []) (fun s f ts hs => by simpa [addField_lines] using hs)
    (fun s f hs => by simpa [addField_lines] using hs) rfl h, ?_⟩
  have aux : ∀ (l : List (Str × Sheet)) (n : Str) (s : Sheet), (∀ n s, (n, s) ∈ l → s.lines = []) → s.lines = [] →
      ∀ m t, (m, t) ∈ Dict.set l n s → t.lines = [] := by
    intro l n s hl hs m t hm
    rcases Dict.mem_set hm with ⟨-, rfl⟩ | hm
    · exact hs
    · exact hl _ _ hm
  refine parseRoot_subs (P := fun l => ∀ n s, (n, s) ∈ l → s.lines = []) ⟨?_, ?_, ?_⟩ (by simp) h
  · intro l n hl _; exact aux l n _ hl rfl
  · intro l n s f t ts hl hg; exact aux l n _ hl (by simpa [addField_lines] using hl _ _ (Dict.get_eq_some_mem hg))
  · intro l n s f hl hg; exact aux l n _ hl (by simpa [addField_lines] using hl _ _ (Dict.get_eq_some_mem hg))

theorem parseRoot_nodup {cfg : SchemaCfg} {sch : Schema} {sp : Parsed} (h : parseRoot cfg sch = .ok sp) :
    (Dict.keys sp.subs).Nodup :=
  parseRoot_subs (P := fun l => (Dict.keys l).Nodup)
    ⟨fun _ _ hl _ => Dict.nodup_keys_set _ _ hl, fun _ _ _ _ _ _ hl _ => Dict.nodup_keys_set _ _ hl,
     fun _ _ _ _ hl _ => Dict.nodup_keys_set _ _ hl⟩ (by simp [Dict.keys]) h

end Verif
