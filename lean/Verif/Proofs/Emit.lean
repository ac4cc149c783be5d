import Verif.Model.Flatten
import Verif.Proofs.Dict
/-!
The traversal of the JSON parser as a pure function: it emits a list of events, and the parser's
state is the result of applying the events in order.  `parseFields_run`, `parseItems_run` and
`flatten_run` show that the model (which threads the state) does exactly this.
-/
namespace Verif

/-- What the traversal does to the state. -/
inductive Ev where
  | key (ref : SheetRef) (key : Str)
  | line (ref : SheetRef) (l : FLine)
  | sheet (name : Str)
  | warn (w : FWarn)
  | seen (path : Str)

/-- The effect of an event. -/
def Ev.apply (cfg : FCfg) (st : FState) : Ev → FState
  | .key ref k => st.setSheet ref (sheetKey cfg (st.sheet ref) k).2
  | .line ref l => st.setSheet ref ((st.sheet ref).appendLine l)
  | .sheet n => st.ensure n
  | .warn w => st.warn w
  | .seen p => { st with seen := st.seen ++ [p] }

def runEv (cfg : FCfg) (evs : List Ev) (st : FState) : FState := evs.foldl (Ev.apply cfg) st

theorem runEv_append (cfg : FCfg) (a b : List Ev) (st : FState) :
    runEv cfg (a ++ b) st = runEv cfg b (runEv cfg a st) := by simp [runEv]

@[simp] theorem runEv_nil (cfg : FCfg) (st : FState) : runEv cfg [] st = st := rfl
theorem runEv_cons (cfg : FCfg) (e : Ev) (r : List Ev) (st : FState) :
    runEv cfg (e :: r) st = runEv cfg r (e.apply cfg st) := rfl

/-- The titles of a sheet: they never change. -/
def titlesOf (cfg : FCfg) (ref : SheetRef) : List (Str × Str) := ((initState cfg).sheet ref).titles

/-- The heading used for a field on a sheet. -/
def rn (cfg : FCfg) (ref : SheetRef) (key : Str) : Str :=
  if cfg.useTitles then (Dict.get (titlesOf cfg ref) key).getD key else key

def TitlesOK (cfg : FCfg) (st : FState) : Prop := ∀ ref, (st.sheet ref).titles = titlesOf cfg ref

theorem sheet_setSheet (st : FState) (ref ref' : SheetRef) (s : Sheet) :
    (st.setSheet ref s).sheet ref' = if ref' = ref then s else st.sheet ref' := by
  cases ref with
  | none => cases ref' <;> simp [FState.setSheet, FState.sheet]
  | some n =>
    cases ref' with
    | none => simp [FState.setSheet, FState.sheet]
    | some m =>
      simp only [FState.setSheet, FState.sheet, Dict.get_set, Option.some.injEq]
      by_cases h : n = m
      · simp [h]
      · simp [h, Ne.symm h]

theorem sheet_ensure (st : FState) (n : Str) (ref : SheetRef) : (st.ensure n).sheet ref = st.sheet ref := by
  unfold FState.ensure
  split
  · rfl
  · next h =>
    cases ref with
    | none => rfl
    | some m =>
      simp only [FState.sheet, Dict.get_set]
      split
      · next h' =>
        subst h'
        have : Dict.get st.subs n = none := by
          rw [Dict.get_none_iff]; intro hc; exact h (Dict.has_iff.2 hc)
        simp [this]
      · rfl

theorem sheetKey_titles (cfg : FCfg) (s : Sheet) (k : Str) : (sheetKey cfg s k).2.titles = s.titles := by
  unfold sheetKey sheetKeyTitle sheetKeyField Sheet.addField
  grind

theorem titlesOK_apply {cfg : FCfg} {st : FState} (h : TitlesOK cfg st) (e : Ev) : TitlesOK cfg (e.apply cfg st) := by
  intro ref
  cases e with
  | key r k =>
    simp only [Ev.apply, sheet_setSheet]
    split
    · next h' => subst h'; rw [sheetKey_titles]; exact h _
    · exact h _
  | line r l =>
    simp only [Ev.apply, sheet_setSheet]
    split
    · next h' => subst h'; exact h _
    · exact h _
  | sheet n => simp only [Ev.apply, sheet_ensure]; exact h _
  | warn w => exact h ref
  | seen p => exact h ref

theorem titlesOK_run {cfg : FCfg} {st : FState} (h : TitlesOK cfg st) (evs : List Ev) : TitlesOK cfg (runEv cfg evs st) := by
  induction evs generalizing st with
  | nil => exact h
  | cons e r ih => exact ih (titlesOK_apply h e)

theorem titlesOK_init (cfg : FCfg) : TitlesOK cfg (initState cfg) := fun _ => rfl

theorem sheetKey_rn {cfg : FCfg} {st : FState} (h : TitlesOK cfg st) (ref : SheetRef) (k : Str) :
    (sheetKey cfg (st.sheet ref) k).1 = rn cfg ref k := by
  unfold sheetKey rn sheetKeyTitle sheetKeyField
  rw [h ref]
  split
  · cases Dict.get (titlesOf cfg ref) k <;> rfl
  · rfl

theorem key_run {cfg : FCfg} {st : FState} (h : TitlesOK cfg st) (ref : SheetRef) (k : Str) :
    st.key cfg ref k = (rn cfg ref k, runEv cfg [.key ref k] st) := by
  unfold FState.key
  simp only [sheetKey_rn h, runEv, List.foldl, Ev.apply]

theorem put_run {cfg : FCfg} {st : FState} (h : TitlesOK cfg st) (ref : SheetRef) (k : Str) (v : Json) (flat : FLine) :
    put cfg ref k v flat st = (Dict.set flat (rn cfg ref k) v, runEv cfg [.key ref k] st) := by
  unfold put
  simp only [key_run h]

/-! ### Emission -/

/-- A computation that emits events. -/
abbrev Out (α : Type) := Except Err (α × List Ev)

def Out.bind {α β : Type} (m : Out α) (f : α → Out β) : Out β :=
  match m with
  | .error e => .error e
  | .ok (a, ev) =>
    match f a with
    | .error e => .error e
    | .ok (b, ev') => .ok (b, ev ++ ev')

/-- Emit an event first. -/
def Out.after {α : Type} (ev : List Ev) (m : Out α) : Out α :=
  match m with
  | .error e => .error e
  | .ok (a, ev') => .ok (a, ev ++ ev')

/-- The state-threading computation `m`, run on `st`, does what `o` says. -/
def Does {α : Type} (cfg : FCfg) (st : FState) (r : Except Err (α × FState)) (o : Out α) : Prop :=
  match o with
  | .error e => r = .error e
  | .ok (a, ev) => r = .ok (a, runEv cfg ev st)

def emitParentIds (cfg : FCfg) (ref : SheetRef) : List (Str × Json) → FLine → Out FLine
  | [], flat => .ok (flat, [])
  | (k, v) :: r, flat =>
    match parentIdValue cfg v with
    | .error e => .error e
    | .ok v' => Out.after [.key ref k] (emitParentIds cfg ref r (Dict.set flat (rn cfg ref k) v'))

def emitAddId (cfg : FCfg) (ref : SheetRef) (name field : Str) (fs : List (Str × Json))
    (pids : List (Str × Json)) : List (Str × Json) × List Ev :=
  match Dict.get fs field with
  | none => (pids, [])
  | some v => (Dict.set pids (rn cfg ref name) v, [.key ref name])

def emitGeo (cfg : FCfg) (ref : SheetRef) (pn : Str) (flat : Option FLine) (fs : List (Str × Json)) :
    Out (Option (Option FLine × Bool)) :=
  if cfg.wkt && Dict.has fs s%"type" && Dict.has fs s%"coordinates" then
    if cfg.geoLib then
      match cfg.wktOf fs with
      | none => .ok (none, [.key ref (Py.strip (· = '/') pn), .warn .badGeo])
      | some t =>
        match flat with
        | none => .error .type
        | some fl => .ok (some (some (Dict.set fl (rn cfg ref (Py.strip (· = '/') pn)) (.leaf (.str t))), true),
            [.key ref (Py.strip (· = '/') pn)])
    else .ok (some (flat, false), [.warn .geoDeps])
  else .ok (some (flat, false), [])

/-- Result of the code before the loop: `none` is the early return. -/
abbrev Start := Option (List (Str × Json) × FLine × Bool)

def emitRootId (cfg : FCfg) (ref : SheetRef) (fs pids : List (Str × Json)) : List (Str × Json) × List Ev :=
  match cfg.rootId with
  | none => (pids, [])
  | some rid => emitAddId cfg ref rid rid fs pids

def emitIds (cfg : FCfg) (ref : SheetRef) (pn : Str) (pids : List (Str × Json)) (fs : List (Str × Json)) :
    List (Str × Json) × List Ev :=
  ((emitAddId cfg ref (pn ++ cfg.idName) cfg.idName fs (emitRootId cfg ref fs pids).1).1,
   (emitRootId cfg ref fs pids).2 ++
     (emitAddId cfg ref (pn ++ cfg.idName) cfg.idName fs (emitRootId cfg ref fs pids).1).2)

def emitStartLine (cfg : FCfg) (ref : SheetRef) (topSub : Bool) (pids : List (Str × Json)) (flat : FLine) : Out FLine :=
  if topSub then emitParentIds cfg ref pids flat else .ok (flat, [])

/-- After the geometry stage. -/
def emitStart (cfg : FCfg) (ref : SheetRef) (pn : Str) (topSub : Bool) (pids : List (Str × Json))
    (fs : List (Str × Json)) (g : Option (Option FLine × Bool)) : Out Start :=
  match g with
  | none => .ok (none, [])
  | some (flat, skip) =>
    if filteredOut cfg pn fs then .ok (none, [])
    else (emitStartLine cfg ref topSub pids (flat.getD [])).bind (fun fl =>
      .ok (some ((emitIds cfg ref pn pids fs).1, fl, skip), (emitIds cfg ref pn pids fs).2))

def emitPrologue (cfg : FCfg) (ref : SheetRef) (pn : Str) (topSub : Bool) (pids : List (Str × Json))
    (flat : Option FLine) (fs : List (Str × Json)) : Out Start :=
  (emitGeo cfg ref pn flat fs).bind (emitStart cfg ref pn topSub pids fs)

def Start.toPrologue (s : Start) (st : FState) : Prologue :=
  match s with
  | none => .ret st
  | some (pids, fl, skip) => .go pids fl skip st

def emitPut (cfg : FCfg) (ref : SheetRef) (k : Str) (v : Json) (flat : FLine) : Out FLine :=
  .ok (Dict.set flat (rn cfg ref k) v, [.key ref k])

def emitRollupOne (cfg : FCfg) (ref : SheetRef) (pn key : Str) (k : Str) (v : Json) (flat : FLine) : Out FLine :=
  if rollupDropped cfg pn key k then .ok (flat, [])
  else if !v.basic then .error .value
  else match rollupField cfg pn key (pn ++ (key ++ (s%"/0/" ++ k))) with
    | some f => emitPut cfg ref f v flat
    | none => .ok (flat, [])

def emitRollupOnes (cfg : FCfg) (ref : SheetRef) (pn key : Str) : List (Str × Json) → FLine → Out FLine
  | [], flat => .ok (flat, [])
  | (k, v) :: r, flat =>
    (emitRollupOne cfg ref pn key k v flat).bind (emitRollupOnes cfg ref pn key r)

def emitRollupMany (cfg : FCfg) (ref : SheetRef) (pn key : Str) : List Str → FLine → FLine × List Ev
  | [], flat => (flat, [])
  | k :: r, flat =>
    if !rollupDropped cfg pn key k && rollupWarned cfg pn key (pn ++ (key ++ (s%"/0/" ++ k))) then
      let p := emitRollupMany cfg ref pn key r
        (Dict.set flat (rn cfg ref (pn ++ (key ++ (s%"/0/" ++ k)))) (.leaf (.str rollupText)))
      (p.1, .warn (.rollupMany (pn ++ key)) :: .key ref (pn ++ (key ++ (s%"/0/" ++ k))) :: p.2)
    else emitRollupMany cfg ref pn key r flat

def emitRollup (cfg : FCfg) (ref : SheetRef) (pn key : Str) (items : List Json) (flat : FLine) : Out FLine :=
  if cfg.rollup.isEmpty || !pn.isEmpty then .ok (flat, [])
  else if cfg.useTitles && cfg.schema.isNone then .error .type
  else match items with
    | [] => .ok (flat, [])
    | [.obj fs] => emitRollupOnes cfg ref pn key fs flat
    | [_] => .error .attr
    | is =>
      match allKeys is with
      | none => .error .attr
      | some ks => .ok (emitRollupMany cfg ref pn key (cfg.order (dedup ks)) flat)

mutual
def emitFields (cfg : FCfg) (ref : SheetRef) (pn : Str) (pids : List (Str × Json)) (skip : Bool) :
    List (Str × Json) → FLine → Out FLine
  | [], flat => .ok (flat, [])
  | (key, value) :: rest, flat =>
    if skip && (key = s%"type" || key = s%"coordinates") then
      emitFields cfg ref pn pids skip rest flat
    else Out.after [.seen (Py.replaceAll s%"/0" [] pn ++ key)]
      (if dropped cfg pn key then emitFields cfg ref pn pids skip rest flat
      else (emitValue cfg ref pn pids key value flat).bind (fun r => emitFields cfg ref r.1 pids skip rest r.2))
termination_by structural fs => fs
def emitValue (cfg : FCfg) (ref : SheetRef) (pn : Str) (pids : List (Str × Json)) (key : Str) :
    Json → FLine → Out (Str × FLine)
  | .leaf a, flat =>
    if a.basic then
      if cfg.xml && key = s%"#text" then
        (emitPut cfg ref (Py.strip (· = '/') pn) (.leaf a) flat).bind (fun fl => .ok ((Py.strip (· = '/') pn, fl), []))
      else (emitPut cfg ref (pn ++ key) (.leaf a) flat).bind (fun fl => .ok ((pn, fl), []))
    else .error .value
  | .obj fs, flat =>
    (emitPrologue cfg ref (pn ++ (key ++ s%"/")) false pids (some flat) fs).bind (fun s =>
      match s with
      | none => .ok ((pn, flat), [])
      | some (pids', fl, skip') =>
        (emitFields cfg ref (pn ++ (key ++ s%"/")) pids' skip' fs fl).bind (fun fl => .ok ((pn, fl), [])))
  | .arr items, flat =>
    match joinArray items with
    | some t => (emitPut cfg ref (pn ++ key) (.leaf (.str t)) flat).bind (fun fl => .ok ((pn, fl), []))
    | none =>
      (emitRollup cfg ref pn key items flat).bind (fun fl =>
        Out.after [.sheet (subSheetName cfg pn key)]
          ((emitItems cfg (subSheetName cfg pn key) (pn ++ (key ++ s%"/0/")) pids items).bind (fun _ =>
            .ok ((pn, fl), []))))
termination_by structural v => v
def emitItems (cfg : FCfg) (name : Str) (pn : Str) (pids : List (Str × Json)) : List Json → Out Unit
  | [] => .ok ((), [])
  | .leaf a :: r => if a = .none then emitItems cfg name pn pids r else .error .type
  | .arr _ :: _ => .error .attr
  | .obj fs :: r =>
    (emitPrologue cfg (some name) pn true pids none fs).bind (fun s =>
      match s with
      | none => emitItems cfg name pn pids r
      | some (pids', fl, skip) =>
        (emitFields cfg (some name) pn pids' skip fs fl).bind (fun fl =>
          Out.after [.line (some name) fl] (emitItems cfg name pn pids r)))
termination_by structural l => l
end

def emitRootItem (cfg : FCfg) (num : Nat) (j : Json) : Out Unit :=
  match j with
  | .leaf a => .ok ((), if a = .none then [] else [.warn (.notAnObject num)])
  | .arr _ => .ok ((), [.warn (.notAnObject num)])
  | .obj fs =>
    (emitPrologue cfg none [] false [] none fs).bind (fun s =>
      match s with
      | none => .ok ((), [])
      | some (pids, fl, skip) =>
        (emitFields cfg none [] pids skip fs fl).bind (fun fl => .ok ((), [.line none fl])))

def emitRootList (cfg : FCfg) : Nat → List Json → Out Unit
  | _, [] => .ok ((), [])
  | n, j :: r => (emitRootItem cfg n j).bind (fun _ => emitRootList cfg (n + 1) r)

/-! ### The model does what is emitted -/

theorem Does.ok_iff {α : Type} {cfg : FCfg} {st : FState} {r : Except Err (α × FState)} {a : α} {ev : List Ev} :
    Does cfg st r (.ok (a, ev)) ↔ r = .ok (a, runEv cfg ev st) := Iff.rfl
theorem Does.error_iff {α : Type} {cfg : FCfg} {st : FState} {r : Except Err (α × FState)} {e : Err} :
    Does cfg st r (.error e) ↔ r = .error e := Iff.rfl

theorem Does.after {α : Type} {cfg : FCfg} {st : FState} {r : Except Err (α × FState)} {o : Out α} {ev : List Ev}
    (h : Does cfg (runEv cfg ev st) r o) : Does cfg st r (Out.after ev o) := by
  cases o with
  | error e => exact h
  | ok p => obtain ⟨a, ev'⟩ := p; simp only [Does, Out.after] at h ⊢; rw [h, runEv_append]

theorem Does.bind {α β : Type} {cfg : FCfg} {st : FState} {m : Except Err (α × FState)} {o : Out α}
    {k : α → FState → Except Err (β × FState)} {f : α → Out β} (ht : TitlesOK cfg st) (h : Does cfg st m o)
    (hk : ∀ a st1, TitlesOK cfg st1 → Does cfg st1 (k a st1) (f a)) : Does cfg st (andThen m k) (o.bind f) := by
  cases o with
  | error e => simp only [Does] at h; subst h; simp [andThen, Out.bind, Does]
  | ok p =>
    obtain ⟨a, ev⟩ := p
    simp only [Does] at h; subst h
    have := hk a _ (titlesOK_run ht ev)
    simp only [Out.bind, andThen]
    cases hf : f a with
    | error e => rw [hf] at this; simpa only [Does] using this
    | ok q => obtain ⟨b, ev'⟩ := q; rw [hf] at this; simp only [Does, runEv_append] at this ⊢; exact this

theorem putParentIds_run (cfg : FCfg) (ref : SheetRef) (ps : List (Str × Json)) (flat : FLine) (st : FState)
    (ht : TitlesOK cfg st) : Does cfg st (putParentIds cfg ref ps flat st) (emitParentIds cfg ref ps flat) := by
  induction ps generalizing flat st with
  | nil => rfl
  | cons e r ih =>
    obtain ⟨k, v⟩ := e
    unfold putParentIds emitParentIds
    cases parentIdValue cfg v with
    | error e => rfl
    | ok v' =>
      simp only [put_run ht]
      exact Does.after (ih _ _ (titlesOK_run ht _))

theorem addId_run (cfg : FCfg) (ref : SheetRef) (name field : Str) (fs pids : List (Str × Json)) (st : FState)
    (ht : TitlesOK cfg st) : addId cfg ref name field fs pids st =
      ((emitAddId cfg ref name field fs pids).1, runEv cfg (emitAddId cfg ref name field fs pids).2 st) := by
  unfold addId emitAddId
  cases Dict.get fs field with
  | none => rfl
  | some v => simp only [key_run ht]

theorem geoStage_run (cfg : FCfg) (ref : SheetRef) (pn : Str) (flat : Option FLine) (fs : List (Str × Json)) (st : FState)
    (ht : TitlesOK cfg st) : Does cfg st (geoStage cfg ref pn flat fs st) (emitGeo cfg ref pn flat fs) := by
  unfold geoStage emitGeo
  split
  · split
    · simp only [key_run ht]
      cases cfg.wktOf fs with
      | none => rfl
      | some t => cases flat <;> rfl
    · rfl
  · rfl

theorem startLine_run (cfg : FCfg) (ref : SheetRef) (topSub : Bool) (ps : List (Str × Json)) (flat : FLine) (st : FState)
    (ht : TitlesOK cfg st) : Does cfg st (startLine cfg ref topSub ps flat st) (emitStartLine cfg ref topSub ps flat) := by
  unfold startLine emitStartLine
  split
  · exact putParentIds_run _ _ _ _ _ ht
  · rfl

theorem addRootId_run (cfg : FCfg) (ref : SheetRef) (fs pids : List (Str × Json)) (st : FState)
    (ht : TitlesOK cfg st) : addRootId cfg ref fs pids st =
      ((emitRootId cfg ref fs pids).1, runEv cfg (emitRootId cfg ref fs pids).2 st) := by
  unfold addRootId emitRootId
  cases cfg.rootId with
  | none => rfl
  | some r => exact addId_run _ _ _ _ _ _ _ ht

theorem prologue_run (cfg : FCfg) (ref : SheetRef) (pn : Str) (topSub : Bool) (pids : List (Str × Json))
    (flat : Option FLine) (fs : List (Str × Json)) (st : FState) (ht : TitlesOK cfg st) :
    prologue cfg ref pn topSub pids flat fs st =
      (match emitPrologue cfg ref pn topSub pids flat fs with
       | .error e => .error e
       | .ok (s, ev) => .ok (s.toPrologue (runEv cfg ev st))) := by
  unfold prologue emitPrologue
  have hg := geoStage_run cfg ref pn flat fs st ht
  cases hE : emitGeo cfg ref pn flat fs with
  | error e => rw [hE] at hg; simp only [Does] at hg; simp [hg, Out.bind]
  | ok p =>
    obtain ⟨g, ev⟩ := p
    rw [hE] at hg; simp only [Does] at hg; rw [hg]
    cases g with
    | none => simp [Out.bind, emitStart, Start.toPrologue]
    | some q =>
      obtain ⟨fl, skip⟩ := q
      simp only [Out.bind, emitStart]
      by_cases hf : filteredOut cfg pn fs = true
      · simp [hf, Start.toPrologue]
      · have hf' : filteredOut cfg pn fs = false := by simpa using hf
        simp only [hf', Bool.false_eq_true, if_false]
        have ht1 := titlesOK_run ht ev
        have hs := startLine_run cfg ref topSub pids (fl.getD []) _ ht1
        cases hE2 : emitStartLine cfg ref topSub pids (fl.getD []) with
        | error e => rw [hE2] at hs; simp only [Does] at hs; simp [hs]
        | ok p2 =>
          obtain ⟨fl2, ev2⟩ := p2
          rw [hE2] at hs; simp only [Does] at hs
          have ht2 := titlesOK_run ht1 ev2
          simp only [hs, addRootId_run _ _ _ _ _ ht2, Start.toPrologue, emitIds]
          rw [addId_run _ _ _ _ _ _ _ (titlesOK_run ht2 _)]
          simp only [runEv_append]

theorem emitPut_run (cfg : FCfg) (ref : SheetRef) (k : Str) (v : Json) (flat : FLine) (st : FState)
    (ht : TitlesOK cfg st) : Does cfg st (.ok (put cfg ref k v flat st)) (emitPut cfg ref k v flat) := by
  rw [put_run ht]; rfl

theorem rollupOne_run (cfg : FCfg) (ref : SheetRef) (pn key k : Str) (v : Json) (flat : FLine) (st : FState)
    (ht : TitlesOK cfg st) : Does cfg st (rollupOne cfg ref pn key k v flat st) (emitRollupOne cfg ref pn key k v flat) := by
  unfold rollupOne emitRollupOne
  by_cases h1 : rollupDropped cfg pn key k = true
  · simp only [h1, if_true]; rfl
  · rw [if_neg h1, if_neg h1]
    by_cases h2 : (!v.basic) = true
    · rw [if_pos h2, if_pos h2]; rfl
    · rw [if_neg h2, if_neg h2]
      cases rollupField cfg pn key (pn ++ (key ++ (s%"/0/" ++ k))) with
      | none => rfl
      | some f => exact emitPut_run _ _ _ _ _ _ ht

theorem rollupOnes_run (cfg : FCfg) (ref : SheetRef) (pn key : Str) (fs : List (Str × Json)) (flat : FLine) (st : FState)
    (ht : TitlesOK cfg st) : Does cfg st (rollupOnes cfg ref pn key fs flat st) (emitRollupOnes cfg ref pn key fs flat) := by
  induction fs generalizing flat st with
  | nil => rfl
  | cons e r ih =>
    obtain ⟨k, v⟩ := e
    have : rollupOnes cfg ref pn key ((k, v) :: r) flat st =
        andThen (rollupOne cfg ref pn key k v flat st) (rollupOnes cfg ref pn key r) := by
      rw [rollupOnes]; unfold andThen; cases rollupOne cfg ref pn key k v flat st <;> rfl
    rw [this, emitRollupOnes]
    exact Does.bind ht (rollupOne_run _ _ _ _ _ _ _ _ ht) (fun a st1 h1 => ih a st1 h1)

theorem rollupMany_run (cfg : FCfg) (ref : SheetRef) (pn key : Str) (ks : List Str) (flat : FLine) (st : FState)
    (ht : TitlesOK cfg st) : ks.foldl (rollupMany cfg ref pn key) (flat, st) =
      ((emitRollupMany cfg ref pn key ks flat).1, runEv cfg (emitRollupMany cfg ref pn key ks flat).2 st) := by
  induction ks generalizing flat st with
  | nil => rfl
  | cons k r ih =>
    rw [List.foldl_cons, emitRollupMany]
    rw [show rollupMany cfg ref pn key (flat, st) k = _ from rfl]
    rw [rollupMany]
    split
    · have ht1 : TitlesOK cfg (st.warn (.rollupMany (pn ++ key))) := titlesOK_apply ht (.warn _)
      rw [put_run ht1, ih _ _ (titlesOK_run ht1 _)]
      rfl
    · exact ih _ _ ht

theorem rollupStage_run (cfg : FCfg) (ref : SheetRef) (pn key : Str) (items : List Json) (flat : FLine) (st : FState)
    (ht : TitlesOK cfg st) : Does cfg st (rollupStage cfg ref pn key items flat st) (emitRollup cfg ref pn key items flat) := by
  unfold rollupStage emitRollup
  split
  · rfl
  split
  · rfl
  · match items with
    | [] => rfl
    | [.obj fs] => exact rollupOnes_run _ _ _ _ _ _ _ ht
    | [.leaf _] => rfl
    | [.arr _] => rfl
    | a :: b :: r =>
      cases hk : allKeys (a :: b :: r) with
      | none => simp only [hk]; rfl
      | some ks =>
        simp only [hk, rollupMany_run _ _ _ _ _ _ _ ht]
        rfl

/-- Continuing after the prologue. -/
theorem Does.start {α : Type} {cfg : FCfg} {st : FState} {ref : SheetRef} {pn : Str} {topSub : Bool}
    {pids : List (Str × Json)} {flat : Option FLine} {fs : List (Str × Json)} (ht : TitlesOK cfg st)
    {r : Except Err (α × FState)} {f : Start → Out α}
    (herr : ∀ e, prologue cfg ref pn topSub pids flat fs st = .error e → r = .error e)
    (hok : ∀ s st1, TitlesOK cfg st1 → prologue cfg ref pn topSub pids flat fs st = .ok (s.toPrologue st1) →
      Does cfg st1 r (f s)) :
    Does cfg st r ((emitPrologue cfg ref pn topSub pids flat fs).bind f) := by
  have h := prologue_run cfg ref pn topSub pids flat fs st ht
  cases hE : emitPrologue cfg ref pn topSub pids flat fs with
  | error e => rw [hE] at h; exact herr e h
  | ok p =>
    obtain ⟨s, ev⟩ := p
    rw [hE] at h
    have := hok s _ (titlesOK_run ht ev) h
    exact Does.after this

mutual
theorem parseFields_run (cfg : FCfg) (ref : SheetRef) (pn : Str) (pids : List (Str × Json)) (skip : Bool)
    (fs : List (Str × Json)) (flat : FLine) (st : FState) (ht : TitlesOK cfg st) :
    Does cfg st (parseFields cfg ref pn pids skip fs flat st) (emitFields cfg ref pn pids skip fs flat) := by
  match fs with
  | [] => rw [parseFields, emitFields]; rfl
  | (key, value) :: rest =>
    have rec_ := fun pn fl st1 h => parseFields_run cfg ref pn pids skip rest fl st1 h
    rw [parseFields, emitFields]
    split
    · exact rec_ _ _ _ ht
    · apply Does.after
      have ht1 : TitlesOK cfg (runEv cfg [.seen (Py.replaceAll s%"/0" [] pn ++ key)] st) := titlesOK_run ht _
      split
      · exact rec_ _ _ _ ht1
      · exact Does.bind ht1 (parseValue_run cfg ref pn pids key value flat _ ht1) (fun r st2 h2 => rec_ _ _ _ h2)
termination_by structural fs
theorem parseValue_run (cfg : FCfg) (ref : SheetRef) (pn : Str) (pids : List (Str × Json)) (key : Str)
    (v : Json) (flat : FLine) (st : FState) (ht : TitlesOK cfg st) :
    Does cfg st (parseValue cfg ref pn pids key v flat st) (emitValue cfg ref pn pids key v flat) := by
  match v with
  | .leaf a =>
    rw [parseValue, emitValue]
    split
    · split <;> (rw [put_run ht]; simp only [emitPut, Out.bind, Does, List.append_nil])
    · rfl
  | .obj gs =>
    rw [parseValue, emitValue]
    refine Does.start ht ?_ ?_
    · intro e h; rw [h]
    · intro s st1 ht1 h
      rw [h]
      cases s with
      | none => rfl
      | some q =>
        obtain ⟨pids', fl, skip'⟩ := q
        exact Does.bind ht1 (parseFields_run cfg ref _ pids' skip' gs fl _ ht1) (fun _ _ _ => rfl)
  | .arr items =>
    rw [parseValue, emitValue]
    cases joinArray items with
    | some t => dsimp only; rw [put_run ht]; simp only [emitPut, Out.bind, Does, List.append_nil]
    | none =>
      exact Does.bind ht (rollupStage_run cfg ref pn key items flat st ht) (fun fl st2 h2 =>
        Does.after (ev := [.sheet (subSheetName cfg pn key)])
          (Does.bind (titlesOK_run h2 _)
            (parseItems_run cfg _ _ pids items _ (titlesOK_run h2 [.sheet (subSheetName cfg pn key)]))
            (fun _ _ _ => rfl)))
termination_by structural v
theorem parseItems_run (cfg : FCfg) (name : Str) (pn : Str) (pids : List (Str × Json)) (items : List Json) (st : FState)
    (ht : TitlesOK cfg st) :
    Does cfg st (parseItems cfg name pn pids items st) (emitItems cfg name pn pids items) := by
  match items with
  | [] => rw [parseItems, emitItems]; rfl
  | .leaf a :: r =>
    rw [parseItems, emitItems]
    split
    · exact parseItems_run cfg name pn pids r st ht
    · rfl
  | .arr _ :: r => rw [parseItems, emitItems]; rfl
  | .obj fs :: r =>
    have rec_ := fun st1 h => parseItems_run cfg name pn pids r st1 h
    rw [parseItems, emitItems]
    refine Does.start ht ?_ ?_
    · intro e h; rw [h]
    · intro s st1 ht1 h
      rw [h]
      cases s with
      | none => exact rec_ _ ht1
      | some q =>
        obtain ⟨pids', fl, skip'⟩ := q
        exact Does.bind ht1 (parseFields_run cfg (some name) pn pids' skip' fs fl _ ht1) (fun fl st3 h =>
          Does.after (ev := [.line (some name) fl]) (rec_ _ (titlesOK_run h [.line (some name) fl])))
termination_by structural items
end

theorem parseRootItem_run (cfg : FCfg) (num : Nat) (j : Json) (st : FState) (ht : TitlesOK cfg st) :
    Does cfg st (parseRootItem cfg num j st) (emitRootItem cfg num j) := by
  match j with
  | .leaf a =>
    simp only [parseRootItem, emitRootItem, Does]
    split <;> rfl
  | .arr _ => rfl
  | .obj fs =>
    unfold parseRootItem emitRootItem
    refine Does.start ht ?_ ?_
    · intro e h; simp only [h]
    · intro s st1 ht1 h
      simp only [h]
      cases s with
      | none => rfl
      | some q =>
        obtain ⟨pids', fl, skip'⟩ := q
        exact Does.bind ht1 (parseFields_run cfg none [] pids' skip' fs fl _ ht1) (fun fl st3 h => rfl)

theorem parseRootList_run (cfg : FCfg) (n : Nat) (l : List Json) (st : FState) (ht : TitlesOK cfg st) :
    Does cfg st (parseRootList cfg n l st) (emitRootList cfg n l) := by
  induction l generalizing n st with
  | nil => rfl
  | cons j r ih =>
    rw [parseRootList, emitRootList]
    exact Does.bind ht (parseRootItem_run _ _ _ _ ht) (fun _ st1 h => ih _ _ h)

/-- Flattening: the emitted events applied to the initial state. -/
theorem flatten_ok {cfg : FCfg} {l : List Json} {st : FState} :
    flatten cfg l = .ok st ↔
      ∃ ev, emitRootList cfg 0 l = .ok ((), ev) ∧ st = finish cfg (runEv cfg ev (initState cfg)) := by
  have h := parseRootList_run cfg 0 l _ (titlesOK_init cfg)
  unfold flatten
  cases hE : emitRootList cfg 0 l with
  | error e => rw [hE] at h; simp only [Does] at h; rw [h]; simp
  | ok p =>
    obtain ⟨⟨⟩, ev⟩ := p
    rw [hE] at h; simp only [Does] at h
    rw [h]
    simp [eq_comm]

end Verif
