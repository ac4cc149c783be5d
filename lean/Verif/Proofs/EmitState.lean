import Verif.Proofs.Emit
/-! What a list of events does to the sheets. -/
namespace Verif

theorem Out.bind_ok {α β : Type} {m : Out α} {f : α → Out β} {b : β} {ev : List Ev} :
    m.bind f = .ok (b, ev) ↔ ∃ a ev1 ev2, m = .ok (a, ev1) ∧ f a = .ok (b, ev2) ∧ ev = ev1 ++ ev2 := by
  cases m with
  | error e => simp [Out.bind]
  | ok p =>
    obtain ⟨a, ev1⟩ := p
    simp only [Out.bind]
    cases hf : f a with
    | error e => simp [hf]
    | ok q =>
      obtain ⟨b', ev2⟩ := q
      constructor
      · intro h
        simp only [Except.ok.injEq, Prod.mk.injEq] at h
        exact ⟨a, ev1, ev2, rfl, by rw [hf, h.1], h.2.symm⟩
      · rintro ⟨a', e1, e2, h1, h2, h3⟩
        simp only [Except.ok.injEq, Prod.mk.injEq] at h1
        rw [← h1.1, hf] at h2
        simp only [Except.ok.injEq, Prod.mk.injEq] at h2
        simp [h3, h1.2, h2.1, h2.2]

theorem Out.after_ok {α : Type} {m : Out α} {a : α} {ev0 ev : List Ev} :
    Out.after ev0 m = .ok (a, ev) ↔ ∃ ev1, m = .ok (a, ev1) ∧ ev = ev0 ++ ev1 := by
  cases m with
  | error e => simp [Out.after]
  | ok p =>
    obtain ⟨a', ev1⟩ := p
    simp only [Out.after, Except.ok.injEq, Prod.mk.injEq]
    constructor
    · rintro ⟨h1, h2⟩; exact ⟨ev1, ⟨h1, rfl⟩, h2.symm⟩
    · rintro ⟨e, ⟨h1, h2⟩, h3⟩; exact ⟨h1, by rw [h3, h2]⟩

/-- The lines added to a sheet. -/
def evLine (ref : SheetRef) : Ev → Option FLine
  | .line r l => if r = ref then some l else none
  | _ => none

def evLines (ref : SheetRef) (ev : List Ev) : List FLine := ev.filterMap (evLine ref)

@[simp] theorem evLines_append (ref : SheetRef) (a b : List Ev) : evLines ref (a ++ b) = evLines ref a ++ evLines ref b := by
  simp [evLines]
@[simp] theorem evLines_nil (ref : SheetRef) : evLines ref [] = [] := rfl

theorem sheetKey_lines (cfg : FCfg) (s : Sheet) (k : Str) : (sheetKey cfg s k).2.lines = s.lines := by
  unfold sheetKey sheetKeyTitle sheetKeyField Sheet.addField
  grind

theorem apply_lines (cfg : FCfg) (e : Ev) (st : FState) (ref : SheetRef) :
    ((e.apply cfg st).sheet ref).lines = (st.sheet ref).lines ++ (evLine ref e).toList := by
  cases e with
  | key r k =>
    simp only [Ev.apply, sheet_setSheet, evLine]
    split
    · next h => subst h; rw [sheetKey_lines]; simp
    · simp
  | line r l =>
    simp only [Ev.apply, sheet_setSheet, evLine]
    by_cases h : r = ref
    · subst h; simp [Sheet.appendLine]
    · simp [h, Ne.symm h]
  | sheet n => simp [Ev.apply, sheet_ensure, evLine]
  | warn w => simp only [evLine, Option.toList, List.append_nil]; cases ref <;> rfl
  | seen p => simp only [evLine, Option.toList, List.append_nil]; cases ref <;> rfl

theorem run_lines (cfg : FCfg) (ev : List Ev) (st : FState) (ref : SheetRef) :
    ((runEv cfg ev st).sheet ref).lines = (st.sheet ref).lines ++ evLines ref ev := by
  induction ev generalizing st with
  | nil => simp [evLines]
  | cons e r ih =>
    rw [runEv_cons, ih, apply_lines]
    simp only [evLines, List.filterMap_cons]
    cases evLine ref e <;> simp

/-! ### Headings -/

theorem headings_addField (s : Sheet) (k : Str) (hk : k ∉ s.headings) :
    (s.addField k).headings = s.headings ++ [k] := by
  have hc : k ∉ s.columns := by
    intro h; apply hk; simp [Sheet.headings, h]
  unfold Sheet.addField
  rw [if_neg (by simp), if_neg hc]
  simp [Sheet.headings]

theorem headings_sheetKey (cfg : FCfg) (s : Sheet) (k : Str) :
    (sheetKey cfg s k).2.headings =
      if (sheetKey cfg s k).1 ∈ s.headings then s.headings else s.headings ++ [(sheetKey cfg s k).1] := by
  unfold sheetKey
  split
  · unfold sheetKeyTitle
    split
    · next t ht =>
      dsimp only
      by_cases h : t ∈ s.headings
      · simp [h]
      · simp [h, headings_addField]
    · dsimp only
      by_cases h : k ∈ s.headings
      · simp [h]
      · simp [h, headings_addField]
  · unfold sheetKeyField
    dsimp only
    by_cases h : k ∈ s.headings
    · simp [h]
    · simp [h, headings_addField]

/-- The heading an event makes sure of on a sheet. -/
def evHead (cfg : FCfg) (ref : SheetRef) : Ev → Option Str
  | .key r k => if r = ref then some (rn cfg ref k) else none
  | _ => none

theorem appendLine_headings (s : Sheet) (l : FLine) : (s.appendLine l).headings = s.headings := rfl

/-- Add a heading unless it is there. -/
def addHead (hs : List Str) (o : Option Str) : List Str :=
  match o with
  | none => hs
  | some h => if h ∈ hs then hs else hs ++ [h]

theorem apply_headings {cfg : FCfg} {st : FState} (ht : TitlesOK cfg st) (e : Ev) (ref : SheetRef) :
    ((e.apply cfg st).sheet ref).headings = addHead (st.sheet ref).headings (evHead cfg ref e) := by
  cases e with
  | key r k =>
    simp only [Ev.apply, sheet_setSheet, evHead]
    by_cases h : r = ref
    · subst h
      simp only [if_true, headings_sheetKey, sheetKey_rn ht, addHead]
    · simp [h, Ne.symm h, addHead]
  | line r l =>
    simp only [Ev.apply, sheet_setSheet, evHead, addHead]
    by_cases h : ref = r
    · subst h; simp [appendLine_headings]
    · simp [h]
  | sheet n => simp [Ev.apply, sheet_ensure, evHead, addHead]
  | warn w => simp only [evHead, addHead]; cases ref <;> rfl
  | seen p => simp only [evHead, addHead]; cases ref <;> rfl

theorem run_headings {cfg : FCfg} {st : FState} (ht : TitlesOK cfg st) (ev : List Ev) (ref : SheetRef) :
    ((runEv cfg ev st).sheet ref).headings = ev.foldl (fun hs e => addHead hs (evHead cfg ref e)) (st.sheet ref).headings := by
  induction ev generalizing st with
  | nil => rfl
  | cons e r ih => rw [runEv_cons, ih (titlesOK_apply ht e), apply_headings ht]; rfl

theorem mem_addHead {hs : List Str} {o : Option Str} {h : Str} : h ∈ addHead hs o ↔ h ∈ hs ∨ o = some h := by
  unfold addHead
  cases o with
  | none => simp
  | some k => dsimp only; split <;> grind

theorem mem_run_headings {cfg : FCfg} {st : FState} (ht : TitlesOK cfg st) (ev : List Ev) (ref : SheetRef) (h : Str) :
    h ∈ ((runEv cfg ev st).sheet ref).headings ↔ h ∈ (st.sheet ref).headings ∨ ∃ e ∈ ev, evHead cfg ref e = some h := by
  rw [run_headings ht]
  generalize (st.sheet ref).headings = hs
  induction ev generalizing hs with
  | nil => simp
  | cons e r ih => rw [List.foldl_cons, ih, mem_addHead]; simp [or_assoc]

theorem nodup_addHead {hs : List Str} (o : Option Str) (h : hs.Nodup) : (addHead hs o).Nodup := by
  unfold addHead
  cases o with
  | none => exact h
  | some k =>
    dsimp only
    split
    · exact h
    · next hk => rw [List.nodup_append]; exact ⟨h, by simp, by simp; intro a ha hc; exact hk (hc ▸ ha)⟩

theorem nodup_run_headings {cfg : FCfg} {st : FState} (ht : TitlesOK cfg st) (ev : List Ev) (ref : SheetRef)
    (h : (st.sheet ref).headings.Nodup) : ((runEv cfg ev st).sheet ref).headings.Nodup := by
  rw [run_headings ht]
  generalize (st.sheet ref).headings = hs at *
  induction ev generalizing hs with
  | nil => exact h
  | cons e r ih => exact ih _ (nodup_addHead _ h)

/-! ### Which sub-sheets exist -/

def evSub : Ev → Option Str
  | .key (some n) _ => some n
  | .line (some n) _ => some n
  | .sheet n => some n
  | _ => none

theorem apply_subs_keys (cfg : FCfg) (e : Ev) (st : FState) :
    Dict.keys (e.apply cfg st).subs = addHead (Dict.keys st.subs) (evSub e) := by
  have hset : ∀ (n : Str) (s : Sheet), Dict.keys (Dict.set st.subs n s) = addHead (Dict.keys st.subs) (some n) := by
    intro n s; rw [Dict.keys_set]; simp [addHead]
  cases e with
  | key r k =>
    cases r with
    | none => rfl
    | some n => exact hset n _
  | line r l =>
    cases r with
    | none => rfl
    | some n => exact hset n _
  | sheet n =>
    simp only [Ev.apply, FState.ensure, evSub]
    split
    · next h => simp [addHead, Dict.has_iff.1 h]
    · exact hset n _
  | warn w => rfl
  | seen p => rfl

theorem run_subs_keys (cfg : FCfg) (ev : List Ev) (st : FState) :
    Dict.keys (runEv cfg ev st).subs = ev.foldl (fun hs e => addHead hs (evSub e)) (Dict.keys st.subs) := by
  induction ev generalizing st with
  | nil => rfl
  | cons e r ih => rw [runEv_cons, ih, apply_subs_keys]; rfl

theorem nodup_run_subs (cfg : FCfg) (ev : List Ev) (st : FState) (h : (Dict.keys st.subs).Nodup) :
    (Dict.keys (runEv cfg ev st).subs).Nodup := by
  rw [run_subs_keys]
  generalize Dict.keys st.subs = hs at *
  induction ev generalizing hs with
  | nil => exact h
  | cons e r ih => exact ih _ (nodup_addHead _ h)

theorem mem_run_subs (cfg : FCfg) (ev : List Ev) (st : FState) (n : Str) :
    n ∈ Dict.keys (runEv cfg ev st).subs ↔ n ∈ Dict.keys st.subs ∨ ∃ e ∈ ev, evSub e = some n := by
  rw [run_subs_keys]
  generalize Dict.keys st.subs = hs
  induction ev generalizing hs with
  | nil => simp
  | cons e r ih => rw [List.foldl_cons, ih, mem_addHead]; simp [or_assoc]

/-! ### Every key of a line has its heading -/

/-- The keys of the line were put there with their heading. -/
def Keyed (cfg : FCfg) (ref : SheetRef) (ev : List Ev) (l : FLine) : Prop :=
  ∀ k ∈ Dict.keys l, ∃ e ∈ ev, evHead cfg ref e = some k

/-- Every line added has keyed headings. -/
def LinesKeyed (cfg : FCfg) (ev : List Ev) : Prop := ∀ ref l, .line ref l ∈ ev → Keyed cfg ref ev l

theorem Keyed.mono {cfg : FCfg} {ref : SheetRef} {ev ev' : List Ev} {l : FLine} (h : Keyed cfg ref ev l)
    (hs : ∀ e ∈ ev, e ∈ ev') : Keyed cfg ref ev' l := by
  intro k hk
  obtain ⟨e, he, hh⟩ := h k hk
  exact ⟨e, hs e he, hh⟩

theorem Keyed.set {cfg : FCfg} {ref : SheetRef} {ev : List Ev} {l : FLine} (h : Keyed cfg ref ev l) (k : Str) (v : Json)
    {ev' : List Ev} (hs : ∀ e ∈ ev, e ∈ ev') (hk : .key ref k ∈ ev') : Keyed cfg ref ev' (Dict.set l (rn cfg ref k) v) := by
  intro x hx
  rcases Dict.mem_keys_set.1 hx with h1 | h1
  · exact ⟨_, hk, by simp [evHead, h1]⟩
  · obtain ⟨e, he, hh⟩ := h x h1; exact ⟨e, hs e he, hh⟩

theorem LinesKeyed.append {cfg : FCfg} {a b : List Ev} (ha : LinesKeyed cfg a) (hb : LinesKeyed cfg b) :
    LinesKeyed cfg (a ++ b) := by
  intro ref l h
  rcases List.mem_append.1 h with h | h
  · exact (ha ref l h).mono (by simp_all)
  · exact (hb ref l h).mono (by simp_all)

theorem LinesKeyed.of_none {cfg : FCfg} {ev : List Ev} (h : ∀ ref l, Ev.line ref l ∉ ev) : LinesKeyed cfg ev :=
  fun ref l hl => absurd hl (h ref l)

theorem LinesKeyed.nil {cfg : FCfg} : LinesKeyed cfg [] := LinesKeyed.of_none (by simp)

/-- The computation, started with a line keyed by `pre`, ends with one keyed by `pre` and its events. -/
def KeepsKeyed (cfg : FCfg) (ref : SheetRef) (flat : FLine) (o : Out FLine) : Prop :=
  ∀ fl ev, o = .ok (fl, ev) → LinesKeyed cfg ev ∧ ∀ pre, Keyed cfg ref pre flat → Keyed cfg ref (pre ++ ev) fl

theorem keepsKeyed_ok {cfg : FCfg} {ref : SheetRef} {flat fl : FLine} {ev : List Ev} (h : LinesKeyed cfg ev)
    (h' : ∀ pre, Keyed cfg ref pre flat → Keyed cfg ref (pre ++ ev) fl) : KeepsKeyed cfg ref flat (.ok (fl, ev)) := by
  intro fl' ev' he
  simp only [Except.ok.injEq, Prod.mk.injEq] at he
  obtain ⟨rfl, rfl⟩ := he
  exact ⟨h, h'⟩

theorem keepsKeyed_refl (cfg : FCfg) (ref : SheetRef) (flat : FLine) : KeepsKeyed cfg ref flat (.ok (flat, [])) :=
  keepsKeyed_ok LinesKeyed.nil (by simp)

theorem keepsKeyed_put (cfg : FCfg) (ref : SheetRef) (k : Str) (v : Json) (flat : FLine) :
    KeepsKeyed cfg ref flat (emitPut cfg ref k v flat) :=
  keepsKeyed_ok (LinesKeyed.of_none (by simp)) (fun pre h => h.set k v (by simp_all) (by simp))

theorem keepsKeyed_bind {cfg : FCfg} {ref : SheetRef} {flat : FLine} {o : Out FLine} {f : FLine → Out FLine}
    (h : KeepsKeyed cfg ref flat o) (hf : ∀ fl, KeepsKeyed cfg ref fl (f fl)) : KeepsKeyed cfg ref flat (o.bind f) := by
  intro fl ev he
  obtain ⟨a, e1, e2, h1, h2, rfl⟩ := Out.bind_ok.1 he
  obtain ⟨h3, h4⟩ := h a e1 h1
  obtain ⟨h5, h6⟩ := hf a fl e2 h2
  exact ⟨h3.append h5, fun pre hp => by rw [← List.append_assoc]; exact h6 _ (h4 pre hp)⟩

theorem keepsKeyed_after {cfg : FCfg} {ref : SheetRef} {flat : FLine} {o : Out FLine} {ev : List Ev}
    (hev : ∀ ref l, Ev.line ref l ∉ ev)
    (h : KeepsKeyed cfg ref flat o) : KeepsKeyed cfg ref flat (Out.after ev o) := by
  intro fl ev he
  obtain ⟨e1, h1, rfl⟩ := Out.after_ok.1 he
  obtain ⟨h3, h4⟩ := h fl e1 h1
  exact ⟨(LinesKeyed.of_none hev).append h3, fun pre hp => (h4 pre hp).mono (by simp; grind)⟩

theorem keepsKeyed_parentIds (cfg : FCfg) (ref : SheetRef) (ps : List (Str × Json)) (flat : FLine) :
    KeepsKeyed cfg ref flat (emitParentIds cfg ref ps flat) := by
  induction ps generalizing flat with
  | nil => exact keepsKeyed_refl _ _ _
  | cons e r ih =>
    obtain ⟨k, v⟩ := e
    rw [emitParentIds]
    cases parentIdValue cfg v with
    | error e => intro _ _ h; cases h
    | ok v' =>
      have := keepsKeyed_bind (keepsKeyed_put cfg ref k v' flat) (fun fl => ih fl)
      simp only [emitPut, Out.bind] at this
      simp only [Out.after]
      cases h : emitParentIds cfg ref r (Dict.set flat (rn cfg ref k) v') <;> rw [h] at this <;> exact this

theorem keepsKeyed_rollupOnes (cfg : FCfg) (ref : SheetRef) (pn key : Str) (fs : List (Str × Json)) (flat : FLine) :
    KeepsKeyed cfg ref flat (emitRollupOnes cfg ref pn key fs flat) := by
  induction fs generalizing flat with
  | nil => exact keepsKeyed_refl _ _ _
  | cons e r ih =>
    obtain ⟨k, v⟩ := e
    rw [emitRollupOnes]
    refine keepsKeyed_bind ?_ (fun fl => ih fl)
    unfold emitRollupOne
    split
    · exact keepsKeyed_refl _ _ _
    · split
      · intro _ _ h; cases h
      · split
        · exact keepsKeyed_put _ _ _ _ _
        · exact keepsKeyed_refl _ _ _

theorem keepsKeyed_rollupMany (cfg : FCfg) (ref : SheetRef) (pn key : Str) (ks : List Str) (flat : FLine) :
    KeepsKeyed cfg ref flat (.ok (emitRollupMany cfg ref pn key ks flat)) := by
  induction ks generalizing flat with
  | nil => exact keepsKeyed_refl _ _ _
  | cons k r ih =>
    rw [emitRollupMany]
    split
    · have := keepsKeyed_after (ev := [.warn (.rollupMany (pn ++ key))]) (by simp)
        (keepsKeyed_bind (keepsKeyed_put cfg ref (pn ++ (key ++ (s%"/0/" ++ k))) (.leaf (.str rollupText)) flat) (fun fl => ih fl))
      exact this
    · exact ih _

theorem keepsKeyed_rollup (cfg : FCfg) (ref : SheetRef) (pn key : Str) (items : List Json) (flat : FLine) :
    KeepsKeyed cfg ref flat (emitRollup cfg ref pn key items flat) := by
  unfold emitRollup
  split
  · exact keepsKeyed_refl _ _ _
  split
  · intro _ _ h; cases h
  · split
    · exact keepsKeyed_refl _ _ _
    · exact keepsKeyed_rollupOnes _ _ _ _ _ _
    · intro _ _ h; cases h
    · split
      · intro _ _ h; cases h
      · exact keepsKeyed_rollupMany _ _ _ _ _ _

theorem emitAddId_lines (cfg : FCfg) (ref : SheetRef) (name field : Str) (fs pids : List (Str × Json)) (r : SheetRef) (l : FLine) :
    Ev.line r l ∉ (emitAddId cfg ref name field fs pids).2 := by
  unfold emitAddId; split <;> simp

theorem emitIds_lines (cfg : FCfg) (ref : SheetRef) (pn : Str) (pids fs : List (Str × Json)) (r : SheetRef) (l : FLine) :
    Ev.line r l ∉ (emitIds cfg ref pn pids fs).2 := by
  unfold emitIds emitRootId
  intro h
  rcases List.mem_append.1 h with h | h
  · split at h
    · simp at h
    · exact emitAddId_lines _ _ _ _ _ _ _ _ h
  · exact emitAddId_lines _ _ _ _ _ _ _ _ h

theorem keepsKeyed_prologue (cfg : FCfg) (ref : SheetRef) (pn : Str) (topSub : Bool) (pids fs : List (Str × Json))
    (flat : Option FLine) (s : Start) (ev : List Ev) (h : emitPrologue cfg ref pn topSub pids flat fs = .ok (s, ev)) :
    LinesKeyed cfg ev ∧ ∀ pids' fl skip, s = some (pids', fl, skip) → ∀ pre, Keyed cfg ref pre (flat.getD []) →
      Keyed cfg ref (pre ++ ev) fl := by
  unfold emitPrologue at h
  obtain ⟨g, e1, e2, h1, h2, rfl⟩ := Out.bind_ok.1 h
  have hg : LinesKeyed cfg e1 ∧ ∀ fl skip, g = some (fl, skip) → ∀ pre, Keyed cfg ref pre (flat.getD []) →
      Keyed cfg ref (pre ++ e1) (fl.getD []) := by
    unfold emitGeo at h1
    split at h1
    · split at h1
      · split at h1
        · simp only [Except.ok.injEq, Prod.mk.injEq] at h1
          obtain ⟨rfl, rfl⟩ := h1
          exact ⟨LinesKeyed.of_none (by simp), by simp⟩
        · split at h1
          · cases h1
          · simp only [Except.ok.injEq, Prod.mk.injEq] at h1
            obtain ⟨rfl, rfl⟩ := h1
            refine ⟨LinesKeyed.of_none (by simp), ?_⟩
            rintro fl skip he pre hp
            simp only [Option.some.injEq, Prod.mk.injEq] at he
            rw [← he.1]
            exact hp.set _ _ (by simp_all) (by simp)
      · simp only [Except.ok.injEq, Prod.mk.injEq] at h1
        obtain ⟨rfl, rfl⟩ := h1
        refine ⟨LinesKeyed.of_none (by simp), ?_⟩
        rintro fl skip he pre hp
        simp only [Option.some.injEq, Prod.mk.injEq] at he
        rw [← he.1]
        exact hp.mono (by simp_all)
    · simp only [Except.ok.injEq, Prod.mk.injEq] at h1
      obtain ⟨rfl, rfl⟩ := h1
      refine ⟨LinesKeyed.nil, ?_⟩
      rintro fl skip he pre hp
      simp only [Option.some.injEq, Prod.mk.injEq] at he
      rw [← he.1]
      exact hp.mono (by simp_all)
  obtain ⟨hg1, hg2⟩ := hg
  unfold emitStart at h2
  split at h2
  · simp only [Except.ok.injEq, Prod.mk.injEq] at h2
    obtain ⟨rfl, rfl⟩ := h2
    exact ⟨hg1.append LinesKeyed.nil, by simp⟩
  · next fl0 skip0 =>
    split at h2
    · simp only [Except.ok.injEq, Prod.mk.injEq] at h2
      obtain ⟨rfl, rfl⟩ := h2
      exact ⟨hg1.append LinesKeyed.nil, by simp⟩
    · obtain ⟨fl1, e3, e4, h3, h4, rfl⟩ := Out.bind_ok.1 h2
      simp only [Except.ok.injEq, Prod.mk.injEq] at h4
      obtain ⟨rfl, rfl⟩ := h4
      have hs : KeepsKeyed cfg ref (fl0.getD []) (emitStartLine cfg ref topSub pids (fl0.getD [])) := by
        unfold emitStartLine
        split
        · exact keepsKeyed_parentIds _ _ _ _
        · exact keepsKeyed_refl _ _ _
      obtain ⟨h5, h6⟩ := hs _ _ h3
      refine ⟨hg1.append (h5.append (LinesKeyed.of_none (emitIds_lines _ _ _ _ _))), ?_⟩
      rintro pids' fl skip he pre hp
      simp only [Option.some.injEq, Prod.mk.injEq] at he
      obtain ⟨-, rfl, -⟩ := he
      refine (h6 _ (hg2 _ _ rfl pre hp)).mono ?_
      intro e he; simp only [List.mem_append] at he ⊢; grind

mutual
theorem keepsKeyed_fields (cfg : FCfg) (ref : SheetRef) (pn : Str) (pids : List (Str × Json)) (skip : Bool)
    (fs : List (Str × Json)) (flat : FLine) : KeepsKeyed cfg ref flat (emitFields cfg ref pn pids skip fs flat) := by
  match fs with
  | [] => rw [emitFields]; exact keepsKeyed_refl _ _ _
  | (key, value) :: rest =>
    have rec_ := fun pn fl => keepsKeyed_fields cfg ref pn pids skip rest fl
    rw [emitFields]
    split
    · exact rec_ _ _
    · refine keepsKeyed_after (by simp) ?_
      split
      · exact rec_ _ _
      · intro fl ev h
        obtain ⟨⟨pn', fl1⟩, e1, e2, h1, h2, rfl⟩ := Out.bind_ok.1 h
        obtain ⟨h3, h4⟩ := keepsKeyed_value cfg ref pn pids key value flat _ _ _ h1
        obtain ⟨h5, h6⟩ := rec_ _ _ _ _ h2
        exact ⟨h3.append h5, fun pre hp => by rw [← List.append_assoc]; exact h6 _ (h4 pre hp)⟩
termination_by structural fs
theorem keepsKeyed_value (cfg : FCfg) (ref : SheetRef) (pn : Str) (pids : List (Str × Json)) (key : Str)
    (v : Json) (flat : FLine) (pn' : Str) (fl : FLine) (ev : List Ev) (h : emitValue cfg ref pn pids key v flat = .ok ((pn', fl), ev)) :
    LinesKeyed cfg ev ∧ ∀ pre, Keyed cfg ref pre flat → Keyed cfg ref (pre ++ ev) fl := by
  have hput : ∀ k v pn1, (emitPut cfg ref k v flat).bind (fun fl => .ok ((pn1, fl), [])) = .ok ((pn', fl), ev) →
      LinesKeyed cfg ev ∧ ∀ pre, Keyed cfg ref pre flat → Keyed cfg ref (pre ++ ev) fl := by
    intro k v pn1 h
    obtain ⟨fl1, e1, e2, h1, h2, rfl⟩ := Out.bind_ok.1 h
    simp only [Except.ok.injEq, Prod.mk.injEq] at h2
    obtain ⟨⟨-, rfl⟩, rfl⟩ := h2
    rw [List.append_nil]
    exact keepsKeyed_put _ _ _ _ _ _ _ h1
  match v with
  | .leaf a =>
    rw [emitValue] at h
    split at h
    · split at h <;> exact hput _ _ _ h
    · cases h
  | .obj gs =>
    rw [emitValue] at h
    obtain ⟨s, e1, e2, h1, h2, rfl⟩ := Out.bind_ok.1 h
    obtain ⟨h3, h4⟩ := keepsKeyed_prologue _ _ _ _ _ _ _ _ _ h1
    split at h2
    · simp only [Except.ok.injEq, Prod.mk.injEq] at h2
      obtain ⟨⟨-, rfl⟩, rfl⟩ := h2
      exact ⟨h3.append LinesKeyed.nil, fun pre hp => hp.mono (by simp_all)⟩
    · next pids' fl0 skip' =>
      obtain ⟨fl1, e3, e4, h5, h6, rfl⟩ := Out.bind_ok.1 h2
      simp only [Except.ok.injEq, Prod.mk.injEq] at h6
      obtain ⟨⟨-, rfl⟩, rfl⟩ := h6
      obtain ⟨h7, h8⟩ := keepsKeyed_fields cfg ref _ pids' skip' gs fl0 _ _ h5
      refine ⟨h3.append (h7.append LinesKeyed.nil), fun pre hp => ?_⟩
      have := h8 _ (h4 _ _ _ rfl pre hp)
      simpa using this
  | .arr items =>
    rw [emitValue] at h
    split at h
    · exact hput _ _ _ h
    · obtain ⟨fl1, e1, e2, h1, h2, rfl⟩ := Out.bind_ok.1 h
      obtain ⟨h3, h4⟩ := keepsKeyed_rollup _ _ _ _ _ _ _ _ h1
      obtain ⟨e3, h5, rfl⟩ := Out.after_ok.1 h2
      obtain ⟨⟨⟩, e5, e6, h6, h7, rfl⟩ := Out.bind_ok.1 h5
      simp only [Except.ok.injEq, Prod.mk.injEq] at h7
      obtain ⟨⟨-, rfl⟩, rfl⟩ := h7
      have h8 := linesKeyed_items cfg _ _ pids items _ h6
      exact ⟨h3.append ((LinesKeyed.of_none (by simp)).append (h8.append LinesKeyed.nil)),
        fun pre hp => (h4 pre hp).mono (by simp; grind)⟩
termination_by structural v
theorem linesKeyed_items (cfg : FCfg) (name : Str) (pn : Str) (pids : List (Str × Json)) (items : List Json)
    (ev : List Ev) (h : emitItems cfg name pn pids items = .ok ((), ev)) : LinesKeyed cfg ev := by
  match items with
  | [] =>
    rw [emitItems] at h
    simp only [Except.ok.injEq, Prod.mk.injEq, true_and] at h
    rw [← h]; exact LinesKeyed.nil
  | .leaf a :: r =>
    rw [emitItems] at h
    split at h
    · exact linesKeyed_items cfg name pn pids r ev h
    · cases h
  | .arr _ :: r => rw [emitItems] at h; cases h
  | .obj fs :: r =>
    have rec_ := fun ev h => linesKeyed_items cfg name pn pids r ev h
    rw [emitItems] at h
    obtain ⟨s, e1, e2, h1, h2, rfl⟩ := Out.bind_ok.1 h
    obtain ⟨h3, h4⟩ := keepsKeyed_prologue _ _ _ _ _ _ _ _ _ h1
    split at h2
    · exact h3.append (rec_ _ h2)
    · next pids' fl0 skip' =>
      obtain ⟨fl1, e3, e4, h5, h6, rfl⟩ := Out.bind_ok.1 h2
      obtain ⟨e5, h7, rfl⟩ := Out.after_ok.1 h6
      obtain ⟨h8, h9⟩ := keepsKeyed_fields cfg (some name) pn pids' skip' fs fl0 _ _ h5
      have hk := h9 _ (h4 _ _ _ rfl [] (by intro k hk; simp [Dict.keys] at hk))
      rw [List.nil_append] at hk
      have hrest := rec_ _ h7
      intro ref l hl
      simp only [List.mem_append, List.mem_singleton] at hl
      rcases hl with hl | hl | hl | hl
      · exact (h3 ref l hl).mono (by simp; grind)
      · exact (h8 ref l hl).mono (by simp; grind)
      · simp only [Ev.line.injEq] at hl
        obtain ⟨rfl, rfl⟩ := hl
        exact hk.mono (by simp; grind)
      · exact (hrest ref l hl).mono (by simp; grind)
termination_by structural items
end

theorem linesKeyed_rootItem (cfg : FCfg) (n : Nat) (j : Json) (ev : List Ev) (h : emitRootItem cfg n j = .ok ((), ev)) :
    LinesKeyed cfg ev := by
  unfold emitRootItem at h
  split at h
  · simp only [Except.ok.injEq, Prod.mk.injEq, true_and] at h
    subst h; exact LinesKeyed.of_none (by intro r l; split <;> simp)
  · simp only [Except.ok.injEq, Prod.mk.injEq, true_and] at h
    subst h; exact LinesKeyed.of_none (by simp)
  · next fs =>
    obtain ⟨s, e1, e2, h1, h2, rfl⟩ := Out.bind_ok.1 h
    obtain ⟨h3, h4⟩ := keepsKeyed_prologue _ _ _ _ _ _ _ _ _ h1
    split at h2
    · simp only [Except.ok.injEq, Prod.mk.injEq, true_and] at h2
      subst h2; exact h3.append LinesKeyed.nil
    · next pids' fl0 skip' =>
      obtain ⟨fl1, e3, e4, h5, h6, rfl⟩ := Out.bind_ok.1 h2
      simp only [Except.ok.injEq, Prod.mk.injEq, true_and] at h6
      subst h6
      obtain ⟨h8, h9⟩ := keepsKeyed_fields cfg none [] pids' skip' fs fl0 _ _ h5
      have hk := h9 _ (h4 _ _ _ rfl [] (by intro k hk; simp [Dict.keys] at hk))
      rw [List.nil_append] at hk
      intro ref l hl
      simp only [List.mem_append, List.mem_singleton] at hl
      rcases hl with hl | hl | hl
      · exact (h3 ref l hl).mono (by simp; grind)
      · exact (h8 ref l hl).mono (by simp; grind)
      · simp only [Ev.line.injEq] at hl
        obtain ⟨rfl, rfl⟩ := hl
        exact hk.mono (by simp; grind)

theorem linesKeyed_root (cfg : FCfg) (n : Nat) (l : List Json) (ev : List Ev) (h : emitRootList cfg n l = .ok ((), ev)) :
    LinesKeyed cfg ev := by
  induction l generalizing n ev with
  | nil =>
    rw [emitRootList] at h
    simp only [Except.ok.injEq, Prod.mk.injEq, true_and] at h
    subst h; exact LinesKeyed.nil
  | cons j r ih =>
    rw [emitRootList] at h
    obtain ⟨⟨⟩, e1, e2, h1, h2, rfl⟩ := Out.bind_ok.1 h
    exact (linesKeyed_rootItem _ _ _ _ h1).append (ih _ _ h2)

end Verif
