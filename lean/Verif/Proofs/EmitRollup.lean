import Verif.Proofs.EmitState
/-! Rollup only touches the line of the main sheet. -/
namespace Verif

/-- Other options for rollup. -/
def withRollup (cfg : FCfg) (rl : List Str) (o : List Str → List Str) : FCfg := { cfg with rollup := rl, order := o }

/-- The options without rollup. -/
abbrev noRollup (cfg : FCfg) : FCfg := withRollup cfg [] cfg.order

theorem rn_noRollup (cfg : FCfg) (rl : List Str) (o : List Str → List Str) : rn (withRollup cfg rl o) = rn cfg := rfl

theorem emitParentIds_noRollup (cfg : FCfg) (rl : List Str) (o : List Str → List Str) (ref : SheetRef) (ps : List (Str × Json)) (flat : FLine) :
    emitParentIds (withRollup cfg rl o) ref ps flat = emitParentIds cfg ref ps flat := by
  induction ps generalizing flat with
  | nil => rfl
  | cons e r ih =>
    obtain ⟨k, v⟩ := e
    rw [emitParentIds, emitParentIds]
    have : parentIdValue (withRollup cfg rl o) v = parentIdValue cfg v := rfl
    rw [this, rn_noRollup]
    simp only [ih]

theorem emitStart_noRollup (cfg : FCfg) (rl : List Str) (o : List Str → List Str) (ref : SheetRef) (pn : Str) (topSub : Bool) (pids fs : List (Str × Json)) :
    emitStart (withRollup cfg rl o) ref pn topSub pids fs = emitStart cfg ref pn topSub pids fs := by
  funext g
  unfold emitStart
  have h4 : emitIds (withRollup cfg rl o) ref pn pids fs = emitIds cfg ref pn pids fs := rfl
  have h5 : ∀ fl, emitStartLine (withRollup cfg rl o) ref topSub pids fl = emitStartLine cfg ref topSub pids fl := by
    intro fl; unfold emitStartLine; split
    · exact emitParentIds_noRollup _ _ _ _ _ _
    · rfl
  cases g with
  | none => rfl
  | some g => obtain ⟨fl, sk⟩ := g; simp only [h4, h5]; rfl

theorem emitPrologue_noRollup (cfg : FCfg) (rl : List Str) (o : List Str → List Str) (ref : SheetRef) (pn : Str) (topSub : Bool) (pids fs : List (Str × Json))
    (flat : Option FLine) :
    emitPrologue (withRollup cfg rl o) ref pn topSub pids flat fs = emitPrologue cfg ref pn topSub pids flat fs := by
  unfold emitPrologue
  have h1 : emitGeo (withRollup cfg rl o) ref pn flat fs = emitGeo cfg ref pn flat fs := rfl
  rw [h1, emitStart_noRollup]

theorem emitRollup_nested (cfg : FCfg) (ref : SheetRef) {pn : Str} (h : pn ≠ []) (key : Str) (is : List Json) (flat : FLine) :
    emitRollup cfg ref pn key is flat = .ok (flat, []) := by
  unfold emitRollup
  rw [if_pos]; simp [h]

/-! ### Below the root nothing changes -/

mutual
theorem emitFields_noRollup (cfg : FCfg) (rl : List Str) (o : List Str → List Str) (hx : cfg.xml = false) (ref : SheetRef) (pn : Str) (hpn : pn ≠ []) (pids : List (Str × Json))
    (skip : Bool) (fs : List (Str × Json)) (flat : FLine) :
    emitFields (withRollup cfg rl o) ref pn pids skip fs flat = emitFields cfg ref pn pids skip fs flat := by
  match fs with
  | [] => rw [emitFields, emitFields]
  | (k, v) :: r =>
    have rec_ := fun fl => emitFields_noRollup cfg rl o hx ref pn hpn pids skip r fl
    rw [emitFields, emitFields]
    have hd : dropped (withRollup cfg rl o) pn k = dropped cfg pn k := rfl
    obtain ⟨h1, h2⟩ := emitValue_noRollup cfg rl o hx ref pn hpn pids k v flat
    rw [rec_, hd, h1]
    cases he : emitValue cfg ref pn pids k v flat with
    | error e => rfl
    | ok x =>
      obtain ⟨⟨pn', fl⟩, ev⟩ := x
      have := h2 _ _ _ he
      subst this
      simp only [Out.bind, rec_]
termination_by structural fs
theorem emitValue_noRollup (cfg : FCfg) (rl : List Str) (o : List Str → List Str) (hx : cfg.xml = false) (ref : SheetRef) (pn : Str) (hpn : pn ≠ []) (pids : List (Str × Json)) (key : Str)
    (v : Json) (flat : FLine) : emitValue (withRollup cfg rl o) ref pn pids key v flat = emitValue cfg ref pn pids key v flat ∧
      ∀ pn' fl ev, emitValue cfg ref pn pids key v flat = .ok ((pn', fl), ev) → pn' = pn := by
  have hput : ∀ k v pn' fl ev, (emitPut cfg ref k v flat).bind (fun fl => .ok ((pn, fl), [])) = .ok ((pn', fl), ev) → pn' = pn := by
    intro k v pn' fl ev h
    simp only [emitPut, Out.bind, Except.ok.injEq, Prod.mk.injEq] at h
    exact h.1.1.symm
  match v with
  | .leaf a =>
    rw [emitValue, emitValue]
    refine ⟨rfl, ?_⟩
    intro pn' fl ev h
    rw [hx] at h
    simp only [Bool.false_and, Bool.false_eq_true, if_false] at h
    split at h
    · exact hput _ _ _ _ _ h
    · cases h
  | .obj fs =>
    have rec_ := fun pids' skip fl => emitFields_noRollup cfg rl o hx ref (pn ++ (key ++ s%"/")) (by simp) pids' skip fs fl
    rw [emitValue, emitValue, emitPrologue_noRollup]
    refine ⟨by simp only [rec_], ?_⟩
    intro pn' fl ev h
    obtain ⟨s, e1, e2, h1, h2, rfl⟩ := Out.bind_ok.1 h
    split at h2
    · simp only [Except.ok.injEq, Prod.mk.injEq] at h2; exact h2.1.1.symm
    · obtain ⟨fl1, e3, e4, h5, h6, rfl⟩ := Out.bind_ok.1 h2
      simp only [Except.ok.injEq, Prod.mk.injEq] at h6; exact h6.1.1.symm
  | .arr l =>
    have rec_ := emitItems_noRollup cfg rl o hx (subSheetName cfg pn key) (pn ++ (key ++ s%"/0/")) (by simp) pids l
    rw [emitValue, emitValue, emitRollup_nested _ _ hpn, emitRollup_nested _ _ hpn]
    have h1 : subSheetName (withRollup cfg rl o) pn key = subSheetName cfg pn key := rfl
    rw [h1]
    cases joinArray l with
    | some t => exact ⟨rfl, fun pn' fl ev h => hput _ _ _ _ _ h⟩
    | none =>
      dsimp only
      refine ⟨by simp only [rec_], ?_⟩
      intro pn' fl ev h
      obtain ⟨fl1, e1, e2, h1, h2, rfl⟩ := Out.bind_ok.1 h
      obtain ⟨e3, h3, rfl⟩ := Out.after_ok.1 h2
      obtain ⟨⟨⟩, e4, e5, h4, h5, rfl⟩ := Out.bind_ok.1 h3
      simp only [Except.ok.injEq, Prod.mk.injEq] at h5; exact h5.1.1.symm
termination_by structural v
theorem emitItems_noRollup (cfg : FCfg) (rl : List Str) (o : List Str → List Str) (hx : cfg.xml = false) (name pn : Str) (hpn : pn ≠ []) (pids : List (Str × Json)) (l : List Json) :
    emitItems (withRollup cfg rl o) name pn pids l = emitItems cfg name pn pids l := by
  match l with
  | [] => rw [emitItems, emitItems]
  | .leaf a :: r => rw [emitItems, emitItems, emitItems_noRollup cfg rl o hx name pn hpn pids r]
  | .arr _ :: r => rw [emitItems, emitItems]
  | .obj fs :: r =>
    have rec_ := fun pids' skip fl => emitFields_noRollup cfg rl o hx (some name) pn hpn pids' skip fs fl
    have reci := emitItems_noRollup cfg rl o hx name pn hpn pids r
    rw [emitItems, emitItems, emitPrologue_noRollup, reci]
    simp only [rec_]
termination_by structural l
end

/-! ### The sub-sheets do not depend on the line of the main sheet -/

/-- The part of the events that concerns the sub-sheets. -/
def Ev.onSubs : Ev → Bool
  | .key (some _) _ | .line (some _) _ | .sheet _ => true
  | _ => false

/-- If the first succeeds, so does the second, with the same effect on the sub-sheets (and the same `parent_name`). -/
def SimSubs {α : Type} (same : α → α → Prop) (a b : Out α) : Prop :=
  ∀ x e1, a = .ok (x, e1) → ∃ y e2, b = .ok (y, e2) ∧ same x y ∧ e1.filter Ev.onSubs = e2.filter Ev.onSubs

theorem SimSubs.refl {α : Type} {same : α → α → Prop} (h : ∀ a, same a a) (a : Out α) : SimSubs same a a :=
  fun x e he => ⟨x, e, he, h x, rfl⟩

theorem SimSubs.bind {α β : Type} {sa : α → α → Prop} {sb : β → β → Prop} {a b : Out α} {f g : α → Out β}
    (h : SimSubs sa a b) (hf : ∀ x y, sa x y → SimSubs sb (f x) (g y)) : SimSubs sb (a.bind f) (b.bind g) := by
  intro z e he
  obtain ⟨x, e1, e2, h1, h2, rfl⟩ := Out.bind_ok.1 he
  obtain ⟨y, e3, h3, h4, h5⟩ := h x e1 h1
  obtain ⟨z', e4, h6, h7, h8⟩ := hf x y h4 z e2 h2
  exact ⟨z', e3 ++ e4, Out.bind_ok.2 ⟨y, e3, e4, h3, h6, rfl⟩, h7, by simp [h5, h8]⟩

theorem SimSubs.after {α : Type} {sa : α → α → Prop} {a b : Out α} (ev : List Ev) (h : SimSubs sa a b) :
    SimSubs sa (Out.after ev a) (Out.after ev b) := by
  intro z e he
  obtain ⟨e1, h1, rfl⟩ := Out.after_ok.1 he
  obtain ⟨y, e3, h3, h4, h5⟩ := h z e1 h1
  exact ⟨y, ev ++ e3, Out.after_ok.2 ⟨e3, h3, rfl⟩, h4, by simp [h5]⟩

def anyLine : FLine → FLine → Prop := fun _ _ => True
def samePn : Str × FLine → Str × FLine → Prop := fun a b => a.1 = b.1

/-- The same ids and skipping. -/
def sameStart : Start → Start → Prop
  | none, none => True
  | some (p, _, s), some (q, _, t) => p = q ∧ s = t
  | _, _ => False

theorem simSubs_geo (cfg : FCfg) (pn : Str) (fs : List (Str × Json)) (fl fl' : FLine) (pids : List (Str × Json)) (b : Bool) :
    SimSubs sameStart (emitPrologue cfg none pn b pids (some fl) fs) (emitPrologue cfg none pn b pids (some fl') fs) := by
  have hst : ∀ (x y : Option FLine) (s : Bool), SimSubs sameStart (emitStart cfg none pn b pids fs (some (x, s)))
      (emitStart cfg none pn b pids fs (some (y, s))) := by
    intro x y s
    unfold emitStart
    dsimp only
    split
    · exact SimSubs.refl (by intro a; cases a <;> simp [sameStart]) _
    · refine SimSubs.bind (sa := anyLine) ?_ ?_
      · unfold emitStartLine
        split
        · generalize x.getD [] = u
          generalize y.getD [] = w
          clear fl fl' x y s
          induction pids generalizing u w with
          | nil => intro x e he; simp only [emitParentIds, Except.ok.injEq, Prod.mk.injEq] at he; obtain ⟨rfl, rfl⟩ := he
                   exact ⟨w, [], rfl, trivial, rfl⟩
          | cons e r ih =>
            obtain ⟨k, v⟩ := e
            rw [emitParentIds, emitParentIds]
            cases parentIdValue cfg v with
            | error e => intro x e he; cases he
            | ok v' => exact SimSubs.after _ (ih _ _)
        · intro z e he
          simp only [Except.ok.injEq, Prod.mk.injEq] at he; obtain ⟨rfl, rfl⟩ := he
          exact ⟨_, [], rfl, trivial, rfl⟩
      · intro x y _ z e he
        simp only [Except.ok.injEq, Prod.mk.injEq] at he; obtain ⟨rfl, rfl⟩ := he
        exact ⟨_, _, rfl, ⟨rfl, rfl⟩, rfl⟩
  unfold emitPrologue
  refine SimSubs.bind (sa := fun g g' => match g, g' with
    | none, none => True
    | some (_, s), some (_, t) => s = t
    | _, _ => False) ?_ ?_
  · unfold emitGeo
    split
    · split
      · cases cfg.wktOf fs with
        | none => intro z e he; exact ⟨z, e, he, by cases he; trivial, rfl⟩
        | some t =>
          intro z e he
          simp only [Except.ok.injEq, Prod.mk.injEq] at he; obtain ⟨rfl, rfl⟩ := he
          exact ⟨_, _, rfl, rfl, rfl⟩
      · intro z e he
        simp only [Except.ok.injEq, Prod.mk.injEq] at he; obtain ⟨rfl, rfl⟩ := he
        exact ⟨_, _, rfl, rfl, rfl⟩
    · intro z e he
      simp only [Except.ok.injEq, Prod.mk.injEq] at he; obtain ⟨rfl, rfl⟩ := he
      exact ⟨_, _, rfl, rfl, rfl⟩
  · intro g g' hg
    match g, g', hg with
    | none, none, _ => exact SimSubs.refl (by intro a; cases a <;> simp [sameStart]) _
    | some (x, s), some (y, t), h => cases h; exact hst x y s

theorem emitPut_subs (cfg : FCfg) (pn k : Str) (v : Json) (fl fl' : FLine) :
    SimSubs samePn ((emitPut cfg none k v fl).bind (fun fl => .ok ((pn, fl), [])))
      ((emitPut cfg none k v fl').bind (fun fl => .ok ((pn, fl), []))) := by
  intro z e he
  simp only [emitPut, Out.bind, Except.ok.injEq, Prod.mk.injEq] at he; obtain ⟨rfl, rfl⟩ := he
  exact ⟨_, _, rfl, rfl, rfl⟩

theorem rollupOnes_subs (cfg : FCfg) (pn key : Str) (fs : List (Str × Json)) (flat fl : FLine) (ev : List Ev)
    (h : emitRollupOnes cfg none pn key fs flat = .ok (fl, ev)) : ev.filter Ev.onSubs = [] := by
  induction fs generalizing flat fl ev with
  | nil => simp only [emitRollupOnes, Except.ok.injEq, Prod.mk.injEq] at h; rw [← h.2]; rfl
  | cons e r ih =>
    obtain ⟨k, v⟩ := e
    rw [emitRollupOnes] at h
    obtain ⟨x, e1, e2, h1, h2, rfl⟩ := Out.bind_ok.1 h
    rw [List.filter_append, ih _ _ _ h2]
    unfold emitRollupOne at h1
    split at h1
    · cases h1; rfl
    · split at h1
      · cases h1
      · split at h1
        · cases h1; rfl
        · cases h1; rfl

theorem rollupMany_subs (cfg : FCfg) (pn key : Str) (ks : List Str) (flat : FLine) :
    (emitRollupMany cfg none pn key ks flat).2.filter Ev.onSubs = [] := by
  induction ks generalizing flat with
  | nil => rfl
  | cons k r ih =>
    rw [emitRollupMany]
    split
    · simp only [List.filter_cons, Ev.onSubs, Bool.false_eq_true, if_false, ih]
    · exact ih _

theorem rollup_subs (cfg : FCfg) (pn key : Str) (is : List Json) (flat fl : FLine) (ev : List Ev)
    (h : emitRollup cfg none pn key is flat = .ok (fl, ev)) : ev.filter Ev.onSubs = [] := by
  unfold emitRollup at h
  split at h
  · cases h; rfl
  · split at h
    · cases h
    · split at h
      · cases h; rfl
      · exact rollupOnes_subs _ _ _ _ _ _ _ h
      · cases h
      · split at h
        · cases h
        · next ks _ =>
          simp only [Except.ok.injEq] at h
          have := rollupMany_subs cfg pn key (cfg.order (dedup ks)) flat
          rw [h] at this; exact this

theorem emitRollup_off (cfg : FCfg) (ref : SheetRef) (pn key : Str) (is : List Json) (flat : FLine) :
    emitRollup (noRollup cfg) ref pn key is flat = .ok (flat, []) := by
  unfold emitRollup; rw [if_pos]; rfl

mutual
theorem emitFields_subs (cfg : FCfg) (hx : cfg.xml = false) (pn : Str) (pids : List (Str × Json)) (skip : Bool)
    (fs : List (Str × Json)) (flat flat' : FLine) :
    SimSubs anyLine (emitFields cfg none pn pids skip fs flat) (emitFields (noRollup cfg) none pn pids skip fs flat') := by
  match fs with
  | [] =>
    rw [emitFields, emitFields]
    intro z e he
    cases he
    exact ⟨_, _, rfl, trivial, rfl⟩
  | (k, v) :: r =>
    have rec_ := fun pn fl fl' => emitFields_subs cfg hx pn pids skip r fl fl'
    rw [emitFields, emitFields]
    have hd : dropped (noRollup cfg) pn k = dropped cfg pn k := rfl
    rw [hd]
    split
    · exact rec_ _ _ _
    · refine SimSubs.after _ ?_
      split
      · exact rec_ _ _ _
      · refine SimSubs.bind (emitValue_subs cfg hx pn pids k v flat flat') ?_
        intro x y hxy
        obtain ⟨p1, l1⟩ := x
        obtain ⟨p2, l2⟩ := y
        cases hxy
        exact rec_ _ _ _
termination_by structural fs
theorem emitValue_subs (cfg : FCfg) (hx : cfg.xml = false) (pn : Str) (pids : List (Str × Json)) (key : Str)
    (v : Json) (flat flat' : FLine) :
    SimSubs samePn (emitValue cfg none pn pids key v flat) (emitValue (noRollup cfg) none pn pids key v flat') := by
  match v with
  | .leaf a =>
    rw [emitValue, emitValue]
    have hx' : (noRollup cfg).xml = false := hx
    rw [hx, hx']
    simp only [Bool.false_and, Bool.false_eq_true, if_false]
    split
    · exact emitPut_subs cfg _ _ _ _ _
    · intro z e he; cases he
  | .obj fs =>
    have rec_ := fun pids' skip fl fl' => emitFields_subs cfg hx (pn ++ (key ++ s%"/")) pids' skip fs fl fl'
    rw [emitValue, emitValue, emitPrologue_noRollup]
    refine SimSubs.bind (simSubs_geo cfg _ fs flat flat' pids false) ?_
    intro g g' hg
    match g, g', hg with
    | none, none, _ =>
      intro z e he; cases he; exact ⟨_, _, rfl, rfl, rfl⟩
    | some (p, x, s), some (q, y, t), hg =>
      obtain ⟨rfl, rfl⟩ := hg
      refine SimSubs.bind (rec_ p s x y) ?_
      intro _ _ _ z e he; cases he; exact ⟨_, _, rfl, rfl, rfl⟩
  | .arr l =>
    have rec_ := emitItems_noRollup cfg [] cfg.order hx (subSheetName cfg pn key) (pn ++ (key ++ s%"/0/")) (by simp) pids l
    rw [emitValue, emitValue, emitRollup_off]
    have h1 : subSheetName (noRollup cfg) pn key = subSheetName cfg pn key := rfl
    rw [h1]
    cases joinArray l with
    | some t => exact emitPut_subs cfg _ _ _ _ _
    | none =>
      dsimp only
      rw [rec_]
      refine SimSubs.bind (sa := anyLine) ?_ ?_
      · intro z e he
        exact ⟨flat', [], rfl, trivial, rollup_subs _ _ _ _ _ _ _ he⟩
      · intro fl fl' _
        refine SimSubs.after _ ?_
        refine SimSubs.bind (SimSubs.refl (same := fun _ _ => True) (fun _ => trivial) _) ?_
        intro _ _ _ z e he; cases he; exact ⟨_, _, rfl, rfl, rfl⟩
termination_by structural v
end

theorem emitRootList_subs (cfg : FCfg) (hx : cfg.xml = false) (l : List Json) (n : Nat) :
    SimSubs (fun _ _ => True) (emitRootList cfg n l) (emitRootList (noRollup cfg) n l) := by
  induction l generalizing n with
  | nil => exact SimSubs.refl (fun _ => trivial) _
  | cons j r ih =>
    rw [emitRootList, emitRootList]
    refine SimSubs.bind (sa := fun _ _ => True) ?_ (fun _ _ _ => ih _)
    unfold emitRootItem
    cases j with
    | leaf a => exact SimSubs.refl (fun _ => trivial) _
    | arr a => exact SimSubs.refl (fun _ => trivial) _
    | obj fs =>
      dsimp only
      rw [emitPrologue_noRollup]
      refine SimSubs.bind (SimSubs.refl (same := Eq) (fun _ => rfl) _) ?_
      intro g g' hg
      subst hg
      match g with
      | none => exact SimSubs.refl (fun _ => trivial) _
      | some (p, x, s) =>
        refine SimSubs.bind (emitFields_subs cfg hx [] p s fs x x) ?_
        intro _ _ _ z e he; cases he; exact ⟨_, _, rfl, trivial, rfl⟩

end Verif
