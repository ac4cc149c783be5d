import Verif.Proofs.EmitState
/-! The filter is only looked at for the objects of the root list. -/
namespace Verif

/-- The options without filter. -/
def noFilter (cfg : FCfg) : FCfg := { cfg with filter := none }

theorem rn_noFilter (cfg : FCfg) : rn (noFilter cfg) = rn cfg := rfl
theorem initState_noFilter (cfg : FCfg) : initState (noFilter cfg) = initState cfg := rfl

theorem emitParentIds_noFilter (cfg : FCfg) (ref : SheetRef) (ps : List (Str × Json)) (flat : FLine) :
    emitParentIds (noFilter cfg) ref ps flat = emitParentIds cfg ref ps flat := by
  induction ps generalizing flat with
  | nil => rfl
  | cons e r ih =>
    obtain ⟨k, v⟩ := e
    rw [emitParentIds, emitParentIds]
    have : parentIdValue (noFilter cfg) v = parentIdValue cfg v := rfl
    rw [this, rn_noFilter]
    simp only [ih]

theorem emitPrologue_noFilter (cfg : FCfg) (ref : SheetRef) (pn : Str) (topSub : Bool) (pids fs : List (Str × Json))
    (flat : Option FLine) (hf : filteredOut cfg pn fs = false) :
    emitPrologue (noFilter cfg) ref pn topSub pids flat fs = emitPrologue cfg ref pn topSub pids flat fs := by
  unfold emitPrologue
  have h1 : emitGeo (noFilter cfg) ref pn flat fs = emitGeo cfg ref pn flat fs := rfl
  have h2 : emitStart (noFilter cfg) ref pn topSub pids fs = emitStart cfg ref pn topSub pids fs := by
    funext g
    unfold emitStart
    have h3 : filteredOut (noFilter cfg) pn fs = false := rfl
    have h4 : emitIds (noFilter cfg) ref pn pids fs = emitIds cfg ref pn pids fs := rfl
    have h5 : ∀ fl, emitStartLine (noFilter cfg) ref topSub pids fl = emitStartLine cfg ref topSub pids fl := by
      intro fl; unfold emitStartLine; split
      · exact emitParentIds_noFilter _ _ _ _
      · rfl
    cases g with
    | none => rfl
    | some g => obtain ⟨fl, sk⟩ := g; simp only [h3, hf, h4, h5]
  rw [h1, h2]

theorem filteredOut_nested (cfg : FCfg) {pn : Str} (h : pn ≠ []) (fs : List (Str × Json)) : filteredOut cfg pn fs = false := by
  unfold filteredOut
  split
  · rfl
  · rw [if_neg]; simpa using h

theorem emitRollupOnes_noFilter (cfg : FCfg) (ref : SheetRef) (pn key : Str) (fs : List (Str × Json)) (flat : FLine) :
    emitRollupOnes (noFilter cfg) ref pn key fs flat = emitRollupOnes cfg ref pn key fs flat := by
  induction fs generalizing flat with
  | nil => rfl
  | cons e r ih =>
    obtain ⟨k, v⟩ := e
    rw [emitRollupOnes, emitRollupOnes]
    have : emitRollupOne (noFilter cfg) ref pn key k v flat = emitRollupOne cfg ref pn key k v flat := rfl
    rw [this, funext ih]

theorem emitRollupMany_noFilter (cfg : FCfg) (ref : SheetRef) (pn key : Str) (ks : List Str) (flat : FLine) :
    emitRollupMany (noFilter cfg) ref pn key ks flat = emitRollupMany cfg ref pn key ks flat := by
  induction ks generalizing flat with
  | nil => rfl
  | cons k r ih =>
    rw [emitRollupMany, emitRollupMany]
    simp only [ih, rn_noFilter]
    rfl

theorem emitRollup_noFilter (cfg : FCfg) (ref : SheetRef) (pn key : Str) (is : List Json) (flat : FLine) :
    emitRollup (noFilter cfg) ref pn key is flat = emitRollup cfg ref pn key is flat := by
  unfold emitRollup
  simp only [emitRollupOnes_noFilter, emitRollupMany_noFilter]
  rfl

mutual
theorem emitFields_noFilter (cfg : FCfg) (ref : SheetRef) (pn : Str) (pids : List (Str × Json)) (skip : Bool)
    (fs : List (Str × Json)) (flat : FLine) :
    emitFields (noFilter cfg) ref pn pids skip fs flat = emitFields cfg ref pn pids skip fs flat := by
  match fs with
  | [] => rw [emitFields, emitFields]
  | (k, v) :: r =>
    have rec_ := fun pn fl => emitFields_noFilter cfg ref pn pids skip r fl
    rw [emitFields, emitFields]
    have hd : dropped (noFilter cfg) pn k = dropped cfg pn k := rfl
    rw [rec_, hd, emitValue_noFilter cfg ref pn pids k v flat]
    simp only [rec_]
termination_by structural fs
theorem emitValue_noFilter (cfg : FCfg) (ref : SheetRef) (pn : Str) (pids : List (Str × Json)) (key : Str)
    (v : Json) (flat : FLine) : emitValue (noFilter cfg) ref pn pids key v flat = emitValue cfg ref pn pids key v flat := by
  match v with
  | .leaf a => rw [emitValue, emitValue]; rfl
  | .obj fs =>
    have rec_ := fun pn pids' skip fl => emitFields_noFilter cfg ref pn pids' skip fs fl
    rw [emitValue, emitValue, emitPrologue_noFilter _ _ _ _ _ _ _ (filteredOut_nested cfg (by simp) fs)]
    simp only [rec_]
  | .arr l =>
    have rec_ := fun pn name => emitItems_noFilter cfg name (pn ++ (key ++ s%"/0/")) pids l (by simp)
    rw [emitValue, emitValue, emitRollup_noFilter]
    have h1 : subSheetName (noFilter cfg) pn key = subSheetName cfg pn key := rfl
    rw [h1]
    cases joinArray l with
    | some t => rfl
    | none => dsimp only; simp only [rec_]
termination_by structural v
theorem emitItems_noFilter (cfg : FCfg) (name pn : Str) (pids : List (Str × Json)) (l : List Json) (hpn : pn ≠ []) :
    emitItems (noFilter cfg) name pn pids l = emitItems cfg name pn pids l := by
  match l with
  | [] => rw [emitItems, emitItems]
  | .leaf a :: r => rw [emitItems, emitItems, emitItems_noFilter cfg name pn pids r hpn]
  | .arr _ :: r => rw [emitItems, emitItems]
  | .obj fs :: r =>
    have rec_ := fun pids' skip fl => emitFields_noFilter cfg (some name) pn pids' skip fs fl
    have reci := emitItems_noFilter cfg name pn pids r hpn
    rw [emitItems, emitItems, emitPrologue_noFilter _ _ _ _ _ _ _ (filteredOut_nested cfg hpn fs), reci]
    simp only [rec_]
termination_by structural l
end

end Verif
