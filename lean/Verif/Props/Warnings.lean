import Verif.Spec.Warnings
import Verif.Props.FlattenPreserve
import Verif.Props.FlattenOrder
import Verif.Props.FlattenFilter
import Verif.Props.EndToEnd
import Verif.Props.Template
import Verif.Proofs.DecEq
/-! C74: the warnings of `flatten` about fields to be preserved and about removed characters. -/
namespace Verif
open Spec Api

/-! ### The paths that are seen -/

/-- No field is noted. -/
def NoSeen (ev : List Ev) : Prop := ∀ t, Ev.seen t ∉ ev

theorem NoSeen.append {a b : List Ev} (h : NoSeen a) (h' : NoSeen b) : NoSeen (a ++ b) := by
  intro t ht
  rcases List.mem_append.1 ht with ht | ht
  · exact h t ht
  · exact h' t ht

theorem noSeen_nil : NoSeen [] := fun _ h => by cases h

theorem parentIds_noSeen {cfg : FCfg} {ref : SheetRef} {ps : List (Str × Json)} {flat fl : FLine} {ev : List Ev}
    (h : emitParentIds cfg ref ps flat = .ok (fl, ev)) : NoSeen ev := by
  induction ps generalizing flat ev with
  | nil => simp only [emitParentIds, Except.ok.injEq, Prod.mk.injEq] at h; rw [← h.2]; exact noSeen_nil
  | cons e r ih =>
    obtain ⟨k, v⟩ := e
    simp only [emitParentIds] at h
    split at h
    · cases h
    · obtain ⟨ev1, h1, rfl⟩ := Out.after_ok.1 h
      exact NoSeen.append (by intro t; simp) (ih h1)

theorem addId_noSeen (cfg : FCfg) (ref : SheetRef) (name field : Str) (fs pids : List (Str × Json)) :
    NoSeen (emitAddId cfg ref name field fs pids).2 := by
  unfold emitAddId
  split
  · exact noSeen_nil
  · intro t; simp

theorem ids_noSeen (cfg : FCfg) (ref : SheetRef) (pn : Str) (pids fs : List (Str × Json)) : NoSeen (emitIds cfg ref pn pids fs).2 := by
  unfold emitIds
  refine NoSeen.append ?_ (addId_noSeen _ _ _ _ _ _)
  unfold emitRootId
  split
  · exact noSeen_nil
  · exact addId_noSeen _ _ _ _ _ _

theorem prologue_seen {cfg : FCfg} (hw : cfg.wkt = false) {ref : SheetRef} {pn : Str} {topSub : Bool} {pids fs : List (Str × Json)}
    {flat : Option FLine} {s : Start} {ev : List Ev} (h : emitPrologue cfg ref pn topSub pids flat fs = .ok (s, ev)) :
    NoSeen ev ∧ (filteredOut cfg pn fs = true → s = none) ∧ (filteredOut cfg pn fs = false → ∃ pids' fl, s = some (pids', fl, false)) := by
  unfold emitPrologue emitGeo at h
  simp only [hw, Bool.false_and, Bool.false_eq_true, if_false, Out.bind, emitStart] at h
  cases hf : filteredOut cfg pn fs with
  | true =>
    simp only [hf, if_true, List.append_nil, Except.ok.injEq, Prod.mk.injEq] at h
    obtain ⟨rfl, rfl⟩ := h
    exact ⟨noSeen_nil, fun _ => rfl, fun h => (by cases h)⟩
  | false =>
    simp only [hf, Bool.false_eq_true, if_false, List.nil_append] at h
    cases hs : emitStartLine cfg ref topSub pids (flat.getD []) with
    | error e => rw [hs] at h; cases h
    | ok r =>
      obtain ⟨fl, e1⟩ := r
      rw [hs] at h
      simp only [Except.ok.injEq, Prod.mk.injEq] at h
      obtain ⟨rfl, rfl⟩ := h
      refine ⟨NoSeen.append ?_ (ids_noSeen _ _ _ _ _), fun h => (by cases h), fun _ => ⟨_, _, rfl⟩⟩
      unfold emitStartLine at hs
      split at hs
      · exact parentIds_noSeen hs
      · simp only [Except.ok.injEq, Prod.mk.injEq] at hs; rw [← hs.2]; exact noSeen_nil

theorem rollupOnes_noSeen {cfg : FCfg} {ref : SheetRef} {pn key : Str} {fs : List (Str × Json)} {flat fl : FLine} {ev : List Ev}
    (h : emitRollupOnes cfg ref pn key fs flat = .ok (fl, ev)) : NoSeen ev := by
  induction fs generalizing flat ev with
  | nil => simp only [emitRollupOnes, Except.ok.injEq, Prod.mk.injEq] at h; rw [← h.2]; exact noSeen_nil
  | cons e r ih =>
    obtain ⟨k, v⟩ := e
    rw [emitRollupOnes] at h
    obtain ⟨fl1, e1, e2, h1, h2, rfl⟩ := Out.bind_ok.1 h
    refine NoSeen.append ?_ (ih h2)
    unfold emitRollupOne at h1
    split at h1
    · simp only [Except.ok.injEq, Prod.mk.injEq] at h1; rw [← h1.2]; exact noSeen_nil
    · split at h1
      · cases h1
      · split at h1
        · simp only [emitPut, Except.ok.injEq, Prod.mk.injEq] at h1; rw [← h1.2]; intro t; simp
        · simp only [Except.ok.injEq, Prod.mk.injEq] at h1; rw [← h1.2]; exact noSeen_nil

theorem rollupMany_noSeen {cfg : FCfg} {ref : SheetRef} {pn key : Str} {ks : List Str} {flat : FLine} :
    NoSeen (emitRollupMany cfg ref pn key ks flat).2 := by
  induction ks generalizing flat with
  | nil => exact noSeen_nil
  | cons k r ih =>
    rw [emitRollupMany]
    split
    · intro t; simp only [List.mem_cons, reduceCtorEq, false_or]; exact ih t
    · exact ih

theorem rollup_noSeen {cfg : FCfg} {ref : SheetRef} {pn key : Str} {items : List Json} {flat fl : FLine} {ev : List Ev}
    (h : emitRollup cfg ref pn key items flat = .ok (fl, ev)) : NoSeen ev := by
  unfold emitRollup at h
  split at h
  · simp only [Except.ok.injEq, Prod.mk.injEq] at h; rw [← h.2]; exact noSeen_nil
  · split at h
    · cases h
    · split at h
      · simp only [Except.ok.injEq, Prod.mk.injEq] at h; rw [← h.2]; exact noSeen_nil
      · exact rollupOnes_noSeen h
      · cases h
      · split at h
        · cases h
        · simp only [Except.ok.injEq] at h
          have := rollupMany_noSeen (cfg := cfg) (ref := ref) (pn := pn) (key := key) (ks := cfg.order (dedup ‹_›)) (flat := flat)
          rw [h] at this
          exact this

/-- The path, as it is noted, of a field in the value at path `p`, where only fields that are not dropped are looked into. -/
inductive SeenAt (cfg : FCfg) : List Str → Json → Str → Prop
  | field {p fs k v} : (k, v) ∈ fs → SeenAt cfg p (.obj fs) (Py.replaceAll s%"/0" [] (pnOf p) ++ k)
  | inner {p fs k v t} : (k, v) ∈ fs → keepOf cfg p k = true → SeenAt cfg (p ++ [k]) v t → SeenAt cfg p (.obj fs) t
  | item {p l fs t} : joinArray l = none → .obj fs ∈ l → SeenAt cfg (p ++ [s%"0"]) (.obj fs) t → SeenAt cfg p (.arr l) t

theorem SeenAt.tail {cfg : FCfg} {p : List Str} {e : Str × Json} {r : List (Str × Json)} {t : Str} (h : SeenAt cfg p (.obj r) t) :
    SeenAt cfg p (.obj (e :: r)) t := by
  cases h with
  | field hm => exact .field (List.mem_cons_of_mem _ hm)
  | inner hm hk h => exact .inner (List.mem_cons_of_mem _ hm) hk h

theorem vis_cons {cfg : FCfg} {p : List Str} {k : Str} {v : Json} {r : List (Str × Json)} {t : Str} :
    SeenAt cfg p (.obj ((k, v) :: r)) t ↔
      t = Py.replaceAll s%"/0" [] (pnOf p) ++ k ∨ (keepOf cfg p k = true ∧ SeenAt cfg (p ++ [k]) v t) ∨ SeenAt cfg p (.obj r) t := by
  constructor
  · intro h
    cases h with
    | field hm =>
      rcases List.mem_cons.1 hm with he | hm
      · cases he; exact .inl rfl
      · exact .inr (.inr (.field hm))
    | inner hm hk h =>
      rcases List.mem_cons.1 hm with he | hm
      · cases he; exact .inr (.inl ⟨hk, h⟩)
      · exact .inr (.inr (.inner hm hk h))
  · rintro (rfl | ⟨hk, h⟩ | h)
    · exact .field (v := v) (by simp)
    · exact .inner (by simp) hk h
    · exact h.tail

mutual
theorem emitFields_seen {cfg : FCfg} (hw : cfg.wkt = false) (hx : cfg.xml = false) (ref : SheetRef) (p : List Str) (pids : List (Str × Json))
    (fs : List (Str × Json)) (flat fl : FLine) (ev : List Ev) (he : emitFields cfg ref (pnOf p) pids false fs flat = .ok (fl, ev)) (t : Str) :
    Ev.seen t ∈ ev ↔ SeenAt cfg p (.obj fs) t := by
  match fs with
  | [] =>
    rw [emitFields] at he
    simp only [Except.ok.injEq, Prod.mk.injEq] at he
    obtain ⟨rfl, rfl⟩ := he
    constructor
    · intro h; cases h
    · intro h
      cases h with
      | field hm => cases hm
      | inner hm => cases hm
  | (k, v) :: r =>
    have rec_ := fun flat fl ev he => emitFields_seen hw hx ref p pids r flat fl ev he t
    rw [emitFields] at he
    rw [if_neg (by simp)] at he
    obtain ⟨ev1, he', rfl⟩ := Out.after_ok.1 he
    clear he
    rename _ => he
    rw [vis_cons]
    cases hd : dropped cfg (pnOf p) k with
    | true =>
      rw [if_pos hd] at he
      have hk : keepOf cfg p k = false := by simp [keepOf, hd]
      simp only [List.singleton_append, List.mem_cons, Ev.seen.injEq, hk, Bool.false_eq_true, false_and, false_or, rec_ _ _ _ he]
    | false =>
      rw [if_neg (by simp [hd])] at he
      have hk : keepOf cfg p k = true := by simp [keepOf, hd]
      obtain ⟨⟨pn', fl1⟩, e1, e2, h1, h2, rfl⟩ := Out.bind_ok.1 he
      obtain ⟨rfl, h3⟩ := emitValue_seen hw hx ref p pids k v flat pn' fl1 e1 h1 t
      simp only [List.singleton_append, List.mem_cons, Ev.seen.injEq, hk, true_and, List.mem_append, rec_ _ _ _ h2, h3]
termination_by structural fs
theorem emitValue_seen {cfg : FCfg} (hw : cfg.wkt = false) (hx : cfg.xml = false) (ref : SheetRef) (p : List Str) (pids : List (Str × Json))
    (k : Str) (v : Json) (flat : FLine) (pn' : Str) (fl : FLine) (ev : List Ev)
    (he : emitValue cfg ref (pnOf p) pids k v flat = .ok ((pn', fl), ev)) (t : Str) :
    pn' = pnOf p ∧ (Ev.seen t ∈ ev ↔ SeenAt cfg (p ++ [k]) v t) := by
  have hput : ∀ v', (emitPut cfg ref (pnOf p ++ k) v' flat).bind (fun fl => .ok ((pnOf p, fl), [])) = .ok ((pn', fl), ev) →
      pn' = pnOf p ∧ Ev.seen t ∉ ev := by
    intro v' hv
    simp only [emitPut, Out.bind, Except.ok.injEq, Prod.mk.injEq] at hv
    obtain ⟨⟨rfl, rfl⟩, rfl⟩ := hv
    exact ⟨rfl, by simp⟩
  match v with
  | .leaf a =>
    rw [emitValue] at he
    split at he
    · rw [if_neg (by simp [hx])] at he
      obtain ⟨h1, h2⟩ := hput _ he
      exact ⟨h1, fun h => absurd h h2, fun h => by cases h⟩
    · cases he
  | .obj gs =>
    rw [emitValue] at he
    obtain ⟨s, e1, e2, h1, h2, rfl⟩ := Out.bind_ok.1 he
    have hpn : pnOf p ++ (k ++ s%"/") = pnOf (p ++ [k]) := by simp [pnOf]
    rw [hpn] at h1 h2
    obtain ⟨h3, -, h4⟩ := prologue_seen hw h1
    obtain ⟨pids', fl0, rfl⟩ := h4 (filteredOut_deep cfg (by simp) gs)
    dsimp only at h2
    obtain ⟨fl1, e3, e4, h5, h6, rfl⟩ := Out.bind_ok.1 h2
    simp only [Except.ok.injEq, Prod.mk.injEq] at h6
    obtain ⟨⟨rfl, rfl⟩, rfl⟩ := h6
    have h7 := emitFields_seen hw hx ref (p ++ [k]) _ gs fl0 fl1 e3 h5 t
    refine ⟨rfl, ?_⟩
    rw [List.append_nil, List.mem_append, h7]
    exact ⟨fun h => h.resolve_left (h3 t), .inr⟩
  | .arr l =>
    rw [emitValue] at he
    cases hj : joinArray l with
    | some t' =>
      simp only [hj] at he
      obtain ⟨h1, h2⟩ := hput _ he
      refine ⟨h1, fun h => absurd h h2, fun h => ?_⟩
      cases h with
      | item hj' => rw [hj] at hj'; cases hj'
    | none =>
      simp only [hj] at he
      obtain ⟨fl1, e1, e2, h1, h2, rfl⟩ := Out.bind_ok.1 he
      obtain ⟨e3, h3, rfl⟩ := Out.after_ok.1 h2
      obtain ⟨⟨⟩, e4, e5, h4, h5, rfl⟩ := Out.bind_ok.1 h3
      simp only [Except.ok.injEq, Prod.mk.injEq] at h5
      obtain ⟨⟨rfl, rfl⟩, rfl⟩ := h5
      have hpn : pnOf p ++ (k ++ s%"/0/") = pnOf (p ++ [k] ++ [s%"0"]) := by simp [pnOf]
      rw [hpn] at h4
      have h6 := emitItems_seen hw hx _ (p ++ [k]) pids l e4 h4 t
      refine ⟨rfl, ?_⟩
      have h7 := rollup_noSeen h1 t
      simp only [List.append_nil, List.mem_append, List.mem_singleton, reduceCtorEq, false_or, h7, h6]
      constructor
      · rintro ⟨fs, hm, hv⟩; exact .item hj hm hv
      · intro h
        cases h with
        | item _ hm hv => exact ⟨_, hm, hv⟩
termination_by structural v
theorem emitItems_seen {cfg : FCfg} (hw : cfg.wkt = false) (hx : cfg.xml = false) (name : Str) (p : List Str) (pids : List (Str × Json))
    (l : List Json) (ev : List Ev) (he : emitItems cfg name (pnOf (p ++ [s%"0"])) pids l = .ok ((), ev)) (t : Str) :
    Ev.seen t ∈ ev ↔ ∃ fs, .obj fs ∈ l ∧ SeenAt cfg (p ++ [s%"0"]) (.obj fs) t := by
  match l with
  | [] =>
    rw [emitItems] at he
    simp only [Except.ok.injEq, Prod.mk.injEq, true_and] at he
    subst he
    simp
  | .leaf a :: r =>
    rw [emitItems] at he
    split at he
    · rw [emitItems_seen hw hx name p pids r ev he t]; simp
    · cases he
  | .arr _ :: r => rw [emitItems] at he; cases he
  | .obj fs :: r =>
    have rec_ := fun ev he => emitItems_seen hw hx name p pids r ev he t
    rw [emitItems] at he
    obtain ⟨s, e1, e2, h1, h2, rfl⟩ := Out.bind_ok.1 he
    obtain ⟨h3, -, h4⟩ := prologue_seen hw h1
    obtain ⟨pids', fl0, rfl⟩ := h4 (filteredOut_deep cfg (by simp) fs)
    dsimp only at h2
    obtain ⟨fl1, e3, e4, h5, h6, rfl⟩ := Out.bind_ok.1 h2
    obtain ⟨e5, h7, rfl⟩ := Out.after_ok.1 h6
    have h8 := emitFields_seen hw hx _ (p ++ [s%"0"]) _ fs _ fl1 e3 h5 t
    have h9 := h3 t
    simp only [List.mem_append, h9, h8, rec_ _ h7, List.mem_singleton, reduceCtorEq, false_or, List.mem_cons, List.not_mem_nil]
    constructor
    · rintro (h | ⟨gs, hm, hv⟩)
      · exact ⟨fs, .inl rfl, h⟩
      · exact ⟨gs, .inr hm, hv⟩
    · rintro ⟨gs, hm, hv⟩
      rcases hm with hm | hm
      · cases hm; exact .inl hv
      · exact .inr ⟨gs, hm, hv⟩
termination_by structural l
end

theorem emitRootList_seen {cfg : FCfg} (hw : cfg.wkt = false) (hx : cfg.xml = false) (n : Nat) (l : List Json) (ev : List Ev)
    (he : emitRootList cfg n l = .ok ((), ev)) (t : Str) :
    Ev.seen t ∈ ev ↔ ∃ fs, .obj fs ∈ l ∧ filteredOut cfg [] fs = false ∧ SeenAt cfg [] (.obj fs) t := by
  induction l generalizing n ev with
  | nil =>
    rw [emitRootList] at he
    simp only [Except.ok.injEq, Prod.mk.injEq, true_and] at he
    subst he
    simp
  | cons j r ih =>
    rw [emitRootList] at he
    obtain ⟨⟨⟩, e1, e2, h1, h2, rfl⟩ := Out.bind_ok.1 he
    have h3 := ih _ _ h2
    rw [List.mem_append, h3]
    unfold emitRootItem at h1
    cases j with
    | leaf a =>
      simp only [Except.ok.injEq, Prod.mk.injEq, true_and] at h1
      have hn : Ev.seen t ∉ e1 := by rw [← h1]; split <;> simp
      simp [hn]
    | arr a =>
      simp only [Except.ok.injEq, Prod.mk.injEq, true_and] at h1
      have hn : Ev.seen t ∉ e1 := by rw [← h1]; simp
      simp [hn]
    | obj fs =>
      obtain ⟨s, e3, e4, h5, h6, rfl⟩ := Out.bind_ok.1 h1
      obtain ⟨h7, h8, h9⟩ := prologue_seen hw h5
      have key : Ev.seen t ∈ e3 ++ e4 ↔ filteredOut cfg [] fs = false ∧ SeenAt cfg [] (.obj fs) t := by
        cases hf : filteredOut cfg [] fs with
        | true =>
          rw [h8 hf] at h6
          simp only [Except.ok.injEq, Prod.mk.injEq, true_and] at h6
          rw [← h6]
          simp [h7 t]
        | false =>
          obtain ⟨pids', fl0, rfl⟩ := h9 hf
          dsimp only at h6
          obtain ⟨fl1, e5, e6, h9, h10, rfl⟩ := Out.bind_ok.1 h6
          simp only [Except.ok.injEq, Prod.mk.injEq, true_and] at h10
          subst h10
          have := emitFields_seen hw hx none [] _ fs _ fl1 e5 h9 t
          simp [h7 t, this]
      rw [key]
      constructor
      · rintro (⟨h, h'⟩ | ⟨gs, hm, hv⟩)
        · exact ⟨fs, by simp, h, h'⟩
        · exact ⟨gs, by simp [hm], hv⟩
      · rintro ⟨gs, hm, hv⟩
        rcases List.mem_cons.1 hm with hm | hm
        · cases hm; exact .inl hv
        · exact .inr ⟨gs, hm, hv⟩


/-! ### Paths that are seen are paths that occur -/

theorem comp_field {p : List Str} {k : Str} (hp : ∀ x ∈ p, CompOK x) (hk : '/' ∉ k) (hz : k.head? ≠ some '0') : ∀ x ∈ p ++ [k], CompOK x := by
  intro x hx
  simp only [List.mem_append, List.mem_singleton] at hx
  rcases hx with hx | rfl
  · exact hp x hx
  · exact ⟨hk, .inr hz⟩

theorem filter_snoc {p : List Str} {k : Str} (hk : k ≠ s%"0") : (p ++ [k]).filter (· ≠ s%"0") = p.filter (· ≠ s%"0") ++ [k] := by
  rw [List.filter_append, List.filter_cons_of_pos (by simpa using hk), List.filter_nil]

theorem filter_zero {p : List Str} : (p ++ [s%"0"]).filter (· ≠ s%"0") = p.filter (· ≠ s%"0") := by
  rw [List.filter_append, List.filter_cons_of_neg (by simp)]; simp

theorem head_snoc {p : List Str} {k : Str} (hp : p.head? ≠ some s%"0") (hk : k ≠ s%"0") : (p ++ [k]).head? ≠ some s%"0" := by
  cases p with
  | nil => simpa using hk
  | cons a b => simpa using hp

theorem not_zero {k : Str} (hz : k.head? ≠ some '0') : k ≠ s%"0" := by rintro rfl; simp at hz

/-- What is seen is there. -/
theorem seen_at {cfg : FCfg} {p : List Str} {v : Json} {t : Str} (h : SeenAt cfg p v t) (hp : ∀ x ∈ p, CompOK x) (h0 : p.head? ≠ some s%"0")
    (hne : (∃ fs, v = .obj fs) ∨ p ≠ []) (hc : CleanKeys v) (hz : ∀ s w, At v s w → ∀ k ∈ s, k.head? ≠ some '0') :
    ∃ s, HasField v s ∧ t = pathText (p.filter (· ≠ s%"0") ++ s) ∧ ∀ x ∈ s, '/' ∉ x := by
  induction h with
  | @field p fs k v hm =>
    rw [CleanKeys] at hc
    have hk := hc.2.1 k (Dict.mem_keys_of_mem hm)
    exact ⟨[k], .field hm, by rw [replace_pnOf p hp h0, pathText_snoc], by simpa using hk⟩
  | @inner p fs k v t hm hk h ih =>
    rw [CleanKeys] at hc
    have hkz := hz [k] v (.field hm .here) k (by simp)
    obtain ⟨s, h2, h3, h4⟩ := ih (comp_field hp (hc.2.1 k (Dict.mem_keys_of_mem hm)) hkz) (head_snoc h0 (not_zero hkz)) (.inr (by simp))
      (clean_mem hc.2.2 hm) (fun s w ha x hx => hz (k :: s) w (.field hm ha) x (by simp [hx]))
    refine ⟨k :: s, .inner hm h2, ?_, ?_⟩
    · rw [h3, filter_snoc (not_zero hkz), List.append_assoc]; rfl
    · intro x hx
      rcases List.mem_cons.1 hx with rfl | hx
      · exact hc.2.1 _ (Dict.mem_keys_of_mem hm)
      · exact h4 x hx
  | @item p l fs t hj hm h ih =>
    rw [CleanKeys] at hc
    have hpn : p ≠ [] := by
      rcases hne with ⟨_, h⟩ | h
      · cases h
      · exact h
    obtain ⟨s, h2, h3, h4⟩ := ih (by
        intro x hx
        simp only [List.mem_append, List.mem_singleton] at hx
        rcases hx with hx | rfl
        · exact hp x hx
        · exact ⟨by decide, .inl rfl⟩) (by
        cases p with
        | nil => exact absurd rfl hpn
        | cons a b => simpa using h0) (.inl ⟨_, rfl⟩) (clean_mem_list hc hm) (fun s w ha => hz s w (.item hm ha))
    exact ⟨s, .item hm h2, by rw [h3, filter_zero], h4⟩

theorem joined_no_objects {l : List Json} {t : Str} (h : joinArray l = some t) {fs : List (Str × Json)} : .obj fs ∉ l := by
  intro hm
  have fails : ∀ (f : Json → Option Str), f (.obj fs) = none → ∀ l : List Json, .obj fs ∈ l → l.mapM f = none := by
    intro f hf l
    induction l with
    | nil => intro h; cases h
    | cons x r ih =>
      intro hm
      rw [List.mapM_cons]
      rcases List.mem_cons.1 hm with rfl | hm
      · rw [hf]; rfl
      · rw [ih hm]; cases f x <;> rfl
  unfold joinArray at h
  rw [fails basicStr rfl l hm] at h
  simp only [fails innerJoin rfl l hm] at h
  cases h

theorem hasField_ne {v : Json} {s : List Str} (h : HasField v s) : s ≠ [] := by
  induction h with
  | field => simp
  | inner => simp
  | item _ _ ih => exact ih

/-- What is there and is looked into is seen. -/
theorem at_seen {cfg : FCfg} {listed : List (List Str)} {root : List Json} (hg : GoodList listed root)
    (hcfg : cfg.preserve = preserveSet (listed.map pathText)) {v : Json} {s : List Str} (h : HasField v s) :
    ∀ (p : List Str), ReachedAt listed p v → (p = [] → v ∈ root) → (p ≠ [] ∨ ∃ fs, v = .obj fs) →
      (∀ q r, s = q ++ r → q ≠ [] → r ≠ [] → Preserved listed (p.filter (· ≠ s%"0") ++ q)) →
      SeenAt cfg p v (pathText (p.filter (· ≠ s%"0") ++ s)) := by
  induction h with
  | @field fs k v hm =>
    intro p hr hroot _ _
    have := SeenAt.field (cfg := cfg) (p := p) hm
    rwa [replace_pnOf p hr.comp hr.head, ← pathText_snoc] at this
  | @inner fs k v s hm h ih =>
    intro p hr hroot _ hpre
    have hf : p.filter (· ≠ s%"0") = [] → .obj fs ∈ root := by
      intro h0
      apply hroot
      cases hp : p with
      | nil => rfl
      | cons a b => exact absurd h0 (filter_ne_nil (by rw [hp]; simp) hr.head)
    obtain ⟨h1, h2⟩ := reached_field hg hcfg hr hf hm
    have hk : keepOf cfg p k = true := by
      rw [h1]
      exact decide_eq_true (hpre [k] s rfl (by simp) (hasField_ne h))
    have hr' := h2 hk
    have hz : k.head? ≠ some '0' := hr.noZero [k] v (.field hm .here) k (by simp)
    have h3 := ih (p ++ [k]) hr' (by simp) (.inl (by simp)) (by
      intro q r hq hne hrne
      rw [filter_snoc (not_zero hz), List.append_assoc]
      exact hpre (k :: q) r (by rw [hq]; rfl) (by simp) hrne)
    rw [filter_snoc (not_zero hz), List.append_assoc] at h3
    exact .inner hm hk h3
  | @item l fs s hm h ih =>
    intro p hr _ hp hpre
    have hpn : p ≠ [] := by
      rcases hp with hp | ⟨_, hp⟩
      · exact hp
      · cases hp
    have hj : joinArray l = none := by
      cases hj : joinArray l with
      | none => rfl
      | some t => exact absurd hm (joined_no_objects hj)
    have h3 := ih (p ++ [s%"0"]) (reached_item hpn hr hm) (by simp) (.inl (by simp)) (by
      intro q r hq hne hrne
      rw [filter_zero]
      exact hpre q r hq hne hrne)
    rw [filter_zero] at h3
    exact .item hj hm h3

theorem passes_filtered {o : FlOpts} {env : FlEnv} {schema : Option Parsed} {rollup : List Str} (fs : List (Str × Json)) :
    filteredOut (o.parserCfg env schema rollup) [] fs = false ↔ passes o (.obj fs) = true := by
  unfold passes
  cases hf : o.filterField with
  | none => simp [filteredOut, FlOpts.parserCfg, hf, given]
  | some f =>
    cases hv : o.filterValue with
    | none => simp [filteredOut, FlOpts.parserCfg, hf, hv, given]
    | some v =>
      by_cases h1 : f = []
      · simp [filteredOut, FlOpts.parserCfg, hf, hv, given, h1]
      · by_cases h2 : v = []
        · simp [filteredOut, FlOpts.parserCfg, hf, hv, given, h2]
        · have : (o.parserCfg env schema rollup).filter = some (f, v) := by
            simp [FlOpts.parserCfg, hf, hv, given_some.2 ⟨rfl, h1⟩, given_some.2 ⟨rfl, h2⟩]
          rw [filteredOut_selected this]
          simp [h1, h2]

theorem warns_missing (cfg : FCfg) (st : FState) : (finish cfg st).warns =
    st.warns ++ (if cfg.preserveInput.filter (fun f => !st.seen.contains f) = [] then []
      else [.preserveMissing (cfg.preserveInput.filter (fun f => !st.seen.contains f))]) := by
  unfold finish warnMissing
  dsimp only
  rw [(dropEmpty_warns cfg _).2]
  by_cases h : cfg.preserveInput.filter (fun f => !st.seen.contains f) = []
  · rw [if_pos (by rw [h]; rfl), if_pos h, List.append_nil, (dropEmpty_warns cfg _).1]
  · rw [if_neg (by simpa using h), if_neg h]
    simp [FState.warn, (dropEmpty_warns cfg _).1]

/-! ### No other warnings of that kind -/

/-- The only warnings of the traversal of an object are those about rollup and about geometries. -/
def NotMissing (ev : List Ev) : Prop := ∀ w, Ev.warn w ∈ ev → (∃ f, w = .rollupMany f) ∨ w = .badGeo ∨ w = .geoDeps

theorem NotMissing.append {a b : List Ev} (h : NotMissing a) (h' : NotMissing b) : NotMissing (a ++ b) := by
  intro m hm
  rcases List.mem_append.1 hm with hm | hm
  · exact h m hm
  · exact h' m hm

theorem notMissing_nil : NotMissing [] := fun _ h => by cases h

/-- A computation all of whose results are without that warning. -/
def Quiet {α : Type} (o : Out α) : Prop := ∀ a ev, o = .ok (a, ev) → NotMissing ev

theorem Quiet.ok {α : Type} {a : α} {ev : List Ev} (h : NotMissing ev) : Quiet (.ok (a, ev)) := by
  intro a' ev' he
  simp only [Except.ok.injEq, Prod.mk.injEq] at he
  rw [← he.2]; exact h

theorem Quiet.error {α : Type} {e : Err} : Quiet (.error e : Out α) := fun _ _ h => by cases h

theorem Quiet.bind {α β : Type} {m : Out α} {f : α → Out β} (h : Quiet m) (hf : ∀ a, Quiet (f a)) : Quiet (m.bind f) := by
  intro b ev he
  obtain ⟨a, e1, e2, h1, h2, rfl⟩ := Out.bind_ok.1 he
  exact (h a e1 h1).append (hf a b e2 h2)

theorem Quiet.after {α : Type} {m : Out α} {ev : List Ev} (hev : NotMissing ev) (h : Quiet m) : Quiet (Out.after ev m) := by
  intro b ev' he
  obtain ⟨e1, h1, rfl⟩ := Out.after_ok.1 he
  exact hev.append (h b e1 h1)

theorem quiet_parentIds (cfg : FCfg) (ref : SheetRef) (ps : List (Str × Json)) (flat : FLine) : Quiet (emitParentIds cfg ref ps flat) := by
  induction ps generalizing flat with
  | nil => exact .ok notMissing_nil
  | cons e r ih =>
    obtain ⟨k, v⟩ := e
    rw [emitParentIds]
    split
    · exact .error
    · exact .after (by intro m; simp) (ih _)

theorem notMissing_addId (cfg : FCfg) (ref : SheetRef) (name field : Str) (fs pids : List (Str × Json)) :
    NotMissing (emitAddId cfg ref name field fs pids).2 := by
  unfold emitAddId
  split
  · exact notMissing_nil
  · intro m; simp

theorem notMissing_ids (cfg : FCfg) (ref : SheetRef) (pn : Str) (pids fs : List (Str × Json)) : NotMissing (emitIds cfg ref pn pids fs).2 := by
  unfold emitIds
  refine NotMissing.append ?_ (notMissing_addId _ _ _ _ _ _)
  unfold emitRootId
  split
  · exact notMissing_nil
  · exact notMissing_addId _ _ _ _ _ _

theorem quiet_prologue (cfg : FCfg) (ref : SheetRef) (pn : Str) (topSub : Bool) (pids : List (Str × Json)) (flat : Option FLine) (fs : List (Str × Json)) :
    Quiet (emitPrologue cfg ref pn topSub pids flat fs) := by
  unfold emitPrologue
  refine .bind ?_ ?_
  · unfold emitGeo
    split
    · split
      · split
        · exact .ok (by intro m hm; exact .inr (.inl (by simpa using hm)))
        · split
          · exact .error
          · exact .ok (by intro m; simp)
      · exact .ok (by intro m hm; exact .inr (.inr (by simpa using hm)))
    · exact .ok notMissing_nil
  · intro g
    unfold emitStart
    split
    · exact .ok notMissing_nil
    · split
      · exact .ok notMissing_nil
      · refine .bind ?_ (fun fl => .ok (notMissing_ids _ _ _ _ _))
        unfold emitStartLine
        split
        · exact quiet_parentIds _ _ _ _
        · exact .ok notMissing_nil

theorem quiet_put (cfg : FCfg) (ref : SheetRef) (k : Str) (v : Json) (flat : FLine) : Quiet (emitPut cfg ref k v flat) :=
  .ok (by intro m; simp)

theorem quiet_rollup (cfg : FCfg) (ref : SheetRef) (pn key : Str) (items : List Json) (flat : FLine) : Quiet (emitRollup cfg ref pn key items flat) := by
  have ones : ∀ (fs : List (Str × Json)) (flat : FLine), Quiet (emitRollupOnes cfg ref pn key fs flat) := by
    intro fs
    induction fs with
    | nil => intro flat; exact .ok notMissing_nil
    | cons e r ih =>
      intro flat
      rw [emitRollupOnes]
      refine .bind ?_ ih
      unfold emitRollupOne
      split
      · exact .ok notMissing_nil
      · split
        · exact .error
        · split
          · exact quiet_put _ _ _ _ _
          · exact .ok notMissing_nil
  have many : ∀ (ks : List Str) (flat : FLine), NotMissing (emitRollupMany cfg ref pn key ks flat).2 := by
    intro ks
    induction ks with
    | nil => intro flat; exact notMissing_nil
    | cons k r ih =>
      intro flat
      rw [emitRollupMany]
      split
      · intro m hm
        simp only [List.mem_cons, reduceCtorEq, Ev.warn.injEq, false_or] at hm
        rcases hm with hm | hm
        · exact .inl ⟨_, hm⟩
        · exact ih _ m hm
      · exact ih _
  unfold emitRollup
  split
  · exact .ok notMissing_nil
  · split
    · exact .error
    · split
      · exact .ok notMissing_nil
      · exact ones _ _
      · exact .error
      · split
        · exact .error
        · exact .ok (many _ _)

mutual
theorem quiet_fields (cfg : FCfg) (ref : SheetRef) (pn : Str) (pids : List (Str × Json)) (skip : Bool) (fs : List (Str × Json)) (flat : FLine) :
    Quiet (emitFields cfg ref pn pids skip fs flat) := by
  match fs with
  | [] => rw [emitFields]; exact .ok notMissing_nil
  | (k, v) :: r =>
    have rec_ := fun pn flat => quiet_fields cfg ref pn pids skip r flat
    rw [emitFields]
    split
    · exact rec_ _ _
    · refine .after (by intro m; simp) ?_
      split
      · exact rec_ _ _
      · exact .bind (quiet_value cfg ref pn pids k v flat) (fun _ => rec_ _ _)
termination_by structural fs
theorem quiet_value (cfg : FCfg) (ref : SheetRef) (pn : Str) (pids : List (Str × Json)) (key : Str) (v : Json) (flat : FLine) :
    Quiet (emitValue cfg ref pn pids key v flat) := by
  match v with
  | .leaf a =>
    rw [emitValue]
    split
    · split
      · exact .bind (quiet_put _ _ _ _ _) (fun _ => .ok notMissing_nil)
      · exact .bind (quiet_put _ _ _ _ _) (fun _ => .ok notMissing_nil)
    · exact .error
  | .obj fs =>
    have rec_ := fun pids skip fl => quiet_fields cfg ref (pn ++ (key ++ s%"/")) pids skip fs fl
    rw [emitValue]
    refine .bind (quiet_prologue _ _ _ _ _ _ _) ?_
    intro s
    split
    · exact .ok notMissing_nil
    · exact .bind (rec_ _ _ _) (fun _ => .ok notMissing_nil)
  | .arr l =>
    have rec_ := fun name pids => quiet_items cfg name (pn ++ (key ++ s%"/0/")) pids l
    rw [emitValue]
    split
    · exact .bind (quiet_put _ _ _ _ _) (fun _ => .ok notMissing_nil)
    · exact .bind (quiet_rollup _ _ _ _ _ _) (fun _ => .after (by intro m; simp) (.bind (rec_ _ _) (fun _ => .ok notMissing_nil)))
termination_by structural v
theorem quiet_items (cfg : FCfg) (name pn : Str) (pids : List (Str × Json)) (l : List Json) : Quiet (emitItems cfg name pn pids l) := by
  match l with
  | [] => rw [emitItems]; exact .ok notMissing_nil
  | .leaf a :: r =>
    have rec_ := quiet_items cfg name pn pids r
    rw [emitItems]
    split
    · exact rec_
    · exact .error
  | .arr _ :: r => rw [emitItems]; exact .error
  | .obj fs :: r =>
    have rec_ := quiet_items cfg name pn pids r
    have rec' := fun pids skip fl => quiet_fields cfg (some name) pn pids skip fs fl
    rw [emitItems]
    refine .bind (quiet_prologue _ _ _ _ _ _ _) ?_
    intro s
    split
    · exact rec_
    · exact .bind (rec' _ _ _) (fun _ => .after (by intro m; simp) rec_)
termination_by structural l
end

theorem inner_noObject {ev : List Ev} (h : NotMissing ev) :
    ev.filterMap (fun e => match e with | .warn w => noObject w | _ => none) = [] := by
  rw [List.filterMap_eq_nil_iff]
  intro e he
  cases e with
  | warn w => rcases h w he with ⟨f, rfl⟩ | rfl | rfl <;> rfl
  | _ => rfl

theorem root_warnings (cfg : FCfg) (n : Nat) (l : List Json) {ev : List Ev} (he : emitRootList cfg n l = .ok ((), ev)) :
    (∀ m, Ev.warn (.preserveMissing m) ∉ ev) ∧
    ev.filterMap (fun e => match e with | .warn w => noObject w | _ => none) = noObjects n l := by
  induction l generalizing n ev with
  | nil =>
    simp only [emitRootList, Except.ok.injEq, Prod.mk.injEq, true_and] at he
    subst he
    exact ⟨fun m => by simp, rfl⟩
  | cons j r ih =>
    rw [emitRootList] at he
    obtain ⟨⟨⟩, e1, e2, h1, h2, rfl⟩ := Out.bind_ok.1 he
    obtain ⟨i1, i2⟩ := ih _ h2
    unfold emitRootItem at h1
    rw [List.filterMap_append, i2]
    have hno : ∀ {m : List Str}, Ev.warn (.preserveMissing m) ∉ e1 → Ev.warn (.preserveMissing m) ∉ e1 ++ e2 := by
      intro m h hm
      rcases List.mem_append.1 hm with hm | hm
      · exact h hm
      · exact i1 m hm
    cases j with
    | leaf a =>
      simp only [Except.ok.injEq, Prod.mk.injEq, true_and] at h1
      subst h1
      refine ⟨fun m => hno (by split <;> simp), ?_⟩
      by_cases ha : a = .none
      · subst ha; rfl
      · simp only [ha, if_false]
        cases a <;> first | rfl | exact absurd rfl ha
    | arr a =>
      simp only [Except.ok.injEq, Prod.mk.injEq, true_and] at h1
      subst h1
      exact ⟨fun m => hno (by simp), rfl⟩
    | obj fs =>
      have hq : NotMissing e1 := by
        have : Quiet ((emitPrologue cfg none [] false [] none fs).bind (fun s =>
            match s with
            | none => .ok ((), [])
            | some (pids, fl, skip) =>
              (emitFields cfg none [] pids skip fs fl).bind (fun fl => .ok ((), [.line none fl])))) := by
          refine .bind (quiet_prologue _ _ _ _ _ _ _) ?_
          intro s
          split
          · exact .ok notMissing_nil
          · exact .bind (quiet_fields _ _ _ _ _ _ _) (fun _ => .ok (by intro m; simp))
        exact this _ _ h1
      refine ⟨fun m => hno (fun hm => ?_), ?_⟩
      · rcases hq _ hm with ⟨f, h⟩ | h | h <;> cases h
      · rw [inner_noObject hq]; rfl

theorem input_lines {lines : List Str} {paths : List (List Str)} (h : lines.map (Py.strip Py.isSpace) = paths.map pathText)
    (hp : ∀ l ∈ paths, l ≠ [] ∧ ∀ x ∈ l, x ≠ [] ∧ '/' ∉ x) : preserveInputSet lines = paths.map pathText := by
  unfold preserveInputSet
  have : ∀ ls : List Str, ls.map (fun l => Py.rstrip (· = '/') (Py.strip Py.isSpace l)) = (ls.map (Py.strip Py.isSpace)).map (Py.rstrip (· = '/')) := by
    intro ls; rw [List.map_map]; rfl
  rw [this, h, List.map_map]
  apply List.map_congr_left
  intro q hq
  exact pathText_no_trail (hp q hq).1 (hp q hq).2

theorem init_quiet (cfg : FCfg) : (initState cfg).warns = [] ∧ (initState cfg).seen = [] := by
  unfold initState; split <;> exact ⟨rfl, rfl⟩

theorem run_quiet {cfg : FCfg} {root : List Json} {ev : List Ev} (he : emitRootList cfg 0 root = .ok ((), ev)) (m : List Str) :
    .preserveMissing m ∉ (runEv cfg ev (initState cfg)).warns := by
  intro hm
  rw [run_warns, (init_quiet cfg).1, List.nil_append, List.mem_filterMap] at hm
  obtain ⟨e, he1, he2⟩ := hm
  cases e with
  | warn w =>
    simp only [Option.some.injEq] at he2
    subst he2
    exact (root_warnings cfg 0 root he).1 m he1
  | _ => cases he2

/-! ### Fields to be preserved that do not occur -/

/-- C74: with a list of fields to be preserved that fits the document, `flatten` warns of fields that are not in the data exactly if there are such fields
in the list; it warns once, and names exactly the fields of the list that no object has (among the root objects that pass the filter). -/
theorem C74_missing_fields (o : FlOpts) (env : FlEnv) (out : FlOut) (hx : o.xml = false) (hw : o.wkt = false)
    (root : List Json) (hroot : RootList o env.content root) (hc : ∀ fs, .obj fs ∈ root → passes o (.obj fs) = true → CleanKeys (.obj fs))
    (paths : List (List Str)) (hask : Asks o (some paths)) (hfit : PathsFit (root.filter (passes o)) (some paths))
    (h : runFlatten o env = .ok out) :
    ∃ before missing, (∀ m, .preserveMissing m ∉ before) ∧
      out.warns = before ++ (if missing = [] then [] else [.preserveMissing missing]) ∧
      ∀ t, t ∈ missing ↔ ∃ q ∈ paths, t = pathText q ∧ ¬ Occurs (root.filter (passes o)) q := by
  obtain ⟨-, st, sw, ig, written, h1, h2, rfl⟩ := runFlatten_ok.1 h
  obtain ⟨schema', rollup, root', h3, h4, h5, h6⟩ := flattenState_ok h1
  rw [hx, rootList_items hroot] at h5
  injection h5 with h5
  subst h5
  obtain ⟨ev, he, rfl⟩ := flatten_ok.1 h6
  obtain ⟨hg, hz⟩ := hfit
  cases hask with
  | @listed lines _ hl hp =>
    have hcfg : (o.parserCfg env schema' rollup).preserve = preserveSet (paths.map pathText) := by
      simp only [FlOpts.parserCfg, hl, Option.getD_some]
      exact preserve_lines hp hg.trim
    have hinp : (o.parserCfg env schema' rollup).preserveInput = paths.map pathText := by
      simp only [FlOpts.parserCfg, hl, Option.getD_some]
      exact input_lines hp hg.path
    generalize hcf : o.parserCfg env schema' rollup = cfg at *
    have hwc : cfg.wkt = false := by rw [← hcf]; exact hw
    have hxc : cfg.xml = false := by rw [← hcf]; exact hx
    refine ⟨(runEv cfg ev (initState cfg)).warns, _, run_quiet he, warns_missing _ _, ?_⟩
    · intro t
      have hseen : t ∈ (runEv cfg ev (initState cfg)).seen ↔ Ev.seen t ∈ ev := by
        rw [run_seen, (init_quiet cfg).2, List.nil_append, List.mem_filterMap]
        constructor
        · rintro ⟨e, he1, he2⟩
          cases e with
          | seen w => simp only [Option.some.injEq] at he2; subst he2; exact he1
          | _ => cases he2
        · intro h; exact ⟨_, h, rfl⟩
      rw [List.mem_filter, hinp]
      simp only [Bool.not_eq_true', List.contains_eq_mem, decide_eq_false_iff_not, hseen, emitRootList_seen hwc hxc 0 root ev he t]
      have hclean : ∀ {fs : List (Str × Json)}, .obj fs ∈ root.filter (passes o) → fs ∈ objects (root.filter (passes o)) :=
        fun h => mem_objects_iff.2 h
      have hc' : ∀ fs ∈ objects (root.filter (passes o)), CleanKeys (.obj fs) := by
        intro fs hfs
        have := List.mem_filter.1 (mem_objects_iff.1 hfs)
        exact hc fs this.1 this.2
      have hpass : ∀ {fs : List (Str × Json)}, filteredOut cfg [] fs = false ↔ passes o (.obj fs) = true := by
        intro fs; rw [← hcf]; exact passes_filtered fs
      rw [List.mem_map]
      constructor
      · rintro ⟨⟨q, hq, rfl⟩, hn⟩
        refine ⟨q, hq, rfl, ?_⟩
        rintro ⟨fs, hm, hh⟩
        apply hn
        have hm' := List.mem_filter.1 hm
        refine ⟨fs, hm'.1, hpass.2 hm'.2, ?_⟩
        have := at_seen hg hcfg hh [] (reached_root hg hc' hz (hclean hm)) (fun _ => hm) (.inr ⟨_, rfl⟩) (by
          intro a b hab _ _
          refine .inr (.inl ⟨q, hq, ?_⟩)
          rw [hab]
          exact ⟨b, rfl⟩)
        simpa using this
      · rintro ⟨q, hq, rfl, hn⟩
        refine ⟨⟨q, hq, rfl⟩, ?_⟩
        rintro ⟨fs, hm, hp1, hs⟩
        apply hn
        have hm' : .obj fs ∈ root.filter (passes o) := List.mem_filter.2 ⟨hm, hpass.1 hp1⟩
        obtain ⟨s, h7, h8, h9⟩ := seen_at hs (by simp) (by simp) (.inl ⟨_, rfl⟩) (hc' fs (hclean hm')) (hz _ hm')
        simp only [List.filter_nil, List.nil_append] at h8
        have := pathText_inj (hg.path q hq).1 (hasField_ne h7) (fun x hx => ((hg.path q hq).2 x hx).2) h9 h8
        subst this
        exact ⟨fs, hm', h7⟩

/-- C74: under all options, the warnings about entries of the root list that are not objects name exactly the entries that are neither objects nor
null, each once, in order, by their positions in the list. -/
theorem C74_not_objects (o : FlOpts) (env : FlEnv) (out : FlOut) (hx : o.xml = false) (root : List Json) (hroot : RootList o env.content root)
    (h : runFlatten o env = .ok out) : out.warns.filterMap noObject = noObjects 0 root := by
  obtain ⟨-, st, sw, ig, written, h1, h2, rfl⟩ := runFlatten_ok.1 h
  obtain ⟨schema', rollup, root', h3, h4, h5, h6⟩ := flattenState_ok h1
  rw [hx, rootList_items hroot] at h5
  injection h5 with h5
  subst h5
  obtain ⟨ev, he, rfl⟩ := flatten_ok.1 h6
  generalize o.parserCfg env schema' rollup = cfg at *
  rw [warns_missing, List.filterMap_append, run_warns, (init_quiet cfg).1, List.nil_append, List.filterMap_filterMap]
  rw [show ((if _ = [] then [] else [FWarn.preserveMissing _]).filterMap noObject) = [] from by split <;> rfl, List.append_nil]
  rw [← (root_warnings cfg 0 root he).2]
  congr 1
  funext e
  cases e <;> rfl

/-- Such entries: `[{}, null, 3, [], {}]` has them at positions 2 and 3. -/
example : noObjects 0 [.obj [], .leaf .none, .leaf (.int 3), .arr [], .obj []] = [2, 3] := rfl

/-- C74: without such a list there is no such warning, under all other options. -/
theorem C74_no_list_no_warning (o : FlOpts) (env : FlEnv) (out : FlOut) (hask : Asks o none) (h : runFlatten o env = .ok out) (m : List Str) :
    .preserveMissing m ∉ out.warns := by
  obtain ⟨-, st, sw, ig, written, h1, h2, rfl⟩ := runFlatten_ok.1 h
  obtain ⟨schema', rollup, root', h3, h4, h5, h6⟩ := flattenState_ok h1
  obtain ⟨ev, he, rfl⟩ := flatten_ok.1 h6
  cases hask with
  | everything he' =>
    have : (o.parserCfg env schema' rollup).preserveInput = [] := by simp [FlOpts.parserCfg, he', preserveInputSet]
    rw [warns_missing, this]
    simpa using run_quiet he m

/-! ### Fields to be preserved that the schema does not have -/

theorem known_path {cfg : SchemaCfg} {s : Schema} {sp : Parsed} (h : parseRoot cfg s = .ok sp) (hw : WellNamed cfg s) (k : Str) :
    Dict.has sp.flattened k = true ↔ KnownPath cfg s k := by
  have hsome : Dict.has sp.flattened k = true ↔ (sp.types k).isSome := by
    rw [Dict.has_iff]
    exact Dict.get_isSome_iff.symm
  rw [hsome]
  constructor
  · intro hs
    obtain ⟨t, ht⟩ := Option.isSome_iff_exists.1 hs
    obtain ⟨steps, n, p, hr, h | h | h⟩ := C38_only_properties cfg s sp h hw k t ht
    · exact ⟨steps, n, p, hr, .inl ⟨.inl ⟨t, h.1⟩, h.2⟩⟩
    · exact ⟨steps, n, p, hr, .inl ⟨.inr h.1, h.2.2⟩⟩
    · exact ⟨steps, n, p, hr, .inr ⟨h.1, h.2.2⟩⟩
  · rintro ⟨steps, n, p, hp, hk⟩
    obtain ⟨-, h2⟩ := types_event h
    obtain ⟨r, q, hr, ht, hf⟩ := id hp
    have hok := names_ok hw hr ht
    have hpath : (ctxAt cfg {} r steps).parentPath = pnOf (indexed steps) := ctxAt_path cfg steps {} r (fun x hx => (hok x hx).1)
    have known : ∀ t, LEv cfg (ctxAt cfg {} r steps) (idsBelow cfg (ctxAt cfg {} r steps) q) n p (.type k t) → (sp.types k).isSome :=
      fun t hl => (h2 _).2 ⟨t, r, hr, pev_trail.2 ⟨steps, q, n, p, ht, hf, hl⟩⟩
    have hplain : noIndex (ctxAt cfg {} r steps).parentPath ++ n = plainPath steps n := by
      rw [hpath, noIndex_steps steps hok, plainPath_eq]
    rcases hk with ⟨⟨ty, hk⟩ | hk, rfl⟩ | ⟨hk, rfl⟩
    · exact known ty (by rw [← hplain]; exact .typ hk)
    · exact known .array (by rw [← hplain]; exact .arr hk)
    · exact known .object (by rw [columnPath_eq, ← hpath]; exact .obj hk)

/-- C74: with a schema and a list of fields to be preserved, `flatten` gives the warning about fields that are not in the schema, and it names exactly the
fields of the list that the schema does not have (if there is none, it names nothing); without a schema, or without a list, it is not given. -/
theorem C74_unknown_fields (o : FlOpts) (env : FlEnv) (out : FlOut) (h : runFlatten o env = .ok out) :
    (o.schema = none ∨ o.preserve = none → out.preserveUnknown = none) ∧
    ∀ s, o.schema = some s → WellNamed o.schemaCfg s → ∀ paths, Asks o (some paths) → (∀ q ∈ paths, q ≠ [] ∧ ∀ x ∈ q, x ≠ [] ∧ '/' ∉ x) →
      ∃ unknown, out.preserveUnknown = some unknown ∧ ∀ t, t ∈ unknown ↔ ∃ q ∈ paths, t = pathText q ∧ ¬ KnownPath o.schemaCfg s t := by
  obtain ⟨-, st, sw, ig, written, h1, h2, rfl⟩ := runFlatten_ok.1 h
  obtain ⟨schema', rollup, root', h3, h4, h5, h6⟩ := flattenState_ok h1
  constructor
  · rintro (hn | hn)
    · have : o.parsedSchema = none := by simp [FlOpts.parsedSchema, hn, parseOpt]
      simp [unknownPreserved, this]
    · simp [unknownPreserved, hn]
  · intro s hs hwn paths hask hpaths
    have hps : o.parsedSchema = schema' := by simp [FlOpts.parsedSchema, h3]
    rw [hs] at h3
    unfold parseOpt at h3
    split at h3
    · next heq => cases heq
    · next s' heq =>
      cases heq
      split at h3
      · cases h3
      · next sp hsp =>
        injection h3 with h3
        subst h3
        cases hask with
        | @listed lines _ hl hp =>
          refine ⟨(preserveInputSet lines).filter (fun f => !Dict.has sp.flattened f), by simp only [unknownPreserved, hps, hl], ?_⟩
          intro t
          rw [input_lines hp hpaths, List.mem_filter, List.mem_map]
          have hk := known_path hsp hwn t
          constructor
          · rintro ⟨⟨q, hq, rfl⟩, hn⟩
            exact ⟨q, hq, rfl, fun hc => by rw [hk.2 hc] at hn; cases hn⟩
          · rintro ⟨q, hq, rfl, hn⟩
            refine ⟨⟨q, hq, rfl⟩, ?_⟩
            cases hh : Dict.has sp.flattened (pathText q) with
            | false => rfl
            | true => exact absurd (hk.1 hh) hn

/-! ### Removed characters -/

theorem removedFrom_spoilt (n : Str) (s : Sheet) : removedFrom s = (tableOf (n, s)).spoilt := by
  unfold removedFrom Table.spoilt tableOf Table.values
  dsimp only
  congr 1
  funext l
  rw [List.filterMap_map]
  congr 1
  funext h
  simp only [Function.comp]
  cases Dict.get l h with
  | none => rfl
  | some v =>
    cases v with
    | leaf a =>
      cases a with
      | str t => simp only [Spec.spoilt, legal_clean]; by_cases hh : legalText t = t <;> simp [hh]
      | _ => rfl
    | _ => rfl

theorem written_format {env : FlEnv} {pfx m n f : Str} {st : FState} {w : Written} (h : writeFormat env pfx m n st f = .ok w) :
    holdsAll w = decide (f = s%"csv") := by
  unfold writeFormat at h
  split at h
  · next hf =>
    split at h
    · cases h
    · injection h with h; subst h; simp [hf, holdsAll]
  · next hf =>
    split at h
    · split at h
      · cases h
      · injection h with h; subst h; simp [hf, holdsAll]
    · split at h
      · cases h
      · injection h with h; subst h; simp [hf, holdsAll]

/-- C74: whenever `flatten` succeeds, under all options, it warns of removed characters once for each cell, in each workbook and ODS document written, whose text
has control characters that spreadsheets cannot hold, with the text; and of no other. -/
theorem C74_removed_characters (o : FlOpts) (env : FlEnv) (out : FlOut) (h : runFlatten o env = .ok out) :
    ∃ tables, (∀ w ∈ out.written, WrittenShows env o.sheetPrefix tables w) ∧
      out.removed = (out.written.filter (fun w => !holdsAll w)).flatMap (fun _ => tables.flatMap Table.spoilt) := by
  obtain ⟨-, st, sw, ig, written, h1, h2, rfl⟩ := runFlatten_ok.1 h
  refine ⟨_, all_shown h2, ?_⟩
  dsimp only
  unfold writeAll at h2
  unfold removedAll
  split at h2
  · cases h2
  · next fs hfs =>
    have hp := mapE_pairs h2
    clear h2 h hfs
    have hsp : ((outSheets o.mainSheetName st).map tableOf).flatMap Table.spoilt = (outSheets o.mainSheetName st).flatMap (fun p => removedFrom p.2) := by
      rw [List.flatMap_map]
      congr 1
      funext p
      exact (removedFrom_spoilt p.1 p.2).symm
    rw [hsp]
    induction hp with
    | nil => rfl
    | @cons f w fs ws hfw _ ih =>
      rw [List.flatMap_cons, List.filter_cons, ih]
      have hh := written_format hfw
      by_cases hf : f = s%"csv"
      · simp [removedIn, hf, hh]
      · simp [removedIn, hf, hh]

/-! ### Concrete cases -/

namespace WarningsEx

/-- `preserveList` with a field that the document lacks. -/
def asked : List (List Str) := [[s%"title"], [s%"dishes", s%"title"], [s%"colour"]]
def o : FlOpts := { rootIsList := true, preserve := some [s%"title ", s%"dishes/title", s%"colour"], outputFormat := s%"csv" }
def env : FlEnv := { content := .arr preserveDoc, file := fun _ => none }

/-- The hypotheses of `C74_missing_fields`. -/
example : RootList o env.content preserveDoc ∧ (∀ fs, .obj fs ∈ preserveDoc → passes o (.obj fs) = true → CleanKeys (.obj fs)) ∧ Asks o (some asked) ∧
    PathsFit (preserveDoc.filter (passes o)) (some asked) := by
  have hf : preserveDoc.filter (passes o) = preserveDoc := List.filter_eq_self.2 (fun _ _ => rfl)
  rw [hf]
  refine ⟨.list rfl, ?_, .listed rfl (by decide +kernel), ⟨by decide, by decide, by decide, ?_, ?_, ?_⟩, ?_⟩
  · intro fs hfs _
    simp only [preserveDoc, List.mem_singleton, Json.obj.injEq] at hfs
    subst hfs
    simp only [CleanKeys, CleanFields, CleanList]; decide
  · intro l hl q hq hne
    obtain ⟨t, rfl⟩ := hq
    simp only [asked, List.mem_cons, List.not_mem_nil, or_false] at hl
    rcases q with _ | ⟨a, _ | ⟨b, c⟩⟩
    · exact absurd rfl hne
    · rcases hl with hl | hl | hl
      · simp at hl; left; rw [hl.1]; decide
      · simp at hl; right; rw [hl.1]; exact ⟨s%"title", by decide⟩
      · simp at hl; left; rw [hl.1]; decide
    · rcases hl with hl | hl | hl
      · simp at hl
      · simp at hl; left; rw [hl.1, hl.2.1, hl.2.2.1]; decide
      · simp at hl
  · intro fs k v q hj hm hq hl
    simp only [preserveDoc, List.mem_singleton, Json.obj.injEq] at hj
    subst hj
    simp only [List.mem_cons, Prod.mk.injEq, List.not_mem_nil, or_false] at hm
    simp only [asked, List.mem_cons, List.not_mem_nil, or_false] at hl
    have hlen : (q ++ [k]).getLast? = some k := by simp
    have : k = s%"title" ∨ k = s%"colour" := by
      rcases hl with hl | hl | hl <;> rw [hl] at hlen
      · left; simpa using hlen.symm
      · left; simpa using hlen.symm
      · right; simpa using hlen.symm
    rcases this with rfl | rfl
    · exact ⟨[s%"title"], by decide, List.prefix_rfl⟩
    · exact ⟨[s%"colour"], by decide, List.prefix_rfl⟩
  · intro j p gs l a b hj ha hp hl he
    have hcon := (contains_iff _ _).2 ⟨a, b, he⟩
    simp only [asked, List.mem_cons, List.not_mem_nil, or_false] at hl
    rcases preserveDoc_at hj ha with rfl | rfl | rfl | rfl | rfl | rfl | rfl <;> rcases hl with rfl | rfl | rfl <;>
      first
        | exact absurd rfl hp
        | exact absurd hcon (by decide)
        | exact ⟨[s%"title"], rfl⟩
  · intro j hj p w ha k hk
    rcases preserveDoc_at hj ha with rfl | rfl | rfl | rfl | rfl | rfl | rfl <;> revert k hk <;> decide

/-- What is said: the warnings in order, the fields not in the schema, and the texts that lost characters. -/
def said : Except Err FlOut → Option (List FWarn × Option (List Str) × List Str)
  | .ok r => some (r.warns, r.preserveUnknown, r.removed)
  | .error _ => none

/-- The document lacks `colour`. -/
example : said (runFlatten o env) = some ([.preserveMissing [s%"colour"]], none, []) := by decide +kernel

/-- The schema has neither `colour` nor `dishes/title`. -/
def schema : Schema := .mk {} (some [
  (s%"title", .mk { type := .one s%"string" } none none none),
  (s%"dishes", .mk { type := .one s%"array" } none (some (.mk { type := .one s%"object" } (some [(s%"n", .mk {} none none none)]) none none)) none)]) none none

example : WellNamed { o with schema := some schema }.schemaCfg schema := wellNamed_of_inside (by decide +kernel)
example : ∀ q ∈ asked, q ≠ [] ∧ ∀ x ∈ q, x ≠ [] ∧ '/' ∉ x := by decide
example : said (runFlatten { o with schema := some schema } env) =
    some ([.preserveMissing [s%"colour"]], some [s%"dishes/title", s%"colour"], []) := by decide +kernel

/-- A text with a control character, written to a workbook and an ODS document. -/
example : said (runFlatten { rootIsList := true, outputFormat := s%"all" }
      { content := .arr [.obj [(s%"id", .leaf (.str s%"1")), (s%"t", .leaf (.str ['a', Char.ofNat 7]))]], file := fun _ => none }) =
    some ([], none, [['a', Char.ofNat 7], ['a', Char.ofNat 7]]) := by decide +kernel

/-- A listed field that occurs, but is said to be missing: the objects around it are not listed, and are dropped before it is found. -/
example : said (runFlatten { rootIsList := true, preserve := some [s%"a/b/c"], outputFormat := s%"csv" }
      { content := .arr [.obj [(s%"a", .obj [(s%"b", .obj [(s%"c", .leaf (.int 1))])])]], file := fun _ => none }) =
    some ([.preserveMissing [s%"a/b/c"]], none, []) := by decide +kernel

end WarningsEx

end Verif
