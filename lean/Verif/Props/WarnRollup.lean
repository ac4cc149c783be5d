import Verif.Props.Warnings
import Verif.Props.FlattenRollup
/-! C30: the warnings about arrays with several objects that cannot be rolled up. -/
namespace Verif
open Spec

/-- No warning about rollup. -/
def NoRoll (ev : List Ev) : Prop := ∀ f, Ev.warn (.rollupMany f) ∉ ev

theorem NoRoll.append {a b : List Ev} (h : NoRoll a) (h' : NoRoll b) : NoRoll (a ++ b) := by
  intro m hm
  rcases List.mem_append.1 hm with hm | hm
  · exact h m hm
  · exact h' m hm

theorem noRoll_nil : NoRoll [] := fun _ h => by cases h

def Unrolled {α : Type} (o : Out α) : Prop := ∀ a ev, o = .ok (a, ev) → NoRoll ev

theorem Unrolled.ok {α : Type} {a : α} {ev : List Ev} (h : NoRoll ev) : Unrolled (.ok (a, ev)) := by
  intro a' ev' he
  simp only [Except.ok.injEq, Prod.mk.injEq] at he
  rw [← he.2]; exact h

theorem Unrolled.error {α : Type} {e : Err} : Unrolled (.error e : Out α) := fun _ _ h => by cases h

theorem Unrolled.bind {α β : Type} {m : Out α} {f : α → Out β} (h : Unrolled m) (hf : ∀ a ev, m = .ok (a, ev) → Unrolled (f a)) :
    Unrolled (m.bind f) := by
  intro b ev he
  obtain ⟨a, e1, e2, h1, h2, rfl⟩ := Out.bind_ok.1 he
  exact (h a e1 h1).append (hf a e1 h1 b e2 h2)

theorem Unrolled.after {α : Type} {m : Out α} {ev : List Ev} (hev : NoRoll ev) (h : Unrolled m) : Unrolled (Out.after ev m) := by
  intro b ev' he
  obtain ⟨e1, h1, rfl⟩ := Out.after_ok.1 he
  exact hev.append (h b e1 h1)

theorem unrolled_parentIds (cfg : FCfg) (ref : SheetRef) (ps : List (Str × Json)) (flat : FLine) : Unrolled (emitParentIds cfg ref ps flat) := by
  induction ps generalizing flat with
  | nil => exact .ok noRoll_nil
  | cons e r ih =>
    obtain ⟨k, v⟩ := e
    rw [emitParentIds]
    split
    · exact .error
    · exact .after (by intro m; simp) (ih _)

theorem noRoll_addId (cfg : FCfg) (ref : SheetRef) (name field : Str) (fs pids : List (Str × Json)) :
    NoRoll (emitAddId cfg ref name field fs pids).2 := by
  unfold emitAddId
  split
  · exact noRoll_nil
  · intro m; simp

theorem noRoll_ids (cfg : FCfg) (ref : SheetRef) (pn : Str) (pids fs : List (Str × Json)) : NoRoll (emitIds cfg ref pn pids fs).2 := by
  unfold emitIds
  refine NoRoll.append ?_ (noRoll_addId _ _ _ _ _ _)
  unfold emitRootId
  split
  · exact noRoll_nil
  · exact noRoll_addId _ _ _ _ _ _

theorem unrolled_prologue (cfg : FCfg) (ref : SheetRef) (pn : Str) (topSub : Bool) (pids : List (Str × Json)) (flat : Option FLine) (fs : List (Str × Json)) :
    Unrolled (emitPrologue cfg ref pn topSub pids flat fs) := by
  unfold emitPrologue
  refine .bind ?_ ?_
  · unfold emitGeo
    split
    · split
      · split
        · exact .ok (by intro m; simp)
        · split
          · exact .error
          · exact .ok (by intro m; simp)
      · exact .ok (by intro m; simp)
    · exact .ok noRoll_nil
  · intro g _ _
    unfold emitStart
    split
    · exact .ok noRoll_nil
    · split
      · exact .ok noRoll_nil
      · refine .bind ?_ (fun fl _ _ => .ok (noRoll_ids _ _ _ _ _))
        unfold emitStartLine
        split
        · exact unrolled_parentIds _ _ _ _
        · exact .ok noRoll_nil

theorem unrolled_put (cfg : FCfg) (ref : SheetRef) (k : Str) (v : Json) (flat : FLine) : Unrolled (emitPut cfg ref k v flat) :=
  .ok (by intro m; simp)

/-- The name of the fields stays the same. -/
theorem value_pn {cfg : FCfg} (hx : cfg.xml = false) {ref : SheetRef} {pn : Str} {pids : List (Str × Json)} {key : Str} {v : Json} {flat : FLine}
    {r : Str × FLine} {ev : List Ev} (h : emitValue cfg ref pn pids key v flat = .ok (r, ev)) : r.1 = pn := by
  cases v with
  | leaf a =>
    rw [emitValue] at h
    split at h
    · rw [if_neg (by simp [hx])] at h
      obtain ⟨_, _, _, -, h2, -⟩ := Out.bind_ok.1 h
      simp only [Except.ok.injEq, Prod.mk.injEq] at h2
      rw [← h2.1]
    · cases h
  | obj gs =>
    rw [emitValue] at h
    obtain ⟨s, _, _, -, h2, -⟩ := Out.bind_ok.1 h
    split at h2
    · simp only [Except.ok.injEq, Prod.mk.injEq] at h2
      rw [← h2.1]
    · obtain ⟨_, _, _, -, h3, -⟩ := Out.bind_ok.1 h2
      simp only [Except.ok.injEq, Prod.mk.injEq] at h3
      rw [← h3.1]
  | arr l =>
    rw [emitValue] at h
    split at h
    · obtain ⟨_, _, _, -, h2, -⟩ := Out.bind_ok.1 h
      simp only [Except.ok.injEq, Prod.mk.injEq] at h2
      rw [← h2.1]
    · obtain ⟨_, _, _, -, h2, -⟩ := Out.bind_ok.1 h
      obtain ⟨_, h3, -⟩ := Out.after_ok.1 h2
      obtain ⟨_, _, _, -, h4, -⟩ := Out.bind_ok.1 h3
      simp only [Except.ok.injEq, Prod.mk.injEq] at h4
      rw [← h4.1]

mutual
theorem unrolled_fields (cfg : FCfg) (hx : cfg.xml = false) (ref : SheetRef) (pn : Str) (hpn : pn ≠ []) (pids : List (Str × Json)) (skip : Bool)
    (fs : List (Str × Json)) (flat : FLine) : Unrolled (emitFields cfg ref pn pids skip fs flat) := by
  match fs with
  | [] => rw [emitFields]; exact .ok noRoll_nil
  | (k, v) :: r =>
    have rec_ := fun flat => unrolled_fields cfg hx ref pn hpn pids skip r flat
    rw [emitFields]
    split
    · exact rec_ _
    · refine .after (by intro m; simp) ?_
      split
      · exact rec_ _
      · refine .bind (unrolled_value cfg hx ref pn hpn pids k v flat) ?_
        intro a ev he
        rw [value_pn hx he]
        exact rec_ _
termination_by structural fs
theorem unrolled_value (cfg : FCfg) (hx : cfg.xml = false) (ref : SheetRef) (pn : Str) (hpn : pn ≠ []) (pids : List (Str × Json)) (key : Str) (v : Json)
    (flat : FLine) : Unrolled (emitValue cfg ref pn pids key v flat) := by
  match v with
  | .leaf a =>
    rw [emitValue]
    split
    · split
      · exact .bind (unrolled_put _ _ _ _ _) (fun _ _ _ => .ok noRoll_nil)
      · exact .bind (unrolled_put _ _ _ _ _) (fun _ _ _ => .ok noRoll_nil)
    · exact .error
  | .obj fs =>
    have rec_ := fun pids skip fl => unrolled_fields cfg hx ref (pn ++ (key ++ s%"/")) (by simp) pids skip fs fl
    rw [emitValue]
    refine .bind (unrolled_prologue _ _ _ _ _ _ _) ?_
    intro s _ _
    split
    · exact .ok noRoll_nil
    · exact .bind (rec_ _ _ _) (fun _ _ _ => .ok noRoll_nil)
  | .arr l =>
    have rec_ := fun name pids => unrolled_items cfg hx name (pn ++ (key ++ s%"/0/")) (by simp) pids l
    rw [emitValue]
    split
    · exact .bind (unrolled_put _ _ _ _ _) (fun _ _ _ => .ok noRoll_nil)
    · refine .bind ?_ (fun _ _ _ => .after (by intro m; simp) (.bind (rec_ _ _) (fun _ _ _ => .ok noRoll_nil)))
      unfold emitRollup
      rw [if_pos (by simp [hpn])]
      exact .ok noRoll_nil
termination_by structural v
theorem unrolled_items (cfg : FCfg) (hx : cfg.xml = false) (name pn : Str) (hpn : pn ≠ []) (pids : List (Str × Json)) (l : List Json) :
    Unrolled (emitItems cfg name pn pids l) := by
  match l with
  | [] => rw [emitItems]; exact .ok noRoll_nil
  | .leaf a :: r =>
    have rec_ := unrolled_items cfg hx name pn hpn pids r
    rw [emitItems]
    split
    · exact rec_
    · exact .error
  | .arr _ :: r => rw [emitItems]; exact .error
  | .obj fs :: r =>
    have rec_ := unrolled_items cfg hx name pn hpn pids r
    have rec' := fun pids skip fl => unrolled_fields cfg hx (some name) pn hpn pids skip fs fl
    rw [emitItems]
    refine .bind (unrolled_prologue _ _ _ _ _ _ _) ?_
    intro s _ _
    split
    · exact rec_
    · exact .bind (rec' _ _ _) (fun _ _ _ => .after (by intro m; simp) rec_)
termination_by structural l
end

/-- The warnings of the rollup of one array. -/
theorem rollup_warns {cfg : FCfg} (hr : cfg.rollup ≠ []) (hp : cfg.preserve = []) (hord : ∀ l x, x ∈ cfg.order l ↔ x ∈ l) {ref : SheetRef} {key : Str}
    {l : List Json} {flat fl : FLine} {ev : List Ev} (h : emitRollup cfg ref [] key l flat = .ok (fl, ev)) (f : Str) :
    Ev.warn (.rollupMany f) ∈ ev ↔ f = key ∧ 2 ≤ l.length ∧ ∃ gs k v, .obj gs ∈ l ∧ (k, v) ∈ gs ∧ Rolls cfg key k := by
  have ones : ∀ (fs : List (Str × Json)) (flat : FLine), Unrolled (emitRollupOnes cfg ref [] key fs flat) := by
    intro fs
    induction fs with
    | nil => intro flat; exact .ok noRoll_nil
    | cons e r ih =>
      intro flat
      rw [emitRollupOnes]
      refine .bind ?_ (fun a _ _ => ih a)
      unfold emitRollupOne
      split
      · exact .ok noRoll_nil
      · split
        · exact .error
        · split
          · exact unrolled_put _ _ _ _ _
          · exact .ok noRoll_nil
  have many : ∀ (ks : List Str) (flat : FLine),
      Ev.warn (.rollupMany f) ∈ (emitRollupMany cfg ref [] key ks flat).2 ↔ f = key ∧ ∃ k ∈ ks, Rolls cfg key k := by
    intro ks
    induction ks with
    | nil => intro flat; simp [emitRollupMany]
    | cons k r ih =>
      intro flat
      rw [emitRollupMany]
      have hd : rollupDropped cfg [] key k = false := by simp [rollupDropped, hp]
      rw [hd]
      simp only [Bool.not_false, Bool.true_and, List.nil_append]
      by_cases hw : rollupWarned cfg [] key (key ++ (s%"/0/" ++ k)) = true
      · rw [if_pos hw]
        simp only [List.mem_cons, Ev.warn.injEq, FWarn.rollupMany.injEq, reduceCtorEq, false_or]
        rw [ih]
        constructor
        · rintro (rfl | ⟨h1, k', hk, h2⟩)
          · exact ⟨rfl, k, .inl rfl, (rolls_iff cfg _ k).1 hw⟩
          · exact ⟨h1, k', .inr hk, h2⟩
        · rintro ⟨h1, -⟩; exact .inl h1
      · rw [if_neg hw, ih]
        refine and_congr_right fun _ => ?_
        constructor
        · rintro ⟨k', hk, h2⟩; exact ⟨k', by simp [hk], h2⟩
        · rintro ⟨k', hk, h2⟩
          rcases List.mem_cons.1 hk with rfl | hk
          · exact absurd ((rolls_iff cfg _ _).2 h2) hw
          · exact ⟨k', hk, h2⟩
  unfold emitRollup at h
  have hre : cfg.rollup.isEmpty = false := by simpa using hr
  rw [hre, if_neg (by simp)] at h
  split at h
  · cases h
  · split at h
    · simp only [Except.ok.injEq, Prod.mk.injEq] at h
      rw [← h.2]; simp
    · constructor
      · intro hm; exact absurd hm (ones _ _ _ _ h f)
      · rintro ⟨-, h2, -⟩; simp at h2
    · cases h
    · next is hne1 hne2 hne3 =>
      split at h
      · cases h
      · next ks hks =>
        simp only [Except.ok.injEq] at h
        have hm := many (cfg.order (dedup ks)) flat
        rw [h] at hm
        rw [hm]
        refine and_congr_right fun _ => ?_
        have hlen : 2 ≤ l.length := by
          clear hks h hm
          match l with
          | [] => exact absurd rfl hne1
          | [j] => exact absurd rfl (hne3 j)
          | _ :: _ :: _ => simp
        constructor
        · rintro ⟨k, hk, h2⟩
          obtain ⟨gs, v, h3, h4⟩ := (mem_allKeys hks k).1 ((mem_dedup _ _).1 ((hord _ _).1 hk))
          exact ⟨hlen, gs, k, v, h3, h4, h2⟩
        · rintro ⟨-, gs, k, v, h3, h4, h2⟩
          exact ⟨k, (hord _ _).2 ((mem_dedup _ _).2 ((mem_allKeys hks k).2 ⟨gs, v, h3, h4⟩)), h2⟩

/-- The warnings of one root object. -/
theorem root_fields_warns {cfg : FCfg} (hx : cfg.xml = false) (hr : cfg.rollup ≠ []) (hp : cfg.preserve = []) (hord : ∀ l x, x ∈ cfg.order l ↔ x ∈ l)
    {ref : SheetRef} {pids : List (Str × Json)} {fs : List (Str × Json)} {flat fl : FLine} {ev : List Ev}
    (h : emitFields cfg ref [] pids false fs flat = .ok (fl, ev)) (f : Str) :
    Ev.warn (.rollupMany f) ∈ ev ↔ TooMany (Rolls cfg) fs f := by
  induction fs generalizing flat ev with
  | nil =>
    simp only [emitFields, Except.ok.injEq, Prod.mk.injEq] at h
    rw [← h.2]
    constructor
    · intro hm; cases hm
    · rintro ⟨hm, _⟩; cases hm
  | cons e r ih =>
    obtain ⟨k, v⟩ := e
    rw [emitFields, if_neg (by simp), dropped_nil hp, if_neg (by simp)] at h
    obtain ⟨e1, h1, rfl⟩ := Out.after_ok.1 h
    obtain ⟨⟨pn', fl'⟩, e2, e3, h2, h3, rfl⟩ := Out.bind_ok.1 h1
    have := value_pn hx h2
    dsimp only at this h3
    subst this
    have ih := ih h3
    have hv : Ev.warn (.rollupMany f) ∈ e2 ↔ TooMany (Rolls cfg) [(k, v)] f := by
      cases v with
      | leaf a =>
        have : Unrolled (emitValue cfg ref [] pids k (.leaf a) flat) := by
          rw [emitValue]
          split
          · split
            · exact .bind (unrolled_put _ _ _ _ _) (fun _ _ _ => .ok noRoll_nil)
            · exact .bind (unrolled_put _ _ _ _ _) (fun _ _ _ => .ok noRoll_nil)
          · exact .error
        constructor
        · intro hm; exact absurd hm (this _ _ h2 f)
        · rintro ⟨hm, _⟩; simp at hm
      | obj gs =>
        have : Unrolled (emitValue cfg ref [] pids k (.obj gs) flat) := by
          rw [emitValue]
          refine .bind (unrolled_prologue _ _ _ _ _ _ _) ?_
          intro s _ _
          split
          · exact .ok noRoll_nil
          · exact .bind (unrolled_fields cfg hx ref _ (by simp) _ _ gs _) (fun _ _ _ => .ok noRoll_nil)
        constructor
        · intro hm; exact absurd hm (this _ _ h2 f)
        · rintro ⟨hm, _⟩; simp at hm
      | arr l =>
        rw [emitValue] at h2
        split at h2
        · next t hj =>
          have : Unrolled ((emitPut cfg ref ([] ++ k) (.leaf (.str t)) flat).bind (fun fl => .ok ((([] : Str), fl), []))) :=
            .bind (unrolled_put _ _ _ _ _) (fun _ _ _ => .ok noRoll_nil)
          constructor
          · intro hm; exact absurd hm (this _ _ h2 f)
          · rintro ⟨hm, _, hg, _, _⟩
            simp only [List.mem_singleton, Prod.mk.injEq, Json.arr.injEq] at hm
            rw [hm.2] at hg
            rw [joinArray_obj hg] at hj
            cases hj
        · obtain ⟨fl1, e4, e5, h4, h5, rfl⟩ := Out.bind_ok.1 h2
          have hq : NoRoll e5 := (Unrolled.after (by intro m; simp) (.bind (unrolled_items cfg hx _ _ (by simp) _ l)
            (fun _ _ _ => .ok noRoll_nil)) : Unrolled (Out.after [.sheet (subSheetName cfg [] k)]
              ((emitItems cfg (subSheetName cfg [] k) ([] ++ (k ++ s%"/0/")) pids l).bind (fun _ => .ok ((([] : Str), fl1), []))))) _ _ h5
          rw [List.mem_append, rollup_warns hr hp hord h4 f]
          constructor
          · rintro (⟨rfl, h6, gs, k', v, h7, h8, h9⟩ | hm)
            · exact ⟨by simp, h6, h7, h8, h9⟩
            · exact absurd hm (hq f)
          · rintro ⟨hm, h6, h7, h8, h9⟩
            simp only [List.mem_singleton, Prod.mk.injEq, Json.arr.injEq] at hm
            obtain ⟨rfl, rfl⟩ := hm
            exact .inl ⟨rfl, h6, _, _, _, h7, h8, h9⟩
    rw [List.mem_append, List.mem_append, hv, ih]
    constructor
    · rintro (hm | ⟨hm, h6, h7, h8, h9⟩ | ⟨hm, h6, h7, h8, h9⟩)
      · simp at hm
      · exact ⟨by simp only [List.mem_singleton] at hm; simp [hm], h6, h7, h8, h9⟩
      · exact ⟨by simp [hm], h6, h7, h8, h9⟩
    · rintro ⟨hm, h6, h7, h8, h9⟩
      rcases List.mem_cons.1 hm with hm | hm
      · exact .inr (.inl ⟨by simp [hm], h6, h7, h8, h9⟩)
      · exact .inr (.inr ⟨hm, h6, h7, h8, h9⟩)

/-- C30: with rollup, there is a warning about a field exactly if some root object that passes the filter has there an array of several items, with a value
in one of them that is to be rolled up. -/
theorem C30_warnings (cfg : FCfg) (hw : cfg.wkt = false) (hx : cfg.xml = false) (hr : cfg.rollup ≠ []) (hf : cfg.filter = none) (hp : cfg.preserve = [])
    (hord : ∀ l x, x ∈ cfg.order l ↔ x ∈ l) (root : List Json) (st : FState) (h : flatten cfg root = .ok st) (f : Str) :
    .rollupMany f ∈ st.warns ↔ ∃ fs ∈ objects root, TooMany (Rolls cfg) fs f := by
  obtain ⟨ev, he, rfl⟩ := flatten_ok.1 h
  have h1 : .rollupMany f ∈ (finish cfg (runEv cfg ev (initState cfg))).warns ↔ Ev.warn (.rollupMany f) ∈ ev := by
    rw [warns_missing, List.mem_append, run_warns, (init_quiet cfg).1, List.nil_append, List.mem_filterMap]
    constructor
    · rintro (⟨e, h1, h2⟩ | h1)
      · cases e with
        | warn w => simp only [Option.some.injEq] at h2; subst h2; exact h1
        | _ => cases h2
      · split at h1
        · cases h1
        · simp at h1
    · intro hm; exact .inl ⟨_, hm, rfl⟩
  rw [h1]
  clear h h1
  generalize 0 = n at he
  induction root generalizing n ev with
  | nil =>
    simp only [emitRootList, Except.ok.injEq, Prod.mk.injEq, true_and] at he
    subst he
    simp [objects]
  | cons j r ih =>
    rw [emitRootList] at he
    obtain ⟨⟨⟩, e1, e2, h1, h2, rfl⟩ := Out.bind_ok.1 he
    have ih : Ev.warn (.rollupMany f) ∈ e2 ↔ ∃ fs ∈ objects r, TooMany (Rolls cfg) fs f := ih _ _ h2
    rw [List.mem_append, ih]
    unfold emitRootItem at h1
    cases j with
    | leaf a =>
      simp only [Except.ok.injEq, Prod.mk.injEq, true_and] at h1
      subst h1
      have : Ev.warn (.rollupMany f) ∉ (if a = Atom.none then [] else [Ev.warn (FWarn.notAnObject n)]) := by split <;> simp
      simp [this, objects]
    | arr a =>
      simp only [Except.ok.injEq, Prod.mk.injEq, true_and] at h1
      subst h1
      simp [objects]
    | obj fs =>
      dsimp only at h1
      obtain ⟨s, e3, e4, h3, h4, rfl⟩ := Out.bind_ok.1 h1
      have hq := unrolled_prologue _ _ _ _ _ _ _ _ _ h3
      obtain ⟨-, -, h5⟩ := prologue_seen hw h3
      obtain ⟨pids, fl, rfl⟩ := h5 (by simp [filteredOut, hf])
      dsimp only at h4
      obtain ⟨fl1, e5, e6, h6, h7, rfl⟩ := Out.bind_ok.1 h4
      simp only [Except.ok.injEq, Prod.mk.injEq, true_and] at h7
      subst h7
      have := root_fields_warns hx hr hp hord h6 f
      simp only [List.mem_append, this, objects, List.mem_cons, exists_eq_or_imp, reduceCtorEq, List.not_mem_nil, or_false]
      constructor
      · rintro ((hm | hm) | hm)
        · exact absurd hm (hq f)
        · exact .inl hm
        · exact .inr hm
      · rintro (hm | hm)
        · exact .inl (.inr hm)
        · exact .inr hm

/-- Two objects in an array that is rolled up: a warning; one object: none. -/
example : (flatten { rollup := [s%"a"] } [.obj [(s%"a", .arr [.obj [(s%"x", .leaf (.int 1))], .obj []])], .obj [(s%"b", .arr [.obj [], .obj []])],
      .obj [(s%"a", .arr [.obj [(s%"x", .leaf (.int 1))]])]]).map (fun st => st.warns) = .ok [.rollupMany s%"a"] := by decide +kernel

end Verif
