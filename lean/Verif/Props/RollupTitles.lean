import Verif.Spec.RollupTitles
import Verif.Props.FlattenRollup
/-! C30: rollup with titles. -/
namespace Verif
open Spec

/-- What rollup adds for an array `l` in field `key`. -/
def RollOf (cfg : FCfg) (key : Str) (l : List Json) (h : Str) (v : Json) : Prop :=
  (∃ gs k f, l = [.obj gs] ∧ (k, v) ∈ gs ∧ rollupDropped cfg [] key k = false ∧
    rollupField cfg [] key (key ++ (s%"/0/" ++ k)) = some f ∧ h = rn cfg none f) ∨
  (2 ≤ l.length ∧ ∃ gs k w, .obj gs ∈ l ∧ (k, w) ∈ gs ∧ rollupDropped cfg [] key k = false ∧
    rollupWarned cfg [] key (key ++ (s%"/0/" ++ k)) = true ∧ v = .leaf (.str rollupText) ∧ h = rn cfg none (key ++ (s%"/0/" ++ k)))

theorem rollOnes_mem {cfg : FCfg} (key : Str) (gs : List (Str × Json)) (flat fl : FLine) (ev : List Ev)
    (he : emitRollupOnes cfg none [] key gs flat = .ok (fl, ev)) :
    ∃ es, fl = Dict.update flat es ∧ ∀ h v, (h, v) ∈ es ↔ ∃ k f, (k, v) ∈ gs ∧ rollupDropped cfg [] key k = false ∧
      rollupField cfg [] key (key ++ (s%"/0/" ++ k)) = some f ∧ h = rn cfg none f := by
  induction gs generalizing flat ev with
  | nil => cases he; exact ⟨[], rfl, by simp⟩
  | cons e r ih =>
    obtain ⟨k, v⟩ := e
    rw [emitRollupOnes] at he
    obtain ⟨x, e1, e2, h1, h2, rfl⟩ := Out.bind_ok.1 he
    obtain ⟨es, rfl, hes⟩ := ih _ _ h2
    have hno : x = flat → (∀ f, ¬ (rollupDropped cfg [] key k = false ∧ rollupField cfg [] key (key ++ (s%"/0/" ++ k)) = some f)) →
        ∃ es', Dict.update x es = Dict.update flat es' ∧ ∀ h v', (h, v') ∈ es' ↔ ∃ k' f, (k', v') ∈ (k, v) :: r ∧
          rollupDropped cfg [] key k' = false ∧ rollupField cfg [] key (key ++ (s%"/0/" ++ k')) = some f ∧ h = rn cfg none f := by
      rintro rfl hn
      refine ⟨es, rfl, fun h v' => ?_⟩
      rw [hes]
      constructor
      · rintro ⟨k', f, hm, hr⟩
        exact ⟨k', f, by simp [hm], hr⟩
      · rintro ⟨k', f, hm, ha, hb, hc⟩
        rcases List.mem_cons.1 hm with hm | hm
        · cases hm; exact absurd ⟨ha, hb⟩ (hn f)
        · exact ⟨k', f, hm, ha, hb, hc⟩
    unfold emitRollupOne at h1
    split at h1
    · next hd =>
      cases h1
      exact hno rfl (fun f hf => by rw [hd] at hf; cases hf.1)
    next hd =>
    have hd : rollupDropped cfg [] key k = false := by simpa using hd
    split at h1
    · cases h1
    simp only [List.nil_append] at h1
    split at h1
    · next f hf =>
      simp only [emitPut, Except.ok.injEq, Prod.mk.injEq] at h1
      obtain ⟨rfl, rfl⟩ := h1
      refine ⟨(rn cfg none f, v) :: es, rfl, fun h v' => ?_⟩
      rw [List.mem_cons, hes]
      constructor
      · rintro (hm | ⟨k', f', hm, hr⟩)
        · cases hm; exact ⟨k, f, by simp, hd, hf, rfl⟩
        · exact ⟨k', f', by simp [hm], hr⟩
      · rintro ⟨k', f', hm, ha, hb, rfl⟩
        rcases List.mem_cons.1 hm with hm | hm
        · cases hm
          rw [hf] at hb; cases hb; exact .inl rfl
        · exact .inr ⟨k', f', hm, ha, hb, rfl⟩
    · next hf =>
      cases h1
      exact hno rfl (fun f hf' => by rw [hf] at hf'; cases hf'.2)

theorem rollMany_mem {cfg : FCfg} (key : Str) (ks : List Str) (flat : FLine) :
    ∃ es, (emitRollupMany cfg none [] key ks flat).1 = Dict.update flat es ∧ ∀ h v, (h, v) ∈ es ↔ ∃ k, k ∈ ks ∧ rollupDropped cfg [] key k = false ∧
      rollupWarned cfg [] key (key ++ (s%"/0/" ++ k)) = true ∧ v = .leaf (.str rollupText) ∧ h = rn cfg none (key ++ (s%"/0/" ++ k)) := by
  refine ⟨(ks.filter (fun k => !rollupDropped cfg [] key k && rollupWarned cfg [] key (key ++ (s%"/0/" ++ k)))).map
    (fun k => (rn cfg none (key ++ (s%"/0/" ++ k)), .leaf (.str rollupText))), ?_, ?_⟩
  · induction ks generalizing flat with
    | nil => rfl
    | cons k r ih =>
      rw [emitRollupMany, List.filter_cons]
      simp only [List.nil_append]
      split
      · rw [ih]; rfl
      · exact ih _
  · intro h v
    simp only [List.mem_map, List.mem_filter, Bool.and_eq_true, Bool.not_eq_eq_eq_not, Bool.not_true, Prod.mk.injEq]
    constructor
    · rintro ⟨k, ⟨hk, hd, hw⟩, rfl, rfl⟩
      exact ⟨k, hk, hd, hw, rfl, rfl⟩
    · rintro ⟨k, hk, hd, hw, rfl, rfl⟩
      exact ⟨k, ⟨hk, hd, hw⟩, rfl, rfl⟩

theorem rollup_mem {cfg : FCfg} (hr : cfg.rollup ≠ []) (hord : ∀ l x, x ∈ cfg.order l ↔ x ∈ l) (key : Str) (l : List Json) (hj : joinArray l = none) (flat fl : FLine)
    (ev : List Ev) (he : emitRollup cfg none [] key l flat = .ok (fl, ev)) :
    ∃ es, fl = Dict.update flat es ∧ ∀ h v, (h, v) ∈ es ↔ RollOf cfg key l h v := by
  unfold emitRollup at he
  rw [if_neg (by simp [hr])] at he
  split at he
  · cases he
  split at he
  · cases hj
  · next fs =>
    obtain ⟨es, h1, h2⟩ := rollOnes_mem _ _ _ _ _ he
    refine ⟨es, h1, fun h v => ?_⟩
    rw [h2]
    constructor
    · rintro ⟨k, f, hm, hr⟩
      exact .inl ⟨fs, k, f, rfl, hm, hr⟩
    · rintro (⟨gs, k, f, he, hm, hr⟩ | ⟨hl, -⟩)
      · cases he; exact ⟨k, f, hm, hr⟩
      · simp at hl
  · cases he
  · next h1 h2 h3 =>
    split at he
    · cases he
    · next ks hks =>
      simp only [Except.ok.injEq] at he
      obtain ⟨es, h4, h5⟩ := rollMany_mem (cfg := cfg) key (cfg.order (dedup ks)) flat
      rw [he] at h4
      refine ⟨es, h4, fun h v => ?_⟩
      rw [h5]
      constructor
      · rintro ⟨k, hk, hd, hw, rfl, rfl⟩
        rw [hord, mem_dedup, mem_allKeys hks] at hk
        obtain ⟨gs, w, hg, hv⟩ := hk
        refine .inr ⟨?_, gs, k, w, hg, hv, hd, hw, rfl, rfl⟩
        match l, h1, h3 with
        | [], h1, _ => exact absurd rfl h1
        | [j], _, h3 => exact absurd rfl (h3 j)
        | _ :: _ :: _, _, _ => simp
      · rintro (⟨gs, k, f, he, -⟩ | ⟨-, gs, k, w, hg, hv, hd, hw, rfl, rfl⟩)
        · exact absurd he (h2 gs)
        · exact ⟨k, by rw [hord, mem_dedup, mem_allKeys hks]; exact ⟨gs, w, hg, hv⟩, hd, hw, rfl, rfl⟩

/-- What is put on the line for the fields `fs` of an object at `p`. -/
def Added (cfg : FCfg) (p : List Str) (cs : List (List Str × Json)) (R : Str → Json → Prop) (es : List (Str × Json)) : Prop :=
  ∀ h v, (h, v) ∈ es ↔ (∃ q, (q, v) ∈ cs ∧ h = rn cfg none (pathText q)) ∨ (p = [] ∧ R h v)

theorem geo_flat {cfg : FCfg} (hw : cfg.wkt = false) (ref : SheetRef) (pn : Str) (pids fs : List (Str × Json)) (flat : Option FLine) (s : Start) (ev : List Ev)
    (hf : filteredOut cfg pn fs = false) (h : emitPrologue cfg ref pn false pids flat fs = .ok (s, ev)) : ∃ pids', s = some (pids', flat.getD [], false) := by
  unfold emitPrologue emitGeo at h
  simp only [hw, Bool.false_and, Bool.false_eq_true, if_false] at h
  obtain ⟨g, e1, e2, h1, h2, rfl⟩ := Out.bind_ok.1 h
  cases h1
  unfold emitStart at h2
  simp only [hf, Bool.false_eq_true, if_false] at h2
  obtain ⟨fl, e3, e4, h3, h4, rfl⟩ := Out.bind_ok.1 h2
  cases h4
  unfold emitStartLine at h3
  rw [if_neg (by simp)] at h3
  cases h3
  exact ⟨_, rfl⟩

/-- The arrays that rollup looks at. -/
def RollsIn (cfg : FCfg) (fs : List (Str × Json)) (h : Str) (v : Json) : Prop :=
  ∃ key l, (key, .arr l) ∈ fs ∧ keepOf cfg [] key = true ∧ joinArray l = none ∧ RollOf cfg key l h v

mutual
theorem fields_mem {cfg : FCfg} (hw : cfg.wkt = false) (hx : cfg.xml = false) (hr : cfg.rollup ≠ []) (hord : ∀ l x, x ∈ cfg.order l ↔ x ∈ l) (p : List Str)
    (pids fs : List (Str × Json)) (flat fl : FLine) (ev : List Ev)
    (he : emitFields cfg none (pnOf p) pids false fs flat = .ok (fl, ev)) :
    ∃ es, fl = Dict.update flat es ∧ Added cfg p (cells (keepOf cfg) p fs) (RollsIn cfg fs) es := by
  match fs with
  | [] =>
    rw [emitFields] at he
    cases he
    exact ⟨[], rfl, fun h v => by simp [cells, RollsIn]⟩
  | (k, v) :: r =>
    have rec_ := fun flat fl ev he => fields_mem hw hx hr hord p pids r flat fl ev he
    rw [emitFields] at he
    rw [if_neg (by simp)] at he
    obtain ⟨ev1, he', rfl⟩ := Out.after_ok.1 he
    clear he
    rename _ => he
    cases hd : dropped cfg (pnOf p) k with
    | true =>
      rw [if_pos hd] at he
      have hk : keepOf cfg p k = false := by simp [keepOf, hd]
      obtain ⟨es, h1, h2⟩ := rec_ _ _ _ he
      refine ⟨es, h1, fun h v' => ?_⟩
      rw [h2, cells, hk]
      simp only [Bool.false_eq_true, if_false, List.nil_append]
      refine or_congr_right (and_congr_right ?_)
      rintro rfl
      constructor
      · rintro ⟨key, l, hm, hr⟩
        exact ⟨key, l, by simp [hm], hr⟩
      · rintro ⟨key, l, hm, ha, hr⟩
        rcases List.mem_cons.1 hm with hm | hm
        · cases hm; rw [hk] at ha; cases ha
        · exact ⟨key, l, hm, ha, hr⟩
    | false =>
      rw [if_neg (by simp [hd])] at he
      have hk : keepOf cfg p k = true := by simp [keepOf, hd]
      obtain ⟨⟨pn', fl1⟩, e1, e2, h1, h2, rfl⟩ := Out.bind_ok.1 he
      obtain ⟨rfl, es1, rfl, h4⟩ := value_mem hw hx hr hord p pids k v flat pn' fl1 e1 h1
      obtain ⟨es2, rfl, h5⟩ := rec_ _ _ _ h2
      refine ⟨es1 ++ es2, (update_append _ _ _).symm, fun h v' => ?_⟩
      rw [List.mem_append, h4, h5, cells, hk]
      simp only [if_true, List.mem_append]
      constructor
      · rintro ((⟨q, hq, he⟩ | ⟨hp, l, hl, hj, hr⟩) | (⟨q, hq, he⟩ | ⟨hp, key, l, hm, hr⟩))
        · exact .inl ⟨q, .inl hq, he⟩
        · subst hp; exact .inr ⟨rfl, k, l, by simp [hl], hk, hj, hr⟩
        · exact .inl ⟨q, .inr hq, he⟩
        · exact .inr ⟨hp, key, l, by simp [hm], hr⟩
      · rintro (⟨q, hq | hq, he⟩ | ⟨hp, key, l, hm, ha, hj, hr⟩)
        · exact .inl (.inl ⟨q, hq, he⟩)
        · exact .inr (.inl ⟨q, hq, he⟩)
        · rcases List.mem_cons.1 hm with hm | hm
          · cases hm; exact .inl (.inr ⟨hp, l, rfl, hj, hr⟩)
          · exact .inr (.inr ⟨hp, key, l, hm, ha, hj, hr⟩)
termination_by structural fs
theorem value_mem {cfg : FCfg} (hw : cfg.wkt = false) (hx : cfg.xml = false) (hr : cfg.rollup ≠ []) (hord : ∀ l x, x ∈ cfg.order l ↔ x ∈ l) (p : List Str)
    (pids : List (Str × Json)) (k : Str) (v : Json) (flat : FLine) (pn' : Str) (fl : FLine)
    (ev : List Ev) (he : emitValue cfg none (pnOf p) pids k v flat = .ok ((pn', fl), ev)) :
    pn' = pnOf p ∧ ∃ es, fl = Dict.update flat es ∧ Added cfg p (valueCells (keepOf cfg) (p ++ [k]) v)
      (fun h w => ∃ l, v = .arr l ∧ joinArray l = none ∧ RollOf cfg k l h w) es := by
  have hput : ∀ v, (emitPut cfg none (pnOf p ++ k) v flat).bind (fun fl => .ok ((pnOf p, fl), [])) = .ok ((pn', fl), ev) →
      pn' = pnOf p ∧ fl = Dict.update flat [(rn cfg none (pathText (p ++ [k])), v)] := by
    intro v hv
    simp only [emitPut, Out.bind, Except.ok.injEq, Prod.mk.injEq] at hv
    obtain ⟨⟨rfl, rfl⟩, rfl⟩ := hv
    exact ⟨rfl, by rw [pathText_snoc]; rfl⟩
  match v with
  | .leaf a =>
    rw [emitValue] at he
    split at he
    · rw [if_neg (by simp [hx])] at he
      rw [valueCells]
      obtain ⟨h1, h2⟩ := hput _ he
      refine ⟨h1, _, h2, fun h v => ?_⟩
      simp only [List.mem_singleton, Prod.mk.injEq, reduceCtorEq, false_and, exists_false, and_false, or_false]
      constructor
      · rintro ⟨rfl, rfl⟩; exact ⟨_, ⟨rfl, rfl⟩, rfl⟩
      · rintro ⟨_, ⟨rfl, rfl⟩, rfl⟩; exact ⟨rfl, rfl⟩
    · cases he
  | .obj gs =>
    rw [emitValue] at he
    obtain ⟨s, e1, e2, h1, h2, rfl⟩ := Out.bind_ok.1 he
    have hpn : pnOf p ++ (k ++ s%"/") = pnOf (p ++ [k]) := by simp [pnOf]
    rw [hpn] at h1 h2
    obtain ⟨pids', rfl⟩ := geo_flat hw _ _ _ _ _ _ _ (filteredOut_deep cfg (by simp) gs) h1
    dsimp only at h2
    obtain ⟨fl1, e3, e4, h5, h6, rfl⟩ := Out.bind_ok.1 h2
    simp only [Except.ok.injEq, Prod.mk.injEq] at h6
    obtain ⟨⟨rfl, rfl⟩, rfl⟩ := h6
    obtain ⟨es, h7, h8⟩ := fields_mem hw hx hr hord (p ++ [k]) pids' gs _ fl1 e3 h5
    rw [valueCells]
    refine ⟨rfl, es, h7, fun h v => ?_⟩
    rw [h8]
    simp
  | .arr l =>
    rw [emitValue] at he
    rw [valueCells]
    cases hj : joinArray l with
    | some t =>
      simp only [hj] at he ⊢
      obtain ⟨h1, h2⟩ := hput _ he
      refine ⟨h1, _, h2, fun h v => ?_⟩
      have : ¬ ∃ l', Json.arr l = .arr l' ∧ joinArray l' = none ∧ RollOf cfg k l' h v := by
        rintro ⟨l', he, hj', -⟩
        cases he; rw [hj] at hj'; cases hj'
      simp only [this, and_false, or_false, List.mem_singleton, Prod.mk.injEq]
      constructor
      · rintro ⟨rfl, rfl⟩; exact ⟨_, ⟨rfl, rfl⟩, rfl⟩
      · rintro ⟨_, ⟨rfl, rfl⟩, rfl⟩; exact ⟨rfl, rfl⟩
    | none =>
      simp only [hj] at he ⊢
      obtain ⟨fl1, e1, e2, h1, h2, rfl⟩ := Out.bind_ok.1 he
      obtain ⟨e3, h3, rfl⟩ := Out.after_ok.1 h2
      obtain ⟨⟨⟩, e4, e5, h4, h5, rfl⟩ := Out.bind_ok.1 h3
      simp only [Except.ok.injEq, Prod.mk.injEq] at h5
      obtain ⟨⟨rfl, rfl⟩, rfl⟩ := h5
      refine ⟨rfl, ?_⟩
      by_cases hp : p = []
      · subst hp
        obtain ⟨es, h6, h7⟩ := rollup_mem hr hord k l hj flat _ e1 h1
        refine ⟨es, h6, fun h v => ?_⟩
        rw [h7]
        simp only [List.not_mem_nil, false_and, exists_false, false_or, true_and]
        constructor
        · exact fun hr => ⟨l, rfl, hj, hr⟩
        · rintro ⟨l', he, -, hr⟩
          cases he; exact hr
      · have hne : pnOf p ≠ [] := by
          cases p with
          | nil => exact absurd rfl hp
          | cons x r => simp [pnOf]
        rw [emitRollup_nested cfg none hne] at h1
        cases h1
        exact ⟨[], rfl, fun h v => by simp [hp]⟩
termination_by structural v
end

theorem rootList_mem {cfg : FCfg} (hw : cfg.wkt = false) (hx : cfg.xml = false) (hf : cfg.filter = none) (hr : cfg.rollup ≠ []) (hord : ∀ l x, x ∈ cfg.order l ↔ x ∈ l)
    (n : Nat) (l : List Json) (ev : List Ev) (he : emitRootList cfg n l = .ok ((), ev)) :
    All₂ (fun fs line => ∃ es, line = Dict.update [] es ∧ Added cfg [] (cells (keepOf cfg) [] fs) (RollsIn cfg fs) es) (objects l) (evLines none ev) := by
  induction l generalizing n ev with
  | nil => rw [emitRootList] at he; cases he; exact .nil
  | cons j r ih =>
    rw [emitRootList] at he
    obtain ⟨⟨⟩, e1, e2, h1, h2, rfl⟩ := Out.bind_ok.1 he
    have h3 := ih _ _ h2
    unfold emitRootItem at h1
    cases j with
    | leaf a =>
      simp only [Except.ok.injEq, Prod.mk.injEq, true_and] at h1
      have hn : ∀ r l, Ev.line r l ∉ e1 := by rw [← h1]; intro r l; split <;> simp
      simpa [evLines_none hn, objects] using h3
    | arr a =>
      simp only [Except.ok.injEq, Prod.mk.injEq, true_and] at h1
      have hn : ∀ r l, Ev.line r l ∉ e1 := by rw [← h1]; intro r l; simp
      simpa [evLines_none hn, objects] using h3
    | obj fs =>
      obtain ⟨s, e3, e4, h5, h6, rfl⟩ := Out.bind_ok.1 h1
      have hfo : filteredOut cfg [] fs = false := by simp [filteredOut, hf]
      obtain ⟨-, h8⟩ := prologue_noGeo hw _ _ _ _ _ _ hfo _ _ h5
      obtain ⟨pids', rfl⟩ := geo_flat hw _ _ _ _ _ _ _ hfo h5
      dsimp only at h6
      obtain ⟨fl1, e5, e6, h9, h10, rfl⟩ := Out.bind_ok.1 h6
      simp only [Except.ok.injEq, Prod.mk.injEq, true_and] at h10
      subst h10
      have h12 := (emitFields_counts hw hx none [] [([], fs)] pids' fs _ fl1 e5 h9).main
      have h13 := fields_mem hw hx hr hord [] pids' fs _ fl1 e5 h9
      have hl : evLines none [Ev.line none fl1] = [fl1] := rfl
      simp only [evLines_append, evLines_none h8, h12, hl, objects, List.nil_append, List.append_nil, List.singleton_append]
      exact .cons h13 h3

theorem titlesOf_some {cfg : FCfg} {sp : Parsed} (h : cfg.schema = some sp) : titlesOf cfg none = sp.main.titles := by
  simp only [titlesOf, initState, h, FState.sheet, clearColumns]
  split <;> rfl

theorem rn_main {cfg : FCfg} {sp : Parsed} (h : cfg.schema = some sp) (ht : cfg.useTitles = true) (k : Str) : rn cfg none k = headingOn sp.main k := by
  simp [rn, ht, titlesOf_some h, headingOn]

/-- C30: with rollup and titles, every value on the main-sheet line of a root object is a value of the object (its own, or rolled up) for that heading, and every
heading for which the object has a value is on the line, with this value, if the object has no other for the same heading. -/
theorem C30_titles (cfg : FCfg) (sp : Parsed) (hsp : cfg.schema = some sp) (ht : cfg.useTitles = true) (hw : cfg.wkt = false) (hx : cfg.xml = false)
    (hr : cfg.rollup ≠ []) (hf : cfg.filter = none) (hp : cfg.preserve = []) (hs : FromSchemaParser cfg)
    (hord : ∀ l x, x ∈ cfg.order l ↔ x ∈ l) (root : List Json) (st : FState) (h : flatten cfg root = .ok st) :
    All₂ (fun fs line => (∀ heading v, Dict.get line heading = some v → TitledValue cfg sp fs heading v) ∧
        ∀ heading v, TitledValue cfg sp fs heading v → (Dict.get line heading).isSome ∧
          ((∀ w, TitledValue cfg sp fs heading w → w = v) → Dict.get line heading = some v))
      (objects root) st.main.lines := by
  obtain ⟨ev, he, rfl⟩ := flatten_ok.1 h
  rw [(result_lines hs ev _ rfl).1]
  refine rollup_imp_mem (rootList_mem hw hx hf hr hord 0 root ev he) ?_
  rintro fs - line - ⟨es, rfl, hes⟩
  have hpt : ∀ key k, pathText [key, s%"0", k] = key ++ (s%"/0/" ++ k) := by intro key k; simp [pathText, Py.join]
  have hmem : ∀ heading v, (heading, v) ∈ es ↔ TitledValue cfg sp fs heading v := by
    intro heading v
    rw [hes]
    constructor
    · rintro (⟨q, hq, rfl⟩ | ⟨-, key, l, hm, -, hj, ho⟩)
      · rw [mem_cells, keepOf_nil hp] at hq
        rw [rn_main hsp ht]
        exact .cell hq
      · rcases ho with ⟨gs, k, f, rfl, hv, -, hfield, rfl⟩ | ⟨hl, gs, k, w, hg, hv, -, hwarn, rfl, rfl⟩
        · refine .one hm hv ?_
          unfold rollupField at hfield
          rw [hsp] at hfield
          simp only [ht, if_true] at hfield
          rw [rn_main hsp ht]
          rw [← hpt] at hfield
          split at hfield
          · next hh =>
            cases hfield
            obtain ⟨t, ht'⟩ := Option.isSome_iff_exists.1 hh
            rw [headingOn, ht']
            exact .main ht'
          · next hh =>
            have hnone : Dict.get sp.main.titles (pathText [key, s%"0", k]) = none := by
              cases hg : Dict.get sp.main.titles (pathText [key, s%"0", k]) with
              | none => rfl
              | some t => exact absurd (Option.isSome_iff_exists.2 ⟨t, hg⟩) hh
            split at hfield
            · next sh hsh =>
              split at hfield
              · next hc =>
                cases hfield
                unfold schemaSubSheet at hsh
                split at hsh
                · next name hname =>
                  exact .sub hnone (by simpa using hc) hname hsh
                · cases hsh
              · cases hfield
            · cases hfield
        · rw [rn_main hsp ht, ← hpt]
          rw [rolls_iff] at hwarn
          exact .many hm hl hg hv hwarn
    · intro hv
      cases hv with
      | cell hc =>
        refine .inl ⟨_, ?_, (rn_main hsp ht _).symm⟩
        rw [mem_cells, keepOf_nil hp]; exact hc
      | @one key gs k _ _ hm hv hto =>
        refine .inr ⟨rfl, key, _, hm, by rw [keepOf_nil hp]; rfl, joinArray_obj (List.mem_singleton.2 rfl), .inl ?_⟩
        cases hto with
        | main hg =>
          refine ⟨gs, k, pathText [key, s%"0", k], rfl, hv, by simp [rollupDropped, hp], ?_, ?_⟩
          · unfold rollupField
            rw [hsp, ← hpt]
            simp only [ht, if_true]
            exact if_pos (Option.isSome_iff_exists.2 ⟨_, hg⟩)
          · rw [rn_main hsp ht, headingOn, hg]; rfl
        | @sub name sh hg hroll hname hsh =>
          refine ⟨gs, k, headingOn sh (pathText [key, s%"0", k]), rfl, hv, by simp [rollupDropped, hp], ?_, ?_⟩
          · unfold rollupField
            rw [hsp, ← hpt]
            simp only [ht, if_true]
            rw [if_neg (by
              intro hh
              obtain ⟨t, ht'⟩ := Option.isSome_iff_exists.1 hh
              rw [hg] at ht'; cases ht')]
            simp only [schemaSubSheet, hname, hsh, List.nil_append]
            rw [if_pos (by simpa using hroll)]
            rfl
          · rw [rn_main hsp ht]
      | @many key l gs k w hm hl hg hv hro =>
        refine .inr ⟨rfl, key, l, hm, by rw [keepOf_nil hp]; rfl, joinArray_obj hg, .inr ⟨hl, gs, k, w, hg, hv, by simp [rollupDropped, hp], ?_, rfl, ?_⟩⟩
        · rw [rolls_iff]; exact hro
        · rw [rn_main hsp ht, hpt]
  refine ⟨fun heading v hg => ?_, fun heading v hv => ⟨?_, fun hu => ?_⟩⟩
  · rw [← hmem]
    rcases get_update_mem hg with hm | ⟨-, hm⟩
    · exact hm
    · simp [Dict.get] at hm
  · cases hg : Dict.get (Dict.update [] es) heading with
    | some w => rfl
    | none =>
      rw [Dict.get_none_iff] at hg
      exact absurd (Dict.mem_keys_update.2 (.inr (Dict.mem_keys_of_mem ((hmem _ _).2 hv)))) hg
  · exact get_update_of_unique (fun w hw => hu w ((hmem _ _).1 hw)) ((hmem _ _).2 hv)

/-! ### A concrete case -/

/-- Rollup of the dishes, with titles. -/
def dishesUp : FCfg := { schema := some exampleParsed, useTitles := true, rollup := [s%"dishes"] }

/-- Two objects, the first with one dish, the second with two. -/
def dishesDoc : List Json :=
  [.obj [(s%"id", .leaf (.str s%"1")), (s%"dishes", .arr [.obj [(s%"price", .leaf (.int 3)), (s%"more", .leaf (.int 4))]])],
   .obj [(s%"id", .leaf (.str s%"2")), (s%"dishes", .arr [.obj [(s%"price", .leaf (.int 3))], .obj []])]]

set_option synthInstance.maxSize 4000 in
/-- The title of a value of the only dish is that on the sheet of the dishes; for several dishes the heading with the warning is the path. -/
theorem dishesUp_lines : (flatten dishesUp dishesDoc).map (fun st => st.main.lines) =
    .ok [[(s%"Identifier", .leaf (.str s%"1")), (s%"Dishes:Price", .leaf (.int 3)), (s%"dishes/0/more", .leaf (.int 4))],
      [(s%"Identifier", .leaf (.str s%"2")),
        (s%"dishes/0/price", .leaf (.str s%"WARNING: More than one value supplied, consult the relevant sub-sheet for the data."))]] := by
  decide +kernel

/-- The theorem applies to this run. -/
example : ∃ st, flatten dishesUp dishesDoc = .ok st ∧
    All₂ (fun fs line => (∀ heading v, Dict.get line heading = some v → TitledValue dishesUp exampleParsed fs heading v) ∧
        ∀ heading v, TitledValue dishesUp exampleParsed fs heading v → (Dict.get line heading).isSome ∧
          ((∀ w, TitledValue dishesUp exampleParsed fs heading w → w = v) → Dict.get line heading = some v))
      (objects dishesDoc) st.main.lines := by
  cases h : flatten dishesUp dishesDoc with
  | error e =>
    have := dishesUp_lines
    rw [h] at this
    cases this
  | ok st =>
    refine ⟨st, rfl, C30_titles dishesUp exampleParsed rfl rfl rfl rfl (by decide) rfl rfl ?_ (fun _ _ => Iff.rfl) dishesDoc st h⟩
    intro sp hsp
    cases hsp
    exact ⟨_, _, exampleParsed_eq⟩

/-- The value of the dish: the heading is the title on the sheet of the dishes, as there is none on the main sheet. -/
example : TitledValue dishesUp exampleParsed [(s%"dishes", .arr [.obj [(s%"price", .leaf (.int 3))]])] s%"Dishes:Price" (.leaf (.int 3)) :=
  .one (List.mem_singleton.2 rfl) (List.mem_singleton.2 rfl)
    (show RollsTo dishesUp exampleParsed s%"dishes" s%"price" s%"Dishes:Price" from by
      have hg : (Dict.get exampleParsed.subs s%"Dishes").isSome := by decide +kernel
      have e : headingOn exampleParsed.main (headingOn ((Dict.get exampleParsed.subs s%"Dishes").getD {}) s%"dishes/0/price") = s%"Dishes:Price" := by
        decide +kernel
      obtain ⟨sh, hsh⟩ := Option.isSome_iff_exists.1 hg
      rw [hsh] at e
      exact e ▸ .sub (name := s%"Dishes") (by decide +kernel) (by decide) (by decide +kernel) hsh)

end Verif
