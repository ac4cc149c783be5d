import Verif.Props.Main
import Verif.Props.Output
/-! C53: the source maps that `unflatten` writes, and the document that it writes. -/
namespace Verif
open Spec Api

/-- A record further down. -/
def Spec.Recorded.below (p : List PStep) (r : Recorded) : Recorded := { r with path := p ++ r.path }

theorem dropLast_below {p : List PStep} {r : Recorded} (h : r.path ≠ []) : (r.below p).path.dropLast = p ++ r.path.dropLast := by
  simp only [Recorded.below]
  exact List.dropLast_append_of_ne_nil h

/-- What the source maps of one pass say. -/
theorem maps_records {cfg : UnCfg} {root : Option Str} {wc wh : Bool} {sheets : List SheetIn} {out : List Json}
    {cm : Option (List (Str × MapEntry))} {hm : Option (List (Str × List (Str × Str)))} {w : List Warn}
    (h : fancyUnflatten cfg root wc wh sheets = .ok (out, cm, hm, w)) :
    ∃ rs : List Recorded, RecordsOf (.arr out) [] rs ∧
      (∀ r ∈ rs, ∃ i k q, r.path = .idx i :: .key k :: q ∧ NoSlash r.path) ∧
      (wc = true → CellMapOf (cm.getD []) (rs.map (·.below (rootSteps root)))) ∧
      (wh = true → (∀ r, root = some r → Py.int? r = none) → HeadingMapOf (hm.getD []) (rs.map (·.below (rootSteps root)))) := by
  obtain ⟨tree, ht, rfl⟩ := fancy_inv h
  obtain ⟨cells, _, _, _, h4⟩ := fancy_ok ht root
  have hall := h4 true true
  simp only [Bool.not_true, Bool.false_and, Bool.false_eq_true, if_false, if_true] at hall
  obtain ⟨rs, a, b, c, d, e, f, g, k⟩ := maps_all hall
  have hne : ∀ r ∈ rs, r.path ≠ [] := by
    intro r hr h0; obtain ⟨i, k, q, e1, _⟩ := g r hr; rw [h0] at e1; cases e1
  refine ⟨rs, ⟨by simpa [Exhaustive, leaves] using a, b⟩, g, ?_, ?_⟩
  · intro hwc
    subst hwc
    rw [h4] at h
    have hcm : cm = some ((cells.map (entryOf (rootSteps root))).map (fun e => (pathStr e.1, .cells e.2)) ++
                  (rowMap (cells.map (entryOf (rootSteps root)))).map (fun e => (e.1, .rows e.2))) := by
      simp only [Bool.not_true, Bool.false_and, Bool.false_eq_true, if_false, if_true, Except.ok.injEq, Prod.mk.injEq] at h
      exact h.2.1.symm
    subst hcm
    refine ⟨?_, d, ?_, ?_⟩
    · rw [Option.getD_some, c, List.map_map]; rfl
    · intro k
      rw [Option.getD_some, e k]
      constructor
      · rintro ⟨r, hr, e1⟩
        exact ⟨_, List.mem_map_of_mem hr, by rw [dropLast_below (hne r hr)]; exact e1⟩
      · rintro ⟨r', hr', e1⟩
        obtain ⟨r, hr, rfl⟩ := List.mem_map.1 hr'
        exact ⟨r, hr, by rw [dropLast_below (hne r hr)] at e1; exact e1⟩
    · intro k l hl
      obtain ⟨f1, f2⟩ := f k l hl
      refine ⟨f1, fun sheet row => ?_⟩
      rw [f2]
      constructor
      · rintro ⟨r, hr, e1, e2⟩
        exact ⟨_, List.mem_map_of_mem hr, by rw [dropLast_below (hne r hr)]; exact e1, e2⟩
      · rintro ⟨r', hr', e1, e2⟩
        obtain ⟨r, hr, rfl⟩ := List.mem_map.1 hr'
        exact ⟨r, hr, by rw [dropLast_below (hne r hr)] at e1; exact e1, e2⟩
  · intro hwh hroot
    subst hwh
    rw [h4] at h
    obtain ⟨hs, e1, k1, k2, k3⟩ := k rfl hroot
    have hhm : hm = some hs := by
      simp only [Bool.not_true, Bool.and_false, Bool.false_eq_true, if_false, if_true, Except.ok.injEq, Prod.mk.injEq] at h
      rw [← e1]; exact h.2.2.1.symm
    subst hhm
    refine ⟨k1, ?_, ?_⟩
    · intro k
      rw [Option.getD_some, k2 k]
      constructor
      · rintro ⟨r, hr, e1⟩; exact ⟨_, List.mem_map_of_mem hr, e1⟩
      · rintro ⟨r', hr', e1⟩; obtain ⟨r, hr, rfl⟩ := List.mem_map.1 hr'; exact ⟨r, hr, e1⟩
    · intro k l hl
      obtain ⟨f1, f2⟩ := k3 k l hl
      refine ⟨f1, fun sheet row => ?_⟩
      rw [f2]
      constructor
      · rintro ⟨r, hr, e1, e2⟩; exact ⟨_, List.mem_map_of_mem hr, e1, e2⟩
      · rintro ⟨r', hr', e1, e2⟩; obtain ⟨r, hr, rfl⟩ := List.mem_map.1 hr'; exact ⟨r, hr, e1, e2⟩

/-! #### Scalars of objects -/

/-- The scalars of an object with one field set. -/
theorem leaves_set {b : List (Str × Json)} {root : Str} {v : Json} (h : (Dict.keys b).Nodup) :
    (leavesInFields (Dict.set b root v)).Perm
      (leavesInFields (b.filter (fun e => e.1 ≠ root)) ++ (leaves v).map (under (.key root))) := by
  induction b with
  | nil => simp [Dict.set, leavesInFields]
  | cons e r ih =>
    obtain ⟨k, u⟩ := e
    simp only [Dict.keys, List.map_cons, List.nodup_cons] at h
    simp only [Dict.set]
    by_cases hk : k = root
    · subst hk
      have : r.filter (fun e => e.1 ≠ k) = r := by
        rw [List.filter_eq_self]
        intro e he
        simp only [decide_eq_true_eq]
        intro h'
        exact h.1 (h' ▸ List.mem_map_of_mem he)
      simp only [if_true, leavesInFields, ne_eq, not_true_eq_false, decide_false, Bool.false_eq_true, not_false_eq_true, List.filter_cons_of_neg]
      simp only [ne_eq] at this
      rw [this]
      exact List.perm_append_comm
    · rw [if_neg hk, List.filter_cons_of_pos (by simpa using hk)]
      simp only [leavesInFields, List.append_assoc]
      exact (ih h.2).append_left _

theorem flatMap_below (p : List PStep) (rs : List Recorded) :
    (rs.map (·.below p)).flatMap (fun r => (leaves r.value.toJson).map (fun e => (r.path ++ e.1, e.2))) =
      (rs.flatMap (fun r => (leaves r.value.toJson).map (fun e => (r.path ++ e.1, e.2)))).map (fun e => (p ++ e.1, e.2)) := by
  rw [List.flatMap_map, List.map_flatMap]
  simp [Recorded.below, List.append_assoc, Function.comp_def]

/-- The records of a list put into an object. -/
theorem records_set {b : List (Str × Json)} {root : Str} {items : List Json} {rs : List Recorded} (hb : (Dict.keys b).Nodup)
    (h : RecordsOf (.arr items) [] rs) :
    RecordsOf (.obj (Dict.set b root (.arr items))) (leavesInFields (b.filter (fun e => e.1 ≠ root))) (rs.map (·.below [.key root])) := by
  refine ⟨?_, ?_⟩
  · rw [flatMap_below]
    have := h.all
    simp only [List.nil_append] at this
    refine (leaves_set hb).trans (List.Perm.append_left _ ?_)
    exact this.map _
  · intro r' hr'
    obtain ⟨r, hr, rfl⟩ := List.mem_map.1 hr'
    refine ⟨?_, (h.value r hr).2⟩
    simp only [Recorded.below, List.singleton_append, valueAt, Dict.get_set, if_true]
    exact (h.value r hr).1

/-- C53, the root is a list.  The source maps are about exactly the values of the list that is written. -/
theorem C53_list (o : UnOpts) (env : Env) (out : UnOut) (hlist : o.rootIsList = true) (hx : o.xml = false)
    (h : runUnflatten o env = .ok out) :
    ∃ doc rs, out.document = .json doc ∧ RecordsOf doc [] rs ∧
      (o.cellSourceMap = true → CellMapOf out.cellMap rs) ∧ (o.headingSourceMap = true → HeadingMapOf out.headingMap rs) := by
  rw [run_full (by simp [hlist])] at h
  obtain ⟨_, _, s, m, doc, d, h3, h4, h5, h6, rfl⟩ := h
  rw [stage1_plain (Or.inr hlist)] at h3
  injection h3 with h3; subst h3
  rw [addResult_list hlist] at h5
  injection h5 with h5; subst h5
  rw [render_json hx] at h6
  injection h6 with h6; subst h6
  obtain ⟨schema, _, hp⟩ := mainPass_inv h4
  obtain ⟨s1, s2, cm, hm, _, _, p3, p4, p5, _⟩ := pass_inv hp
  simp only [hlist, if_true] at p3
  obtain ⟨rs, a, g, c, k⟩ := maps_records p3
  have hid : rs.map (·.below (rootSteps none)) = rs := by
    rw [List.map_congr_left (g := id)]; · simp
    intro r _; simp [Recorded.below, rootSteps]
  refine ⟨_, rs, rfl, a, fun hcm => ?_, fun hhm => ?_⟩
  · have c := c hcm
    rw [hid, ← p4] at c
    have : Dict.update [] m.cells = m.cells := dictOf_nodup _ c.once
    rw [this]; exact c
  · have k := k hhm (by simp)
    rw [hid, ← p5] at k
    have : Dict.update [] m.headings = m.headings := dictOf_nodup _ k.once
    rw [this]; exact k

/-- C53, without a metatab.  The source maps are about exactly the values of the document that is written, except those of the base JSON. -/
theorem C53_plain (o : UnOpts) (env : Env) (out : UnOut) (b : List (Str × Json)) (root : Str) (hM : o.metatabName.getD [] = [])
    (hlist : o.rootIsList = false) (hfull : o.metatabOnly = false) (hx : o.xml = false) (hroot : o.rootListPath = some root)
    (hint : Py.int? root = none) (hb : BaseFields o env b) (hnd : (Dict.keys b).Nodup)
    (h : runUnflatten o env = .ok out) :
    ∃ doc rs, out.document = .json doc ∧ RecordsOf doc (leavesInFields (b.filter (fun e => e.1 ≠ root))) rs ∧
      (o.cellSourceMap = true → CellMapOf out.cellMap rs) ∧ (o.headingSourceMap = true → HeadingMapOf out.headingMap rs) := by
  have hrp : ∀ c, rootPathOf o c = root := by intro c; unfold rootPathOf; rw [hroot]; rfl
  rw [run_full (by simp [hfull])] at h
  obtain ⟨_, _, s, m, doc, d, h3, h4, h5, h6, rfl⟩ := h
  rw [stage1_plain (Or.inl (given_none.2 hM))] at h3
  injection h3 with h3; subst h3
  simp only at h5
  rw [baseDocument_fields hlist hb, addResult_obj hlist, hrp] at h5
  injection h5 with h5; subst h5
  rw [render_json hx] at h6
  injection h6 with h6; subst h6
  obtain ⟨schema, _, hp⟩ := mainPass_inv h4
  obtain ⟨s1, s2, cm, hm, _, _, p3, p4, p5, _⟩ := pass_inv hp
  simp only [hlist, Bool.false_eq_true, if_false, hrp] at p3
  obtain ⟨rs, a, g, c, k⟩ := maps_records p3
  refine ⟨_, _, rfl, records_set hnd a, fun hcm => ?_, fun hhm => ?_⟩
  · have c := c hcm
    rw [← p4] at c
    have : Dict.update [] m.cells = m.cells := dictOf_nodup _ c.once
    rw [this]; exact c
  · have k := k hhm (by intro r hr; injection hr with hr; rw [← hr]; exact hint)
    rw [← p5] at k
    have : Dict.update [] m.headings = m.headings := dictOf_nodup _ k.once
    rw [this]; exact k

/-! #### The metatab -/

theorem nodup_map_on {α β : Type} {f : α → β} : ∀ {l : List α}, l.Nodup → (∀ a ∈ l, ∀ b ∈ l, f a = f b → a = b) → (l.map f).Nodup
  | [], _, _ => by simp
  | a :: r, h, hf => by
    rw [List.nodup_cons] at h
    rw [List.map_cons, List.nodup_cons]
    refine ⟨?_, nodup_map_on h.2 (fun x hx y hy => hf x (by simp [hx]) y (by simp [hy]))⟩
    intro hm
    obtain ⟨b, hb, e⟩ := List.mem_map.1 hm
    have := hf b (by simp [hb]) a (by simp) e
    exact h.1 (this ▸ hb)

theorem cellEntries_mapKeys (f : Str → Str) (m : List (Str × MapEntry)) :
    cellEntries (m.map (fun e => (f e.1, e.2))) = (cellEntries m).map (fun e => (f e.1, e.2)) := by
  induction m with
  | nil => rfl
  | cons e r ih =>
    obtain ⟨k, x⟩ := e
    simp only [cellEntries] at ih
    cases x <;> simp [cellEntries, cellEntry, List.filterMap_cons, ih]

theorem rowEntries_mapKeys (f : Str → Str) (m : List (Str × MapEntry)) :
    rowEntries (m.map (fun e => (f e.1, e.2))) = (rowEntries m).map (fun e => (f e.1, e.2)) := by
  induction m with
  | nil => rfl
  | cons e r ih =>
    obtain ⟨k, x⟩ := e
    simp only [rowEntries] at ih
    cases x <;> simp [rowEntries, rowEntry, List.filterMap_cons, ih]

theorem mem_mapCells {m : List (Str × MapEntry)} {k : Str} {l : List Loc} : (k, l) ∈ cellEntries m ↔ (k, .cells l) ∈ m := by
  unfold cellEntries
  rw [List.mem_filterMap]
  constructor
  · rintro ⟨⟨k', x⟩, h1, h2⟩
    cases x with
    | cells l' => simp only [cellEntry, Option.some.injEq, Prod.mk.injEq] at h2; obtain ⟨rfl, rfl⟩ := h2; exact h1
    | rows l' => simp [cellEntry] at h2
  · intro h; exact ⟨_, h, rfl⟩

theorem mem_rowEntries {m : List (Str × MapEntry)} {k : Str} {l : List (Str × Nat)} : (k, l) ∈ rowEntries m ↔ (k, .rows l) ∈ m := by
  unfold rowEntries
  rw [List.mem_filterMap]
  constructor
  · rintro ⟨⟨k', x⟩, h1, h2⟩
    cases x with
    | rows l' => simp only [rowEntry, Option.some.injEq, Prod.mk.injEq] at h2; obtain ⟨rfl, rfl⟩ := h2; exact h1
    | cells l' => simp [rowEntry] at h2
  · intro h; exact ⟨_, h, rfl⟩

/-- The keys of a cell source map are texts of paths of records and of the objects that contain them. -/
theorem Spec.CellMapOf.key {cm : List (Str × MapEntry)} {rs : List Recorded} (h : CellMapOf cm rs) {k : Str} (hk : k ∈ Dict.keys cm) :
    ∃ r ∈ rs, k = stepsText r.path ∨ k = stepsText r.path.dropLast := by
  obtain ⟨⟨k', x⟩, hx, rfl⟩ := List.mem_map.1 hk
  cases x with
  | cells l =>
    have := mem_mapCells.2 hx
    rw [h.cells] at this
    obtain ⟨r, hr, e⟩ := List.mem_map.1 this
    simp only [Prod.mk.injEq] at e
    exact ⟨r, hr, Or.inl e.1.symm⟩
  | rows l =>
    obtain ⟨r, hr, e⟩ := (h.rows k').1 ⟨l, mem_rowEntries.2 hx⟩
    exact ⟨r, hr, Or.inr e.symm⟩

/-- Other texts for the paths. -/
theorem Spec.CellMapOf.mapKeys {cm : List (Str × MapEntry)} {rs : List Recorded} {pre : List PStep} {f : Str → Str}
    (h : CellMapOf cm (rs.map (·.below pre))) (hne : ∀ r ∈ rs, r.path ≠ [])
    (hf : ∀ r ∈ rs, f (stepsText (pre ++ r.path)) = stepsText r.path ∧ f (stepsText (pre ++ r.path.dropLast)) = stepsText r.path.dropLast)
    (hinj : ∀ a ∈ Dict.keys cm, ∀ b ∈ Dict.keys cm, f a = f b → a = b) :
    CellMapOf (cm.map (fun e => (f e.1, e.2))) rs := by
  refine ⟨?_, ?_, ?_, ?_⟩
  · rw [cellEntries_mapKeys, h.cells, List.map_map, List.map_map]
    apply List.map_congr_left
    intro r hr
    simp only [Function.comp, Recorded.below, (hf r hr).1]
  · have := nodup_map_on h.once hinj
    rwa [List.map_map] at this ⊢
  · intro k
    rw [rowEntries_mapKeys]
    constructor
    · rintro ⟨l, hl⟩
      obtain ⟨⟨k0, l0⟩, h1, h2⟩ := List.mem_map.1 hl
      simp only [Prod.mk.injEq] at h2
      obtain ⟨rfl, rfl⟩ := h2
      obtain ⟨r', hr', e⟩ := (h.rows k0).1 ⟨_, h1⟩
      obtain ⟨r, hr, rfl⟩ := List.mem_map.1 hr'
      rw [dropLast_below (hne r hr)] at e
      exact ⟨r, hr, by rw [← e, (hf r hr).2]⟩
    · rintro ⟨r, hr, rfl⟩
      obtain ⟨l, hl⟩ := (h.rows (stepsText (pre ++ r.path.dropLast))).2 ⟨_, List.mem_map_of_mem hr, by rw [dropLast_below (hne r hr)]⟩
      exact ⟨l, List.mem_map.2 ⟨_, hl, by simp only [(hf r hr).2]⟩⟩
  · intro k l hl
    rw [rowEntries_mapKeys] at hl
    obtain ⟨⟨k0, l0⟩, h1, h2⟩ := List.mem_map.1 hl
    simp only [Prod.mk.injEq] at h2
    obtain ⟨rfl, rfl⟩ := h2
    obtain ⟨g1, g2⟩ := h.rowsOf k0 l0 h1
    refine ⟨g1, fun sheet row => ?_⟩
    rw [g2]
    constructor
    · rintro ⟨r', hr', e, e2⟩
      obtain ⟨r, hr, rfl⟩ := List.mem_map.1 hr'
      rw [dropLast_below (hne r hr)] at e
      exact ⟨r, hr, by rw [← e, (hf r hr).2], e2⟩
    · rintro ⟨r, hr, e, e2⟩
      refine ⟨_, List.mem_map_of_mem hr, ?_, e2⟩
      rw [dropLast_below (hne r hr)]
      apply hinj
      · obtain ⟨l, hl⟩ := (h.rows (stepsText (pre ++ r.path.dropLast))).2 ⟨_, List.mem_map_of_mem hr, by rw [dropLast_below (hne r hr)]⟩
        exact List.mem_map.2 ⟨_, mem_rowEntries.1 hl, rfl⟩
      · exact List.mem_map.2 ⟨_, mem_rowEntries.1 h1, rfl⟩
      · rw [(hf r hr).2, e]

theorem Spec.HeadingMapOf.mapKeys {hs : List (Str × List (Str × Str))} {rs : List Recorded} {pre : List PStep} {f : Str → Str}
    (h : HeadingMapOf hs (rs.map (·.below pre))) (hf : ∀ r ∈ rs, f (keysText (pre ++ r.path)) = keysText r.path)
    (hinj : ∀ a ∈ Dict.keys hs, ∀ b ∈ Dict.keys hs, f a = f b → a = b) :
    HeadingMapOf (hs.map (fun e => (f e.1, e.2))) rs := by
  refine ⟨?_, ?_, ?_⟩
  · have := nodup_map_on h.once hinj
    rwa [List.map_map] at this ⊢
  · intro k
    constructor
    · rintro ⟨l, hl⟩
      obtain ⟨⟨k0, l0⟩, h1, h2⟩ := List.mem_map.1 hl
      simp only [Prod.mk.injEq] at h2
      obtain ⟨rfl, rfl⟩ := h2
      obtain ⟨r', hr', e⟩ := (h.keys k0).1 ⟨_, h1⟩
      obtain ⟨r, hr, rfl⟩ := List.mem_map.1 hr'
      exact ⟨r, hr, by rw [← e]; exact (hf r hr).symm⟩
    · rintro ⟨r, hr, rfl⟩
      obtain ⟨l, hl⟩ := (h.keys (keysText (pre ++ r.path))).2 ⟨_, List.mem_map_of_mem hr, rfl⟩
      exact ⟨l, List.mem_map.2 ⟨_, hl, by simp only [hf r hr]⟩⟩
  · intro k l hl
    obtain ⟨⟨k0, l0⟩, h1, h2⟩ := List.mem_map.1 hl
    simp only [Prod.mk.injEq] at h2
    obtain ⟨rfl, rfl⟩ := h2
    obtain ⟨g1, g2⟩ := h.headings k0 l0 h1
    refine ⟨g1, fun sheet row => ?_⟩
    rw [g2]
    constructor
    · rintro ⟨r', hr', e, e2⟩
      obtain ⟨r, hr, rfl⟩ := List.mem_map.1 hr'
      exact ⟨r, hr, by rw [← e]; exact (hf r hr).symm, e2⟩
    · rintro ⟨r, hr, e, e2⟩
      refine ⟨_, List.mem_map_of_mem hr, ?_, e2⟩
      apply hinj
      · obtain ⟨l, hl⟩ := (h.keys (keysText (pre ++ r.path))).2 ⟨_, List.mem_map_of_mem hr, rfl⟩
        exact List.mem_map.2 ⟨_, hl, rfl⟩
      · exact List.mem_map.2 ⟨_, h1, rfl⟩
      · show f (keysText (pre ++ r.path)) = _
        rw [hf r hr, e]

/-- Two cell source maps without common keys put together. -/
theorem Spec.CellMapOf.append {m1 m2 : List (Str × MapEntry)} {r1 r2 : List Recorded} (h1 : CellMapOf m1 r1) (h2 : CellMapOf m2 r2)
    (hd : ∀ k ∈ Dict.keys m1, k ∉ Dict.keys m2) : CellMapOf (m1 ++ m2) (r1 ++ r2) := by
  have hk1 : ∀ r ∈ r1, stepsText r.path.dropLast ∈ Dict.keys m1 := by
    intro r hr
    obtain ⟨l, hl⟩ := (h1.rows _).2 ⟨r, hr, rfl⟩
    exact List.mem_map.2 ⟨_, mem_rowEntries.1 hl, rfl⟩
  have hk2 : ∀ r ∈ r2, stepsText r.path.dropLast ∈ Dict.keys m2 := by
    intro r hr
    obtain ⟨l, hl⟩ := (h2.rows _).2 ⟨r, hr, rfl⟩
    exact List.mem_map.2 ⟨_, mem_rowEntries.1 hl, rfl⟩
  refine ⟨?_, ?_, ?_, ?_⟩
  · have := h1.cells
    have := h2.cells
    simp only [cellEntries, List.filterMap_append, List.map_append] at *
    simp [*]
  · rw [List.map_append, List.nodup_append]
    exact ⟨h1.once, h2.once, fun a ha b hb e => hd a ha (e ▸ hb)⟩
  · intro k
    have a := h1.rows k
    have b := h2.rows k
    simp only [mem_rowEntries, List.mem_append] at *
    constructor
    · rintro ⟨l, hl | hl⟩
      · obtain ⟨r, hr, e⟩ := a.1 ⟨l, hl⟩; exact ⟨r, Or.inl hr, e⟩
      · obtain ⟨r, hr, e⟩ := b.1 ⟨l, hl⟩; exact ⟨r, Or.inr hr, e⟩
    · rintro ⟨r, hr | hr, e⟩
      · obtain ⟨l, hl⟩ := a.2 ⟨r, hr, e⟩; exact ⟨l, Or.inl hl⟩
      · obtain ⟨l, hl⟩ := b.2 ⟨r, hr, e⟩; exact ⟨l, Or.inr hl⟩
  · intro k l hl
    rw [mem_rowEntries, List.mem_append] at hl
    rcases hl with hl | hl
    · have hkm : k ∈ Dict.keys m1 := List.mem_map.2 ⟨_, hl, rfl⟩
      obtain ⟨g1, g2⟩ := h1.rowsOf k l (mem_rowEntries.2 hl)
      refine ⟨g1, fun sheet row => ?_⟩
      rw [g2]
      constructor
      · rintro ⟨r, hr, e⟩; exact ⟨r, List.mem_append_left _ hr, e⟩
      · rintro ⟨r, hr, e⟩
        rcases List.mem_append.1 hr with hr | hr
        · exact ⟨r, hr, e⟩
        · exact absurd (e.1 ▸ hk2 r hr) (hd k hkm)
    · have hkm : k ∈ Dict.keys m2 := List.mem_map.2 ⟨_, hl, rfl⟩
      obtain ⟨g1, g2⟩ := h2.rowsOf k l (mem_rowEntries.2 hl)
      refine ⟨g1, fun sheet row => ?_⟩
      rw [g2]
      constructor
      · rintro ⟨r, hr, e⟩; exact ⟨r, List.mem_append_right _ hr, e⟩
      · rintro ⟨r, hr, e⟩
        rcases List.mem_append.1 hr with hr | hr
        · exact absurd hkm (hd k (e.1 ▸ hk1 r hr))
        · exact ⟨r, hr, e⟩

theorem Spec.HeadingMapOf.append {m1 m2 : List (Str × List (Str × Str))} {r1 r2 : List Recorded} (h1 : HeadingMapOf m1 r1) (h2 : HeadingMapOf m2 r2)
    (hd : ∀ k ∈ Dict.keys m1, k ∉ Dict.keys m2) : HeadingMapOf (m1 ++ m2) (r1 ++ r2) := by
  have hk1 : ∀ r ∈ r1, keysText r.path ∈ Dict.keys m1 := by
    intro r hr
    obtain ⟨l, hl⟩ := (h1.keys _).2 ⟨r, hr, rfl⟩
    exact List.mem_map.2 ⟨_, hl, rfl⟩
  have hk2 : ∀ r ∈ r2, keysText r.path ∈ Dict.keys m2 := by
    intro r hr
    obtain ⟨l, hl⟩ := (h2.keys _).2 ⟨r, hr, rfl⟩
    exact List.mem_map.2 ⟨_, hl, rfl⟩
  refine ⟨?_, ?_, ?_⟩
  · rw [List.map_append, List.nodup_append]
    exact ⟨h1.once, h2.once, fun a ha b hb e => hd a ha (e ▸ hb)⟩
  · intro k
    have a := h1.keys k
    have b := h2.keys k
    simp only [List.mem_append] at *
    constructor
    · rintro ⟨l, hl | hl⟩
      · obtain ⟨r, hr, e⟩ := a.1 ⟨l, hl⟩; exact ⟨r, Or.inl hr, e⟩
      · obtain ⟨r, hr, e⟩ := b.1 ⟨l, hl⟩; exact ⟨r, Or.inr hr, e⟩
    · rintro ⟨r, hr | hr, e⟩
      · obtain ⟨l, hl⟩ := a.2 ⟨r, hr, e⟩; exact ⟨l, Or.inl hl⟩
      · obtain ⟨l, hl⟩ := b.2 ⟨r, hr, e⟩; exact ⟨l, Or.inr hl⟩
  · intro k l hl
    rw [List.mem_append] at hl
    rcases hl with hl | hl
    · have hkm : k ∈ Dict.keys m1 := List.mem_map.2 ⟨_, hl, rfl⟩
      obtain ⟨g1, g2⟩ := h1.headings k l hl
      refine ⟨g1, fun sheet row => ?_⟩
      rw [g2]
      constructor
      · rintro ⟨r, hr, e⟩; exact ⟨r, List.mem_append_left _ hr, e⟩
      · rintro ⟨r, hr, e⟩
        rcases List.mem_append.1 hr with hr | hr
        · exact ⟨r, hr, e⟩
        · exact absurd (e.1 ▸ hk2 r hr) (hd k hkm)
    · have hkm : k ∈ Dict.keys m2 := List.mem_map.2 ⟨_, hl, rfl⟩
      obtain ⟨g1, g2⟩ := h2.headings k l hl
      refine ⟨g1, fun sheet row => ?_⟩
      rw [g2]
      constructor
      · rintro ⟨r, hr, e⟩; exact ⟨r, List.mem_append_right _ hr, e⟩
      · rintro ⟨r, hr, e⟩
        rcases List.mem_append.1 hr with hr | hr
        · exact absurd hkm (hd k (e.1 ▸ hk1 r hr))
        · exact ⟨r, hr, e⟩

/-! #### The texts of paths in the metatab -/

theorem stepsText_meta (p : List PStep) : (stepsText (.key s%"meta" :: .idx 0 :: p)).drop 7 = stepsText p := by
  cases p with
  | nil => decide +kernel
  | cons a r =>
    have h0 : PStep.str (.idx 0) = s%"0" := by decide +kernel
    simp only [stepsText, List.map_cons, PStep.str, Py.join] at *
    rw [h0]
    rfl

theorem keysText_meta {k : Str} {q : List PStep} :
    keysText (.key s%"meta" :: .idx 0 :: .key k :: q) = s%"meta/" ++ keysText (.key k :: q) := by
  simp only [keysText, List.filterMap_cons, Py.join]
  rfl

/-- The first name on a path. -/
theorem stepsText_ne {k k' : Str} {q q' : List PStep} (h : k ≠ k') (h1 : NoSlash (.key k :: q)) (h2 : NoSlash (.key k' :: q')) :
    stepsText (.key k :: q) ≠ stepsText (.key k' :: q') := by
  intro e
  have := pathStr_inj (root := none) (p := .key k :: q) (q := .key k' :: q') (by simp) (by simp) h1 h2 e
  simp only [List.map_cons, List.cons.injEq, PStep.str] at this
  exact h this.1

theorem keysText_ne {k k' : Str} {q q' : List PStep} (h : k ≠ k') (h1 : NoSlash (.key k :: q)) (h2 : NoSlash (.key k' :: q')) :
    keysText (.key k :: q) ≠ keysText (.key k' :: q') := by
  intro e
  have hs : ∀ {p : List PStep}, NoSlash p → ∀ s ∈ keysOn p, '/' ∉ s := by
    intro p hp s hs
    simp only [keysOn, List.mem_filterMap] at hs
    obtain ⟨x, hx, e⟩ := hs
    cases x with
    | key k => simp only [Option.some.injEq] at e; subst e; exact hp _ hx
    | idx i => simp at e
  have e' : Py.join s%"/" (keysOn (.key k :: q)) = Py.join s%"/" (keysOn (.key k' :: q')) := e
  have := Py.join_inj (by simp [keysOn]) (by simp [keysOn]) (hs h1) (hs h2) e'
  simp only [keysOn, List.filterMap_cons, List.cons.injEq] at this
  exact h this.1

/-! #### One line gives one object -/

theorem rowsAlone_length {cfg : UnCfg} : ∀ {rs : List RowIn} {rows : List Row}, rowsAlone cfg rs = .ok rows → rows.length = rs.length
  | [], rows, h => by simp only [rowsAlone, Except.ok.injEq] at h; subst h; rfl
  | r :: rs, rows, h => by
    simp only [rowsAlone] at h
    split at h
    · cases h
    · split at h
      · cases h
      · next xs hx =>
        injection h with h; subst h
        simp [rowsAlone_length hx]

theorem keyedToLists_length (l : List (Val × List (Str × Tree))) : (keyedToLists l).length = l.length := by
  induction l with
  | nil => rfl
  | cons e r ih => obtain ⟨k, fs⟩ := e; simp [keyedToLists, ih]

theorem itemsToLists_length (l : List (List (Str × Tree))) : (itemsToLists l).length = l.length := by
  induction l with
  | nil => rfl
  | cons fs r ih => simp [itemsToLists, ih]

theorem append_one {cfg : UnCfg} {fs : Fields} {td : TDict} (h : ({} : TDict).append cfg.idName cfg.row.xml fs = .ok td) :
    td.keyed.length + td.rest.length = 1 := by
  unfold TDict.append at h
  split at h
  · cases h
  · injection h with h; subst h; rfl
  · split at h
    · cases h
    · simp only [keyGet] at h
      injection h with h; subst h; rfl

theorem addToGroup_one {cfg : UnCfg} {sheet : Str} {fs : Fields} {td : TDict} {w : List Warn} (h : addToGroup cfg sheet fs {} = .ok (td, w)) :
    td.keyed.length + td.rest.length = 1 := by
  unfold addToGroup at h
  split at h
  · cases h
  · split at h
    · cases h
    · next h1 => injection h with h; simp only [Prod.mk.injEq] at h; obtain ⟨rfl, _⟩ := h; exact append_one h1
  · split at h
    · cases h
    · have hk : ∀ k : Val, keyGet ([] : List (Val × Fields)) k = none := fun _ => rfl
      rw [hk] at h
      simp only at h
      split at h
      · cases h
      · next h1 => injection h with h; simp only [Prod.mk.injEq] at h; obtain ⟨rfl, _⟩ := h; exact append_one h1

theorem unflatten_one {cfg : UnCfg} {sheets : List SheetIn} {tree : List (List (Str × CTree))} {w : List Warn}
    (h : doUnflatten cfg sheets = .ok (tree, w)) (hl : (rowsIn sheets).length ≤ 1) : tree.length ≤ 1 := by
  obtain ⟨rows, gs, mw, h1, h2, rfl, _, _⟩ := doUnflatten_ok h
  have hlen := rowsAlone_length h1
  match rows, hlen with
  | [], _ =>
    simp only [foldRows, Except.ok.injEq, Prod.mk.injEq] at h2
    rw [← h2.1]; simp [groupsToList]
  | [r], _ =>
    simp only [foldRows] at h2
    split at h2
    · cases h2
    · next gs1 w1 h3 =>
      injection h2 with h2
      simp only [Prod.mk.injEq] at h2
      obtain ⟨rfl, _⟩ := h2
      unfold addRow at h3
      split at h3
      · cases h3
      · next td w2 h4 =>
        injection h3 with h3
        simp only [Prod.mk.injEq] at h3
        obtain ⟨rfl, _⟩ := h3
        simp only [keyGet, Option.getD_none] at h4
        have := addToGroup_one h4
        simp only [keySet, groupsToList, List.flatMap_cons, List.flatMap_nil, List.append_nil, List.length_append, keyedToLists_length,
          itemsToLists_length]
        omega
  | _ :: _ :: _, hlen => simp at hlen; omega

theorem rowsIn_length (sheets : List SheetIn) : (rowsIn sheets).length ≤ (sheets.map (fun s => s.lines.length)).sum := by
  induction sheets with
  | nil => simp [rowsIn]
  | cons s r ih =>
    simp only [rowsIn, List.flatMap_cons, List.length_append, List.map_cons, List.sum_cons] at *
    have : (if s.headings = some [] then [] else
        (s.lines.zipIdx.filter (fun p => hasData p.1)).map (fun p => (⟨s, p.2, p.1⟩ : RowIn))).length ≤ s.lines.length := by
      split
      · simp
      · rw [List.length_map]
        exact Nat.le_trans (List.length_filter_le _ _) (by simp)
    omega

theorem titleSheets_lengths (t : TitleTree) (sheets : List SheetIn) :
    (titleSheets t sheets).map (fun s => s.lines.length) = sheets.map (fun s => s.lines.length) := by
  unfold titleSheets
  split
  · rfl
  · simp [Function.comp_def]

theorem withTitles_lengths {c : Bool} {schema : Option Parsed} {s1 s2 : List SheetIn} (h : withTitles c schema s1 = .ok s2) :
    s2.map (fun s => s.lines.length) = s1.map (fun s => s.lines.length) := by
  unfold withTitles at h
  split at h
  · injection h with h; rw [h]
  · split at h
    · cases h
    · injection h with h; rw [← h]; exact titleSheets_lengths _ _

theorem select_nodup (i : Input) (M : Str) (hd : DistinctSheets i) : (i.select [M] []).Nodup := by
  cases i with
  | csv files =>
    refine (C41_csv_selection _ [M] [] hd).1.imp ?_
    intro a b hab e
    subst e
    exact nameLt_irrefl _ hab
  | xlsx sheets => exact List.filter_sublist.nodup hd
  | ods sheets => exact List.filter_sublist.nodup hd

/-- How the metatab is read. -/
def metatabReading (o : UnOpts) : ReadCfg := { base := {}, useConfig := false, vertical := o.metatabVertical }

theorem metaPass_inv {o : UnOpts} {env : Env} {M : Str} {m : Pass} (h : metaPass o env M = .ok m) :
    ∃ schema, parseOpt { wkt := o.wkt } o.metatabSchema = .ok schema ∧
      pass o env schema { row := rowCfg o env schema, idName := o.idName, rootId := some s%"ocid" } (metatabReading o) (some s%"meta") [M] [] = .ok m := by
  unfold metaPass at h
  split at h
  · cases h
  · next schema hs => exact ⟨schema, hs, h⟩

theorem metaPass_one {o : UnOpts} {env : Env} {M : Str} {m : Pass} (hd : DistinctSheets env.input) (h : metaPass o env M = .ok m)
    (hone : ∀ s, env.input.sheet (metatabReading o) M = .ok s → s.lines.length ≤ 1) : m.result.length ≤ 1 := by
  obtain ⟨schema, _, hp⟩ := metaPass_inv h
  obtain ⟨s1, s2, cm, hm, p1, p2, p3, _⟩ := pass_inv hp
  obtain ⟨tree, ht, hr⟩ := fancy_inv p3
  have hlen : m.result.length = tree.length := by
    rw [hr]; clear hr ht; induction tree with
    | nil => rfl
    | cons a r ih => simp [listToValue, ih]
  rw [hlen]
  apply unflatten_one ht
  refine Nat.le_trans (rowsIn_length s2) ?_
  rw [withTitles_lengths p2]
  unfold Input.read at p1
  have hsel := select_nodup env.input M hd
  have hall := fun n => select_incl env.input M n hd
  match hl : env.input.select [M] [], hsel, hall with
  | [], _, _ =>
    rw [hl] at p1
    simp only [Api.mapE, Except.ok.injEq] at p1
    subst p1; simp
  | [n], _, hall =>
    rw [hl] at p1
    simp only [Api.mapE] at p1
    split at p1
    · cases p1
    · next b hb =>
      injection p1 with p1; subst p1
      rw [hall n (by simp)] at hb
      simpa using hone b hb
  | n :: n' :: r, hsel, hall =>
    have e1 := hall n (by simp)
    have e2 := hall n' (by simp)
    rw [List.nodup_cons] at hsel
    exact absurd (by rw [e1, e2]; simp) hsel.1

/-! #### The records of the metatab -/

theorem leaves_one (j : Json) : leaves (.arr [j]) = (leaves j).map (under (.idx 0)) := by
  simp [leaves, leavesInItems]

theorem map_pre_inj {α : Type} {s : PStep} {a b : List (List PStep × α)} (h : (a.map (under s)).Perm (b.map (under s))) : a.Perm b := by
  have := h.map (fun e : List PStep × α => (e.1.tail, e.2))
  simpa [List.map_map, Function.comp_def, under] using this

/-- The source maps of the metatab, with the paths in the document. -/
theorem meta_records {o : UnOpts} {env : Env} {M : Str} {m : Pass} {base : Json} (h : metaPass o env M = .ok m) (hone : m.result.length ≤ 1)
    (hbase : addMeta (.obj []) m.result = .ok base)
    (hkeys : ∀ fields, base = .obj fields → [] ∉ Dict.keys fields) :
    ∃ fields rs, base = .obj fields ∧ (Dict.keys fields).Nodup ∧ RecordsOf (.obj fields) [] rs ∧
      (∀ r ∈ rs, ∃ k q, r.path = .key k :: q ∧ k ∈ Dict.keys fields ∧ NoSlash r.path) ∧
      (o.cellSourceMap = true → CellMapOf (stripKeys 7 m.cells) rs) ∧ (o.headingSourceMap = true → HeadingMapOf (stripKeys 5 m.headings) rs) := by
  obtain ⟨schema, _, hp⟩ := metaPass_inv h
  obtain ⟨s1, s2, cm, hm, _, _, p3, p4, p5, _⟩ := pass_inv hp
  obtain ⟨rs, a, g, c, k⟩ := maps_records p3
  rw [← p4] at c
  rw [← p5] at k
  obtain ⟨tree, ht, hr⟩ := fancy_inv p3
  -- the object
  have hobj : ∃ fields, base = .obj fields ∧ (Dict.keys fields).Nodup ∧
      ((m.result = [] ∧ fields = []) ∨ m.result = [.obj fields]) := by
    unfold addMeta at hbase
    match tree, hr, ht with
    | [], hr, _ =>
      rw [hr] at hbase
      simp only [listToValue, Except.ok.injEq] at hbase
      exact ⟨[], hbase.symm, by simp [Dict.keys], Or.inl ⟨hr, rfl⟩⟩
    | [f], hr, ht =>
      rw [hr] at hbase
      simp only [listToValue, Except.ok.injEq] at hbase
      have hnd : (Dict.keys (toValue f)).Nodup := by
        have hgood := run_good ht
        simp only [CGoodI] at hgood
        rw [keys_toValue]; exact cGoodF_nodup hgood.1
      have hu : Dict.update [] (toValue f) = toValue f := dictOf_nodup _ hnd
      rw [hu] at hbase
      exact ⟨_, hbase.symm, hnd, Or.inr hr⟩
    | f :: f' :: r, hr, _ => rw [hr] at hone; simp [listToValue] at hone
  obtain ⟨fields, hb, hnd, hres⟩ := hobj
  have hk0 := hkeys fields hb
  -- the paths
  have hpaths : ∀ r ∈ rs, ∃ k q, r.path = .idx 0 :: .key k :: q ∧ k ∈ Dict.keys fields ∧ NoSlash (.key k :: q) := by
    intro r hr
    obtain ⟨i, k, q, e, hns⟩ := g r hr
    have hv := (a.value r hr).1
    rw [e] at hv hns
    rcases hres with ⟨h0, _⟩ | h1
    · rw [h0] at hv; simp [valueAt] at hv
    · rw [h1] at hv
      cases i with
      | succ i => simp [valueAt] at hv
      | zero =>
        refine ⟨k, q, e, ?_, fun s hs => hns s (List.mem_cons_of_mem _ hs)⟩
        simp only [valueAt, List.getElem?_cons_zero] at hv
        split at hv
        · next j hj => exact Decidable.byContradiction (fun hn => by rw [Dict.get_none_iff.2 hn] at hj; cases hj)
        · cases hv
  let rs' : List Recorded := rs.map (fun r => { r with path := r.path.tail })
  have hrs : rs = rs'.map (·.below [.idx 0]) := by
    rw [List.map_map]
    rw [List.map_congr_left (g := id)]; · simp
    intro r hr
    obtain ⟨k, q, e, _⟩ := hpaths r hr
    simp only [Function.comp, Recorded.below, id]
    cases r; simp only at e; subst e; rfl
  have hp' : ∀ r ∈ rs', ∃ k q, r.path = .key k :: q ∧ k ∈ Dict.keys fields ∧ NoSlash r.path := by
    intro r' hr'
    obtain ⟨r, hr, rfl⟩ := List.mem_map.1 hr'
    obtain ⟨k, q, e, h1, h2⟩ := hpaths r hr
    exact ⟨k, q, by simp [e], h1, by simpa [e] using h2⟩
  have hne : ∀ r ∈ rs', r.path ≠ [] := by
    intro r hr h0; obtain ⟨k, q, e, _⟩ := hp' r hr; rw [h0] at e; cases e
  have hbelow : rs.map (·.below (rootSteps (some s%"meta"))) = rs'.map (·.below [.key s%"meta", .idx 0]) := by
    rw [hrs, List.map_map]
    rfl
  rw [hbelow] at c k
  refine ⟨fields, rs', hb, hnd, ⟨?_, ?_⟩, hp', fun hcm => ?_, fun hhm => ?_⟩
  · have hall := a.all
    rw [List.nil_append] at hall ⊢
    rcases hres with ⟨h0, rfl⟩ | h1
    · have : rs = [] := by
        match hrs0 : rs with
        | [] => rfl
        | r :: _ => obtain ⟨k, q, _, hk, _⟩ := hpaths r (by rw [hrs0]; exact List.mem_cons_self ..); cases hk
      have : rs' = [] := by simp [rs', this]
      rw [this]; simp [leaves, leavesInFields]
    · rw [h1, leaves_one, hrs, flatMap_below] at hall
      exact map_pre_inj hall
  · intro r' hr'
    obtain ⟨r, hr, rfl⟩ := List.mem_map.1 hr'
    obtain ⟨hv, hl⟩ := a.value r hr
    obtain ⟨k, q, e, hk, _⟩ := hpaths r hr
    refine ⟨?_, hl⟩
    rcases hres with ⟨h0, rfl⟩ | h1
    · simp [Dict.keys] at hk
    · rw [h1, e] at hv
      simp only [e, List.tail_cons]
      simpa [valueAt] using hv
  · have c := c hcm
    have hkey : ∀ x ∈ Dict.keys m.cells, ∃ p : List PStep, x = stepsText ([.key s%"meta", .idx 0] ++ p) ∧
        (p = [] ∨ ∃ k q, p = .key k :: q ∧ k ≠ [] ∧ NoSlash p) := by
      intro x hx
      obtain ⟨r', hr', e⟩ := c.key hx
      obtain ⟨r, hr, rfl⟩ := List.mem_map.1 hr'
      obtain ⟨k, q, e1, hk, hns⟩ := hp' r hr
      have hkne : k ≠ [] := fun h => hk0 (h ▸ hk)
      rw [dropLast_below (hne r hr)] at e
      rcases e with e | e
      · exact ⟨r.path, e, Or.inr ⟨k, q, e1, hkne, hns⟩⟩
      · refine ⟨r.path.dropLast, e, ?_⟩
        rw [e1] at hns ⊢
        cases q with
        | nil => exact Or.inl rfl
        | cons s q' => exact Or.inr ⟨k, (s :: q').dropLast, rfl, hkne, noSlash_dropLast hns⟩
    have hinj : ∀ x ∈ Dict.keys m.cells, ∀ y ∈ Dict.keys m.cells, x.drop 7 = y.drop 7 → x = y := by
      have hempty : ∀ (k : Str) q, k ≠ [] → stepsText (.key k :: q) ≠ stepsText [] := by
        intro k q hk h
        cases q with
        | nil => simp [stepsText, Py.join, PStep.str] at h; exact hk h
        | cons s q => simp [stepsText, Py.join, PStep.str] at h
      intro x hx y hy hxy
      obtain ⟨p, rfl, hp⟩ := hkey x hx
      obtain ⟨p', rfl, hp'⟩ := hkey y hy
      simp only [List.cons_append, List.nil_append, stepsText_meta] at hxy
      rcases hp with rfl | ⟨k1, q1, rfl, hk1, hn1⟩ <;> rcases hp' with rfl | ⟨k2, q2, rfl, hk2, hn2⟩
      · rfl
      · exact absurd hxy.symm (hempty _ _ hk2)
      · exact absurd hxy (hempty _ _ hk1)
      · have := pathStr_inj (root := none) (by simp) (by simp) hn1 hn2 hxy
        simp only [stepsText, List.map_append, this]
    have hc := CellMapOf.mapKeys (f := fun x => x.drop 7) c hne (fun r hr => ⟨stepsText_meta _, stepsText_meta _⟩) hinj
    have hs : stripKeys 7 m.cells = m.cells.map (fun e => (e.1.drop 7, e.2)) := dictOf_nodup _ hc.once
    rw [hs]; exact hc
  · have k := k hhm (by intro r hr; injection hr with hr; subst hr; decide +kernel)
    have hkey : ∀ x ∈ Dict.keys m.headings, ∃ t, x = s%"meta/" ++ t := by
      intro x hx
      obtain ⟨⟨k', l⟩, hl, rfl⟩ := List.mem_map.1 hx
      obtain ⟨r', hr', e⟩ := (k.keys k').1 ⟨l, hl⟩
      obtain ⟨r, hr, rfl⟩ := List.mem_map.1 hr'
      obtain ⟨k1, q, e1, _, _⟩ := hp' r hr
      refine ⟨keysText r.path, ?_⟩
      simp only [← e, Recorded.below, e1]
      exact keysText_meta
    have hf : ∀ r ∈ rs', (keysText ([.key s%"meta", .idx 0] ++ r.path)).drop 5 = keysText r.path := by
      intro r hr
      obtain ⟨k1, q, e1, _, _⟩ := hp' r hr
      rw [e1]
      exact (congrArg (List.drop 5) keysText_meta).trans rfl
    have hh := HeadingMapOf.mapKeys (f := fun x => x.drop 5) k hf (by
      intro x hx y hy hxy
      obtain ⟨t, rfl⟩ := hkey x hx
      obtain ⟨t', rfl⟩ := hkey y hy
      have : t = t' := hxy
      rw [this])
    have hs : stripKeys 5 m.headings = m.headings.map (fun e => (e.1.drop 5, e.2)) := dictOf_nodup _ hh.once
    rw [hs]; exact hh

/-- C53, metatab only.  The source maps are about exactly the values of the document that is written. -/
theorem C53_metatab_only (o : UnOpts) (env : Env) (out : UnOut) (M : Str) (hM : o.metatabName = some M) (hne : M ≠ [])
    (hlist : o.rootIsList = false) (honly : o.metatabOnly = true) (hx : o.xml = false) (hd : DistinctSheets env.input)
    (hone : ∀ s, env.input.sheet (metatabReading o) M = .ok s → s.lines.length ≤ 1)
    (h : runUnflatten o env = .ok out)
    (hkeys : ∀ fields, out.document = .json (.obj fields) → [] ∉ Dict.keys fields) :
    ∃ doc rs, out.document = .json doc ∧ RecordsOf doc [] rs ∧
      (o.cellSourceMap = true → CellMapOf out.cellMap rs) ∧ (o.headingSourceMap = true → HeadingMapOf out.headingMap rs) := by
  have hg : given o.metatabName = some M := given_some.2 ⟨hM, hne⟩
  rw [run_metaOnly (by simp [honly, hlist])] at h
  obtain ⟨k1, k2, s, d, h3, h4, rfl⟩ := h
  obtain ⟨mm, own, base, g1, g2, g3, rfl⟩ := (stage1_meta hg hlist).1 h3
  have hb : o.baseJson.getD [] = [] := by rw [hM, checks_meta hne] at k1; exact k1.2
  rw [baseDocument_fields hlist (Or.inl ⟨hb, rfl⟩)] at g3
  rw [render_json hx] at h4
  injection h4 with h4; subst h4
  obtain ⟨fields, rs, e, _, r1, _, r3, r4⟩ := meta_records g1 (metaPass_one hd g1 hone) g3 (fun f hf => hkeys f (by rw [hf]))
  subst e
  exact ⟨_, rs, rfl, r1, r3, r4⟩

/-- C53, with a metatab.  The source maps are about exactly the values of the document that is written.  (Assumptions: the metatab has at most one line of
data; it has no column for the root list itself; and no name is empty.  Otherwise entries for different values can have the same key.) -/
theorem C53_metatab (o : UnOpts) (env : Env) (out : UnOut) (M root : Str) (hM : o.metatabName = some M) (hne : M ≠ [])
    (hlist : o.rootIsList = false) (hfull : o.metatabOnly = false) (hx : o.xml = false) (hroot : o.rootListPath = some root)
    (hint : Py.int? root = none) (hslash : '/' ∉ root) (hd : DistinctSheets env.input)
    (hone : ∀ s, env.input.sheet (metatabReading o) M = .ok s → s.lines.length ≤ 1)
    (hfields : ∀ outM fields, runUnflatten { o with metatabOnly := true } env = .ok outM → outM.document = .json (.obj fields) →
      root ∉ Dict.keys fields ∧ [] ∉ Dict.keys fields)
    (h : runUnflatten o env = .ok out) :
    ∃ doc rs, out.document = .json doc ∧ RecordsOf doc [] rs ∧
      (o.cellSourceMap = true → CellMapOf out.cellMap rs) ∧ (o.headingSourceMap = true → HeadingMapOf out.headingMap rs) := by
  have hg : given o.metatabName = some M := given_some.2 ⟨hM, hne⟩
  have hrp : ∀ c, rootPathOf o c = root := by intro c; unfold rootPathOf; rw [hroot]; rfl
  rw [run_full (by simp [hfull])] at h
  obtain ⟨k1, k2, s, m, doc, d, h3, h4, h5, h6, rfl⟩ := h
  obtain ⟨mm, own, base, g1, g2, g3, rfl⟩ := (stage1_meta hg hlist).1 h3
  have hb : o.baseJson.getD [] = [] := by rw [hM, checks_meta hne] at k1; exact k1.2
  have hkk : ∀ f, base = .obj f → root ∉ Dict.keys f ∧ [] ∉ Dict.keys f := by
    intro f hf
    refine hfields _ f ((run_metaOnly (o := { o with metatabOnly := true }) (by simp [hlist])).2 ⟨k1, k2, _, _,
        (stage1_meta (o := { o with metatabOnly := true }) hg hlist).2 ⟨mm, own, base, g1, g2, g3, rfl⟩, render_json hx, rfl⟩) (by rw [hf])
  rw [baseDocument_fields hlist (Or.inl ⟨hb, rfl⟩)] at g3
  obtain ⟨fields, rsM, e, hnd, r1, r2, r3, r4⟩ := meta_records g1 (metaPass_one hd g1 hone) g3 (fun f hf => (hkk f hf).2)
  subst e
  obtain ⟨hroot', _⟩ := hkk fields rfl
  simp only at h5
  rw [addResult_obj hlist, hrp] at h5
  injection h5 with h5; subst h5
  rw [render_json hx] at h6
  injection h6 with h6; subst h6
  obtain ⟨schema, _, hp⟩ := mainPass_inv h4
  obtain ⟨s1, s2, cm, hm, _, _, p3, p4, p5, _⟩ := pass_inv hp
  simp only [hlist, Bool.false_eq_true, if_false, hrp] at p3
  obtain ⟨rs, a, g, c, k⟩ := maps_records p3
  rw [← p4] at c
  rw [← p5] at k
  have hset := records_set (root := root) hnd a
  have hfilter : fields.filter (fun e => e.1 ≠ root) = fields := by
    rw [List.filter_eq_self]
    intro e he
    simp only [decide_eq_true_eq]
    intro h'
    exact hroot' (h' ▸ List.mem_map_of_mem he)
  have hmain : ∀ r ∈ rs, ∃ i k q, (r.below [.key root]).path = .key root :: .idx i :: .key k :: q ∧ NoSlash (r.below [.key root]).path := by
    intro r hr
    obtain ⟨i, k, q, e, hns⟩ := g r hr
    refine ⟨i, k, q, by simp [Recorded.below, e], ?_⟩
    intro s hs
    simp only [Recorded.below, List.singleton_append, List.mem_cons, PStep.key.injEq] at hs
    rcases hs with rfl | hs
    · exact hslash
    · exact hns s hs
  refine ⟨_, rsM ++ rs.map (·.below [.key root]), rfl, ⟨?_, ?_⟩, fun hcm => ?_, fun hhm => ?_⟩
  · rw [List.nil_append, List.flatMap_append]
    have h1 := r1.all
    rw [List.nil_append] at h1
    have h2 := hset.all
    rw [hfilter] at h2
    exact h2.trans (List.Perm.append_right _ h1)
  · intro r hr
    rcases List.mem_append.1 hr with hr | hr
    · obtain ⟨v1, v2⟩ := r1.value r hr
      refine ⟨?_, v2⟩
      obtain ⟨k, q, e, hk, _⟩ := r2 r hr
      have hkr : root ≠ k := fun h' => hroot' (h' ▸ hk)
      rw [e] at v1 ⊢
      simp only [valueAt] at v1 ⊢
      rw [Dict.get_set_other _ _ hkr]
      exact v1
    · exact hset.value r hr
  · have c := c hcm
    have r3 := r3 hcm
    have hdisj : ∀ x ∈ Dict.keys (stripKeys 7 mm.cells), x ∉ Dict.keys m.cells := by
      intro x hx hy
      obtain ⟨r, hr, e⟩ := r3.key hx
      obtain ⟨r', hr', e'⟩ := c.key hy
      obtain ⟨r0, hr0, rfl⟩ := List.mem_map.1 hr'
      obtain ⟨i, k', q', e2, hns2⟩ := hmain r0 hr0
      obtain ⟨k1, q, e1, hk1, hns1⟩ := r2 r hr
      have hkr : k1 ≠ root := fun h' => hroot' (h' ▸ hk1)
      have hx2 : ∃ t : List PStep, x = stepsText (.key root :: .idx i :: t) ∧ NoSlash (.key root :: .idx i :: t) := by
        have e2' : (Recorded.below (rootSteps (some root)) r0).path = .key root :: .idx i :: .key k' :: q' := e2
        rw [e2] at hns2
        rw [e2'] at e'
        rcases e' with e' | e'
        · exact ⟨_, e', hns2⟩
        · exact ⟨_, e', noSlash_dropLast hns2⟩
      obtain ⟨t, rfl, hns⟩ := hx2
      rw [e1] at hns1 e
      rcases e with e | e
      · exact stepsText_ne hkr.symm hns hns1 e
      · cases q with
        | nil => simp [stepsText, Py.join, PStep.str] at e
        | cons s q => exact stepsText_ne hkr.symm hns (noSlash_dropLast hns1) e
    have hboth := r3.append c hdisj
    have hu := update_nodup m.cells (stripKeys 7 mm.cells) (by exact hboth.once)
    simp only
    rw [hu]; exact hboth
  · have k := k hhm (by intro r hr; injection hr with hr; rw [← hr]; exact hint)
    have r4 := r4 hhm
    have hdisj : ∀ x ∈ Dict.keys (stripKeys 5 mm.headings), x ∉ Dict.keys m.headings := by
      intro x hx hy
      obtain ⟨⟨x1, l1⟩, hl1, rfl⟩ := List.mem_map.1 hx
      obtain ⟨⟨x2, l2⟩, hl2, ex⟩ := List.mem_map.1 hy
      simp only at ex; subst ex
      obtain ⟨r, hr, e⟩ := (r4.keys _).1 ⟨l1, hl1⟩
      obtain ⟨r', hr', e'⟩ := (k.keys _).1 ⟨l2, hl2⟩
      obtain ⟨r0, hr0, rfl⟩ := List.mem_map.1 hr'
      obtain ⟨i, k', q', e2, hns2⟩ := hmain r0 hr0
      obtain ⟨k1, q, e1, hk1, hns1⟩ := r2 r hr
      have e2' : (Recorded.below (rootSteps (some root)) r0).path = .key root :: .idx i :: .key k' :: q' := e2
      rw [e2'] at e'
      rw [e2] at hns2
      rw [e1] at hns1 e
      exact keysText_ne (k := k1) (k' := root) (fun h' => hroot' (h' ▸ hk1)) hns1 hns2 (e.trans e'.symm)
    have hboth := r4.append k hdisj
    have hu := update_nodup m.headings (stripKeys 5 mm.headings) (by exact hboth.once)
    simp only
    rw [hu]; exact hboth

namespace MainEx

def optsMaps : UnOpts := { opts with headingSourceMap := true }

/-- The assumptions of C53_metatab hold of the example with a metatab of one line. -/
example : ∀ s, env.input.sheet (metatabReading optsMaps) s%"meta" = .ok s → s.lines.length ≤ 1 := by
  have h : (env.input.sheet (metatabReading optsMaps) s%"meta").map (fun s => s.lines.length) = .ok 1 := by decide +kernel
  intro s hs
  rw [hs] at h
  simp only [Except.map, Except.ok.injEq] at h
  omega
example : Py.int? s%"sales" = none := by decide +kernel
example : (runUnflatten { optsMaps with metatabOnly := true } env).map (·.document) = .ok (.json (.obj fields)) := by decide +kernel
example : s%"sales" ∉ Dict.keys fields ∧ [] ∉ Dict.keys fields := by decide +kernel
example : (runUnflatten optsMaps env).map (fun o => o.headingMap.map (·.1)) =
    .ok [s%"by/name", s%"version", s%"sales/id", s%"sales/line/id"] := by decide +kernel
/-- Why at most one line is assumed: with two lines, the second object of the metatab is not in the document, but its cells replace those of the first in
the source map. -/
def env2 : Env := { env with input := .csv [(s%"meta.csv", [[s%"version"], [s%"7"], [s%"8"]])] }
example : (runUnflatten { opts with metatabOnly := true } env2).map (·.document) = .ok (.json (.obj [(s%"version", .leaf (.str s%"7"))])) := by decide +kernel
example : (runUnflatten { opts with metatabOnly := true } env2).map (fun o => cellEntries o.cellMap) =
    .ok [(s%"version", [⟨s%"meta", 1, 3, s%"version"⟩])] := by decide +kernel

end MainEx

end Verif
