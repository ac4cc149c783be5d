import Verif.Spec.Renumber
import Verif.Proofs.TitledLines
/-! The position that a heading names, with and without zeros. -/
namespace Verif
open Spec

theorem field_cfg {c c' : SchemaCfg} (h1 : c'.noDeprecated = c.noDeprecated) {s : Schema} {n : Str} {p : Schema} (h : Field c s n p) : Field c' s n p :=
  ⟨h.1, fun hd => h.2 (by rw [← h1]; exact hd)⟩

theorem trail_cfg {c c' : SchemaCfg} (h1 : c'.noDeprecated = c.noDeprecated) (h2 : c'.wkt = c.wkt) {s q : Schema} {steps : List Hop} (h : Trail c s steps q) :
    Trail c' s steps q := by
  induction h with
  | here => exact .here _
  | object hf hk _ ih => exact .object (field_cfg h1 hf) (by rw [h2]; exact hk) ih
  | list hf hk hi _ ih => exact .list (field_cfg h1 hf) (by rw [h2]; exact hk) hi ih

theorem reached_cfg {c c' : SchemaCfg} (h1 : c'.noDeprecated = c.noDeprecated) (h2 : c'.wkt = c.wkt) {s p : Schema} {n : Str} {steps : List Hop} (h : Reached c s steps n p) :
    Reached c' s steps n p := by
  obtain ⟨r, q, hr, ht, hf⟩ := h
  exact ⟨r, q, hr, trail_cfg h1 h2 ht, field_cfg h1 hf⟩

theorem good_cfg {c c' : SchemaCfg} (h1 : c'.noDeprecated = c.noDeprecated) (h2 : c'.wkt = c.wkt) {s : Schema} (h : GoodTitles c s) : GoodTitles c' s := by
  refine ⟨fun steps q ht => h.dict steps q (trail_cfg h1.symm h2.symm ht), ?_, ?_⟩
  · intro steps q n p a n' p' a' ht hf hf' e1 e2 e3
    exact h.different steps q n p a n' p' a' (trail_cfg h1.symm h2.symm ht) (field_cfg h1.symm hf) (field_cfg h1.symm hf') e1 e2 e3
  · intro steps q n p ht hf hk
    exact h.titled steps q n p (trail_cfg h1.symm h2.symm ht) (field_cfg h1.symm hf) (by rw [← h2]; exact hk)

theorem plain_cfg {c c' : SchemaCfg} (h1 : c'.noDeprecated = c.noDeprecated) (h2 : c'.wkt = c.wkt) {s : Schema} (h : PlainTitles c s) : PlainTitles c' s :=
  fun steps n p a hr ha => h steps n p a (reached_cfg h1.symm h2.symm hr) ha

theorem kind_column {wkt : Bool} {p : Schema} {ty : CType} (h : kind wkt p = .column ty) : ty ≠ .array ∧ ty ≠ .object := by
  unfold kind listKind at h
  repeat' split at h
  all_goals first
    | (cases h; done)
    | (cases h; constructor <;> (intro e; cases e))
    | (cases h; split <;> constructor <;> (intro e; cases e))

/-- What the types must say. -/
structure TypesOf (scfg : SchemaCfg) (s : Schema) (types : Str → Option CType) : Prop where
  column : ∀ steps n p ty, Reached scfg s steps n p → kind scfg.wkt p = .column ty → types (plainPath steps n) = some ty
  objects : ∀ steps n p, Reached scfg s steps n p → kind scfg.wkt p = .objects → types (plainPath steps n) = some .array
  object : ∀ steps n p, Reached scfg s steps n p → kind scfg.wkt p = .object → types (plainPath steps n) = none ∨ types (plainPath steps n) = some .object

theorem typesOf_parsed {c : SchemaCfg} {s : Schema} {sp : Parsed} (h : parseRoot c s = .ok sp) (hw : WellNamed c s) (hn : NoClash c s) :
    TypesOf c s sp.types := by
  refine ⟨fun steps n p ty hr => (C38_types c s sp h hw hn steps n p hr).1 ty, fun steps n p hr => (C38_types c s sp h hw hn steps n p hr).2, ?_⟩
  intro steps n p hr hk
  cases ht : sp.types (plainPath steps n) with
  | none => exact .inl rfl
  | some t =>
    obtain ⟨r, hr', he⟩ := (types_event h).1 _ _ ht
    have := type_event hw hn hr hr' he
    rw [hk] at this
    exact .inr (by rw [this])

/-- One less. -/
def less : Numbering := fun _ i => i - 1

theorem less_order : KeepsOrder less := by
  intro a i j h
  simp only [less]; omega

theorem address_trail {scfg : SchemaCfg} {s : Schema} {types : Str → Option CType} (hT : TypesOf scfg s types) (hs : Starts s s)
    (hk : ∀ steps n p, Reached scfg s steps n p → GoodKey n) {s0 q : Schema} {steps : List Hop} (ht : Trail scfg s0 steps q) :
    ∀ {pre : List Hop}, Trail scfg s pre s0 → ∀ {n : Str} {p : Schema} {ty : CType}, Field scfg q n p → kind scfg.wkt p = .column ty →
    ∃ A, address types (pre.map (·.name)) (indexed steps ++ [n]) = some A ∧
      address types (pre.map (·.name)) (steps.map (·.name) ++ [n]) = some (renumber less (pre.map (·.name)) A) := by
  have hok : ∀ {steps n p}, Reached scfg s steps n p → ¬ (n = [] ∨ (Py.int? n).isSome = true) := by
    intro steps n p hr
    have h1 := hk steps n p hr
    rw [h1.2.2.1]
    simp [h1.1]
  have hfirst : ∀ {s1 q : Schema} {pre r : List Hop} {n : Str} {p : Schema}, Trail scfg s pre s1 → Trail scfg s1 r q → Field scfg q n p →
      (∃ x t, indexed r ++ [n] = x :: t ∧ Py.int? x = none) ∧ (∃ x t, r.map (·.name) ++ [n] = x :: t ∧ Py.int? x = none) := by
    intro s1 q pre r n p h1 h2 h3
    cases h2 with
    | here => exact ⟨⟨n, [], rfl, (hk _ _ _ (reached_of hs h1 h3)).2.2.1⟩, ⟨n, [], rfl, (hk _ _ _ (reached_of hs h1 h3)).2.2.1⟩⟩
    | object f1 f2 f3 =>
      have := (hk _ _ _ (reached_of hs h1 f1)).2.2.1
      exact ⟨⟨_, _, by simp only [indexed]; rfl, this⟩, ⟨_, _, rfl, this⟩⟩
    | list f1 f2 f3 f4 =>
      have := (hk _ _ _ (reached_of hs h1 f1)).2.2.1
      exact ⟨⟨_, _, by simp only [indexed]; rfl, this⟩, ⟨_, _, rfl, this⟩⟩
  induction ht with
  | here =>
    intro pre hpre n p ty hf hkind
    have hr := reached_of hs hpre hf
    have h1 := hT.column _ _ _ _ hr hkind
    have h2 := kind_column hkind
    refine ⟨[(n, none)], ?_, ?_⟩
    · simp only [indexed, List.nil_append, address, if_neg (hok hr)]
      rw [show Py.join s%"/" (pre.map (·.name) ++ [n]) = plainPath pre n from rfl, h1]
      simp [h2.1, h2.2]
    · simp only [List.map_nil, List.nil_append, address, if_neg (hok hr)]
      rw [show Py.join s%"/" (pre.map (·.name) ++ [n]) = plainPath pre n from rfl, h1]
      simp [h2.1, h2.2, renumber]
  | @object s1 x q m r f1 f2 f3 ih =>
    intro pre hpre n p ty hf hkind
    have hr := reached_of hs hpre f1
    have hpre' : Trail scfg s (pre ++ [⟨m, x, false⟩]) x := Trail.append hpre (.object f1 f2 (.here x))
    obtain ⟨A, h1, h2⟩ := ih hpre' hf hkind
    simp only [List.map_append, List.map_cons, List.map_nil] at h1 h2
    obtain ⟨⟨y, t, e1, e2⟩, ⟨y', t', e3, e4⟩⟩ := hfirst hpre' f3 hf
    have hty := hT.object _ _ _ hr f2
    have hna : types (plainPath pre m) ≠ some .array := by rcases hty with h | h <;> simp [h]
    refine ⟨(m, none) :: A, ?_, ?_⟩
    · simp only [indexed, Bool.false_eq_true, if_false, List.cons_append]
      rw [e1, address, if_neg (hok hr)]
      simp only [e2]
      rw [show Py.join s%"/" (pre.map (·.name) ++ [m]) = plainPath pre m from rfl, if_neg hna, if_pos hty, ← e1, h1]
      rfl
    · simp only [List.map_cons, List.cons_append]
      rw [e3, address, if_neg (hok hr)]
      simp only [e4]
      rw [show Py.join s%"/" (pre.map (·.name) ++ [m]) = plainPath pre m from rfl, if_neg hna, if_pos hty, ← e3, h2]
      rfl
  | @list s1 x i q m r f1 f2 f2' f3 ih =>
    intro pre hpre n p ty hf hkind
    have hr := reached_of hs hpre f1
    have hpre' : Trail scfg s (pre ++ [⟨m, x, true⟩]) i := Trail.append hpre (.list f1 f2 f2' (.here i))
    obtain ⟨A, h1, h2⟩ := ih hpre' hf hkind
    simp only [List.map_append, List.map_cons, List.map_nil] at h1 h2
    obtain ⟨_, ⟨y', t', e3, e4⟩⟩ := hfirst hpre' f3 hf
    have hty := hT.objects _ _ _ hr f2
    refine ⟨(m, some 0) :: A, ?_, ?_⟩
    · simp only [indexed, if_true, List.cons_append]
      rw [address, if_neg (hok hr)]
      simp only [show Py.int? s%"0" = some 0 by decide +kernel]
      rw [show Py.join s%"/" (pre.map (·.name) ++ [m]) = plainPath pre m from rfl, if_pos (.inr hty), h1]
      rfl
    · simp only [List.map_cons, List.cons_append]
      rw [e3, address, if_neg (hok hr)]
      simp only [e4]
      rw [show Py.join s%"/" (pre.map (·.name) ++ [m]) = plainPath pre m from rfl, if_pos hty, ← e3, h2]
      rfl

/-- The parts of a path. -/
theorem pathList_join {ps : List Str} (hne : ps ≠ []) (h : ∀ x ∈ ps, x = s%"0" ∨ GoodKey x) :
    pathList (Py.join s%"/" ps) = ps := by
  unfold pathList
  rw [Py.split_join hne (fun x hx => by
    rcases h x hx with rfl | h
    · decide
    · exact h.2.1)]
  refine Eq.trans (List.map_congr_left (g := id) ?_) (List.map_id _)
  intro x hx
  rcases h x hx with rfl | h
  · decide
  · exact rstrip_good h

/-- The positions that a path with zeros and the path without zeros name. -/
theorem position_paths {scfg : SchemaCfg} {s : Schema} {cfg : RowCfg} (hT : TypesOf scfg s cfg.types) (hs : Starts s s)
    (hk : ∀ steps n p, Reached scfg s steps n p → GoodKey n) {q p : Schema} {steps : List Hop} {n : Str} {ty : CType} (ht : Trail scfg s steps q) (hf : Field scfg q n p)
    (hkind : kind scfg.wkt p = .column ty) :
    ∃ A, positionOf cfg (some (columnPath steps n)) = some A ∧ positionOf cfg (some (plainPath steps n)) = some (renumber less [] A) := by
  obtain ⟨A, h1, h2⟩ := address_trail hT hs hk ht (.here s) hf hkind
  have hnames : ∀ x ∈ steps, GoodKey x.name := by
    intro x hx
    obtain ⟨l1, l2, q', _, g1, g2⟩ := ht.fields x hx
    exact hk l1 x.name x.prop (reached_of hs g1 g2)
  have hn := hk _ _ _ (reached_of hs ht hf)
  refine ⟨A, ?_, ?_⟩
  · unfold positionOf columnPath
    rw [Option.getD_some, pathList_join (by simp)]
    · exact h1
    · intro x hx
      rcases List.mem_append.1 hx with hx | hx
      · have : ∀ l : List Hop, (∀ x ∈ l, GoodKey x.name) → ∀ x ∈ indexed l, x = s%"0" ∨ ∃ y ∈ l, x = y.name := by
          intro l hl
          induction l with
          | nil => simp [indexed]
          | cons y r ih =>
            have ih := ih (fun z hz => hl z (by simp [hz]))
            intro x hx
            rw [indexed] at hx
            split at hx <;> grind
        rcases this steps hnames x hx with rfl | ⟨y, hy, rfl⟩
        · exact .inl rfl
        · exact .inr (hnames y hy)
      · rw [List.mem_singleton.1 hx]; exact .inr hn
  · unfold positionOf plainPath
    rw [Option.getD_some, pathList_join (by simp)]
    · exact h2
    · intro x hx
      rcases List.mem_append.1 hx with hx | hx
      · obtain ⟨y, hy, rfl⟩ := List.mem_map.1 hx
        exact .inr (hnames y hy)
      · rw [List.mem_singleton.1 hx]; exact .inr hn

end Verif
