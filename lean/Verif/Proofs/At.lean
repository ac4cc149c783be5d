import Verif.Proofs.Merge
import Verif.Proofs.Induct
/-!
Trees by their positions: a position is a path of field names and item ids.  For trees
that do not contradict each other `merge` is the union of the positions.
-/
namespace Verif

/-- One step of a position. -/
inductive PKey where
  | field (k : Str)
  | item (v : Val)

/-- The subtree at a position. -/
def Tree.sub : List PKey → Tree → Option Tree
  | [], t => some t
  | .field k :: p, .obj fs => (Dict.get fs k).bind (Tree.sub p)
  | .item v :: p, .tmp ks _ => (keyGet ks v).bind (fun fs => Tree.sub p (.obj fs))
  | _, _ => none

/-- Same kind of node, with equal value for cells. -/
def NodeEq : Tree → Tree → Prop
  | .cell c, .cell d => c.value.pyEq d.value = true
  | .obj _, .obj _ => True
  | .tmp _ _, .tmp _ _ => True
  | _, _ => False

theorem NodeEq.symm {a b : Tree} (h : NodeEq a b) : NodeEq b a := by
  cases a <;> cases b <;> simp_all [NodeEq]
  exact Val.pyEq_symm h

theorem NodeEq.trans {a b c : Tree} (h : NodeEq a b) (h' : NodeEq b c) : NodeEq a c := by
  cases a <;> cases b <;> cases c <;> simp_all [NodeEq]
  exact Val.pyEq_trans h h'

/-- A node in order: a value equal to itself that is no geometry; distinct field names;
items with distinct ids. -/
def Local : Tree → Prop
  | .cell c => c.value.pyEq c.value = true ∧ ∀ g, c.value ≠ .geo g
  | .obj fs => (Dict.keys fs).Nodup
  | .tmp ks rs => rs = [] ∧ KeysDistinct ks ∧ ∀ e ∈ ks, e.1.pyEq e.1 = true

/-- All nodes are in order. -/
def Clean (t : Tree) : Prop := ∀ p u, t.sub p = some u → Local u

/-- No position has contradicting nodes. -/
def Agr (t u : Tree) : Prop := ∀ p a b, t.sub p = some a → u.sub p = some b → NodeEq a b

/-- Every position of the first is in the second, with an equal node. -/
def Bel (t u : Tree) : Prop := ∀ p a, t.sub p = some a → ∃ b, u.sub p = some b ∧ NodeEq a b

theorem Clean.node {t : Tree} (h : Clean t) : Local t := h [] t rfl
theorem Clean.field {fs : Fields} (h : Clean (.obj fs)) {k : Str} {t : Tree} (hk : Dict.get fs k = some t) : Clean t :=
  fun p u hu => h (.field k :: p) u (by simp [Tree.sub, hk, hu])
theorem Clean.item {ks : List (Val × Fields)} {rs : List Fields} (h : Clean (.tmp ks rs)) {v : Val} {fs : Fields} (hk : keyGet ks v = some fs) :
    Clean (.obj fs) :=
  fun p u hu => h (.item v :: p) u (by simp [Tree.sub, hk, hu])

theorem Agr.field {fs gs : Fields} (h : Agr (.obj fs) (.obj gs)) {k : Str} {t u : Tree} (hk : Dict.get fs k = some t)
    (hg : Dict.get gs k = some u) : Agr t u :=
  fun p a b ha hb => h (.field k :: p) a b (by simp [Tree.sub, hk, ha]) (by simp [Tree.sub, hg, hb])
theorem Agr.item {ks bk : List (Val × Fields)} {rs br : List Fields} (h : Agr (.tmp ks rs) (.tmp bk br)) {v : Val} {fs gs : Fields}
    (hk : keyGet ks v = some fs) (hg : keyGet bk v = some gs) : Agr (.obj fs) (.obj gs) :=
  fun p a b ha hb => h (.item v :: p) a b (by simp [Tree.sub, hk, ha]) (by simp [Tree.sub, hg, hb])
theorem Agr.symm {t u : Tree} (h : Agr t u) : Agr u t := fun p a b ha hb => (h p b a hb ha).symm
theorem Agr.node {t u : Tree} (h : Agr t u) : NodeEq t u := h [] t u rfl rfl

theorem nodeEq_refl_of_local {t : Tree} (h : Local t) : NodeEq t t := by
  cases t <;> simp_all [NodeEq, Local]

theorem bel_refl {t : Tree} (h : Clean t) : Bel t t := fun p a ha => ⟨a, ha, nodeEq_refl_of_local (h p a ha)⟩
theorem Bel.trans {t u v : Tree} (h : Bel t u) (h' : Bel u v) : Bel t v := by
  intro p a ha
  obtain ⟨b, hb, e⟩ := h p a ha
  obtain ⟨c, hc, e'⟩ := h' p b hb
  exact ⟨c, hc, e.trans e'⟩

/-- Trees inside a common tree do not contradict each other. -/
theorem agr_of_bel {t u v : Tree} (h : Bel t v) (h' : Bel u v) : Agr t u := by
  intro p a b ha hb
  obtain ⟨c, hc, e⟩ := h p a ha
  obtain ⟨d, hd, e'⟩ := h' p b hb
  rw [hc] at hd; cases hd
  exact e.trans e'.symm

theorem mergeTree_kind (sheet key : Str) {v b : Tree} (h : NodeEq v b) (hv : Local v) :
    NodeEq (mergeTree sheet key v b).1 b ∧ NodeEq v (mergeTree sheet key v b).1 := by
  cases v with
  | cell c =>
    cases b with
    | cell d =>
      obtain ⟨b', e1, e2, _⟩ := mergeTree_cell sheet key (.cell c) d
      simp only [NodeEq] at h
      rw [e1]; simp only [NodeEq, e2]
      exact ⟨Val.pyEq_right h, h⟩
    | obj fs => exact absurd h id
    | tmp k r => exact absurd h id
  | obj fs =>
    cases b with
    | obj gs => simp [mergeTree, NodeEq]
    | cell d => exact absurd h id
    | tmp k r => exact absurd h id
  | tmp ks rs =>
    cases b with
    | tmp bk br => simp [mergeTree, NodeEq]
    | cell d => exact absurd h id
    | obj gs => exact absurd h id

theorem merge_sub (sheet : Str) (p : List PKey) : ∀ (key : Str) (v b : Tree), Clean v → Agr v b →
    ∃ key', (mergeTree sheet key v b).1.sub p = mergedAt sheet key' (v.sub p) (b.sub p) := by
  induction p with
  | nil => intro key v b _ _; exact ⟨key, rfl⟩
  | cons s p ih =>
    intro key v b hv ha
    have hn := ha.node
    cases v with
    | cell c =>
      cases b with
      | cell d =>
        obtain ⟨b', e1, _⟩ := mergeTree_cell sheet key (.cell c) d
        exact ⟨key, by rw [e1]; cases s <;> simp [Tree.sub, mergedAt]⟩
      | obj gs => exact absurd hn id
      | tmp k r => exact absurd hn id
    | obj fs =>
      cases b with
      | cell d => exact absurd hn id
      | tmp k r => exact absurd hn id
      | obj gs =>
        cases s with
        | item v => exact ⟨key, by simp [mergeTree, Tree.sub, mergedAt]⟩
        | field k =>
          simp only [mergeTree, Tree.sub]
          rw [mergeFields_get _ _ hv.node]
          cases hf : Dict.get fs k with
          | none => exact ⟨key, by simp [mergedAt]⟩
          | some t =>
            cases hg : Dict.get gs k with
            | none => exact ⟨key, by simp only [mergedAt, Option.bind_some, Option.bind_none]; cases t.sub p <;> rfl⟩
            | some u =>
              simp only [mergedAt, Option.bind_some]
              exact ih k t u (hv.field hf) (ha.field hf hg)
    | tmp ks rs =>
      cases b with
      | cell d => exact absurd hn id
      | obj gs => exact absurd hn id
      | tmp bk br =>
        cases s with
        | field k => exact ⟨key, by simp [mergeTree, Tree.sub, mergedAt]⟩
        | item v =>
          simp only [mergeTree, Tree.sub]
          rw [mergeKeyed_get _ _ hv.node.2.1]
          cases hf : keyGet ks v with
          | none => exact ⟨key, by simp [mergedItem, mergedAt]⟩
          | some fs =>
            cases hg : keyGet bk v with
            | none => exact ⟨key, by simp only [mergedItem, mergedAt, Option.bind_some, Option.bind_none]; cases Tree.sub p (.obj fs) <;> rfl⟩
            | some gs =>
              simp only [mergedItem, Option.bind_some]
              have := ih [] (.obj fs) (.obj gs) (hv.item hf) (ha.item hf hg)
              simpa [mergeTree] using this

theorem merge_nowarn (sheet : Str) (v : Tree) : ∀ (key : Str) (b : Tree), Clean v → Agr v b → (mergeTree sheet key v b).2 = [] := by
  have fields : ∀ fs : Fields, (∀ e ∈ fs, ∀ (key : Str) (b : Tree), Clean e.2 → Agr e.2 b → (mergeTree sheet key e.2 b).2 = []) →
      ∀ gs : Fields, Clean (.obj fs) → Agr (.obj fs) (.obj gs) → (mergeFields sheet fs gs).2 = [] := by
    intro fs ih gs hg ha
    rw [List.eq_nil_iff_forall_not_mem]
    intro w hw
    obtain ⟨k, t, u, h1, h2, h3⟩ := (mergeFields_warn sheet fs hg.node gs w).1 hw
    rw [ih (k, t) (Dict.get_eq_some_mem h1) k u (hg.field h1) (ha.field h1 h2)] at h3
    simp at h3
  induction v using Tree.ind with
  | cell c =>
    intro key b hg ha
    have hn := ha.node
    cases b with
    | cell d =>
      obtain ⟨h1, h2⟩ := hg.node
      simp only [NodeEq] at hn
      simp only [mergeTree]
      unfold mergeCell
      split
      · next g he => exact absurd he (h2 g)
      · rename_i h _; cases h; simp [Val.pyEq_symm hn]
      · rename_i h; exact absurd rfl (h d)
    | obj gs => exact absurd hn id
    | tmp k r => exact absurd hn id
  | obj fs ih =>
    intro key b hg ha
    have hn := ha.node
    cases b with
    | cell d => exact absurd hn id
    | tmp k r => exact absurd hn id
    | obj gs => simp only [mergeTree]; exact fields fs ih gs hg ha
  | tmp ks rs ih _ =>
    intro key b hg ha
    have hn := ha.node
    cases b with
    | cell d => exact absurd hn id
    | obj gs => exact absurd hn id
    | tmp bk br =>
      simp only [mergeTree]
      rw [List.eq_nil_iff_forall_not_mem]
      intro w hw
      obtain ⟨k, fs, gs, h1, h2, h3⟩ := (mergeKeyed_warn sheet ks hg.node.2.1 bk w).1 hw
      obtain ⟨k', hm, _⟩ := keyGet_some_mem h1
      rw [fields fs (ih (k', fs) hm) gs (hg.item h1) (ha.item h1 h2)] at h3
      simp at h3

/-! Consequences. -/

theorem merge_bel_right {sheet key : Str} {v b : Tree} (hv : Clean v) (hb : Clean b) (ha : Agr v b) : Bel b (mergeTree sheet key v b).1 := by
  intro p c hc
  obtain ⟨k, e⟩ := merge_sub sheet p key v b hv ha
  rw [hc] at e
  cases hp : v.sub p with
  | none => rw [hp] at e; exact ⟨c, e, nodeEq_refl_of_local (hb p c hc)⟩
  | some a => rw [hp] at e; exact ⟨_, e, (mergeTree_kind sheet k (ha p a c hp hc) (hv p a hp)).1.symm⟩

theorem merge_bel_left {sheet key : Str} {v b : Tree} (hv : Clean v) (ha : Agr v b) : Bel v (mergeTree sheet key v b).1 := by
  intro p a hp
  obtain ⟨k, e⟩ := merge_sub sheet p key v b hv ha
  rw [hp] at e
  cases hc : b.sub p with
  | none => rw [hc] at e; exact ⟨a, e, nodeEq_refl_of_local (hv p a hp)⟩
  | some c => rw [hc] at e; exact ⟨_, e, (mergeTree_kind sheet k (ha p a c hp hc) (hv p a hp)).2⟩

/-- Every node of the result comes from one of both. -/
theorem merge_from {sheet key : Str} {v b : Tree} (hv : Clean v) (hb : Clean b) (ha : Agr v b) {p : List PKey} {u : Tree}
    (h : (mergeTree sheet key v b).1.sub p = some u) :
    (∃ a, v.sub p = some a ∧ NodeEq a u) ∨ ∃ c, b.sub p = some c ∧ NodeEq c u := by
  obtain ⟨k, e⟩ := merge_sub sheet p key v b hv ha
  rw [h] at e
  cases hc : b.sub p with
  | some c => 
    obtain ⟨u', h1, h2⟩ := merge_bel_right (sheet := sheet) (key := key) hv hb ha p c hc
    rw [h] at h1; cases h1
    exact .inr ⟨c, rfl, h2⟩
  | none =>
    cases hp : v.sub p with
    | some a =>
      obtain ⟨u', h1, h2⟩ := merge_bel_left (sheet := sheet) (key := key) hv ha p a hp
      rw [h] at h1; cases h1
      exact .inl ⟨a, rfl, h2⟩
    | none => rw [hc, hp] at e; simp [mergedAt] at e

theorem merge_bel {sheet key : Str} {v b u : Tree} (hv : Clean v) (hb : Clean b) (ha : Agr v b) (h1 : Bel v u) (h2 : Bel b u) :
    Bel (mergeTree sheet key v b).1 u := by
  intro p x hx
  rcases merge_from hv hb ha hx with ⟨a, h, e⟩ | ⟨a, h, e⟩
  · obtain ⟨y, hy, e'⟩ := h1 p a h; exact ⟨y, hy, e.symm.trans e'⟩
  · obtain ⟨y, hy, e'⟩ := h2 p a h; exact ⟨y, hy, e.symm.trans e'⟩

theorem merge_agr {sheet key : Str} {v b u : Tree} (hv : Clean v) (hb : Clean b) (ha : Agr v b) (h1 : Agr u v) (h2 : Agr u b) :
    Agr u (mergeTree sheet key v b).1 := by
  intro p x y hx hy
  rcases merge_from hv hb ha hy with ⟨a, h, e⟩ | ⟨a, h, e⟩
  · exact (h1 p x a hx h).trans e
  · exact (h2 p x a hx h).trans e

theorem mergeFields_nodup (sheet : Str) (fs base : Fields) (h : (Dict.keys base).Nodup) : (Dict.keys (mergeFields sheet fs base).1).Nodup := by
  induction fs generalizing base with
  | nil => simpa [mergeFields] using h
  | cons e r ih =>
    obtain ⟨k, t⟩ := e
    simp only [mergeFields]
    split
    · exact ih _ (Dict.nodup_keys_set _ _ h)
    · exact ih _ (Dict.nodup_keys_set _ _ h)

theorem mergeKeyed_local (sheet : Str) (ks bk : List (Val × Fields)) (h1 : ∀ e ∈ ks, e.1.pyEq e.1 = true) (h : KeysDistinct bk) 
    (h2 : ∀ e ∈ bk, e.1.pyEq e.1 = true) :
    KeysDistinct (mergeKeyed sheet ks bk).1 ∧ ∀ e ∈ (mergeKeyed sheet ks bk).1, e.1.pyEq e.1 = true := by
  induction ks generalizing bk with
  | nil => simp only [mergeKeyed]; exact ⟨h, h2⟩
  | cons e r ih =>
    obtain ⟨k, fs⟩ := e
    have hk : ∀ x, ∀ e ∈ keySet bk k x, e.1.pyEq e.1 = true := by
      intro x e he
      rcases keySet_fst_mem he with h | ⟨e', he', h⟩
      · rw [h]; exact h1 (k, fs) (by simp)
      · rw [← h]; exact h2 e' he'
    simp only [mergeKeyed]
    split
    · exact ih _ (fun e he => h1 e (by simp [he])) (keysDistinct_keySet h _ _) (hk _)
    · exact ih _ (fun e he => h1 e (by simp [he])) (keysDistinct_keySet h _ _) (hk _)

theorem merge_good {sheet key : Str} {v b : Tree} (hv : Clean v) (hb : Clean b) (ha : Agr v b) : Clean (mergeTree sheet key v b).1 := by
  intro p u hu
  obtain ⟨k, e⟩ := merge_sub sheet p key v b hv ha
  rw [hu] at e
  cases hp : v.sub p with
  | none => rw [hp] at e; exact hb p u e.symm
  | some a =>
    cases hc : b.sub p with
    | none => rw [hp, hc] at e; simp only [mergedAt, Option.some.injEq] at e; rw [e]; exact hv p a hp
    | some c =>
      rw [hp, hc] at e; simp only [mergedAt, Option.some.injEq] at e
      have hn := ha p a c hp hc
      have la := hv p a hp
      have lc := hb p c hc
      cases c with
      | cell d =>
        obtain ⟨b', e1, e2, _⟩ := mergeTree_cell sheet k a d
        rw [e, e1]
        simpa [Local, e2] using lc
      | obj gs =>
        cases a with
        | obj fs => rw [e]; simp only [mergeTree]; exact mergeFields_nodup _ _ _ lc
        | cell d => exact absurd hn id
        | tmp k r => exact absurd hn id
      | tmp bk br =>
        cases a with
        | tmp ks rs =>
          rw [e]; simp only [mergeTree]
          obtain ⟨l1, l2, l3⟩ := la
          obtain ⟨c1, c2, c3⟩ := lc
          obtain ⟨m1, m2⟩ := mergeKeyed_local sheet ks bk l3 c2 c3
          exact ⟨by rw [l1, c1]; rfl, m1, m2⟩
        | cell d => exact absurd hn id
        | obj gs => exact absurd hn id

/-! ### Folding -/

/-- Merging trees one after the other into `acc`. -/
def mergeAllInto : List (Str × Tree) → Tree → Tree × List Warn
  | [], acc => (acc, [])
  | (sheet, x) :: r, acc =>
    ((mergeAllInto r (mergeTree sheet [] x acc).1).1, (mergeTree sheet [] x acc).2 ++ (mergeAllInto r (mergeTree sheet [] x acc).1).2)

theorem mergeAll_spec (xs : List (Str × Tree)) (acc : Tree) (hx : ∀ x ∈ xs, Clean x.2) (hxx : ∀ x ∈ xs, ∀ y ∈ xs, Agr x.2 y.2)
    (ha : Clean acc) (hxa : ∀ x ∈ xs, Agr x.2 acc) :
    (mergeAllInto xs acc).2 = [] ∧ Clean (mergeAllInto xs acc).1 ∧ Bel acc (mergeAllInto xs acc).1 ∧
    (∀ x ∈ xs, Bel x.2 (mergeAllInto xs acc).1) ∧ ∀ u, Bel acc u → (∀ x ∈ xs, Bel x.2 u) → Bel (mergeAllInto xs acc).1 u := by
  induction xs generalizing acc with
  | nil => exact ⟨rfl, ha, bel_refl ha, by simp, fun u h _ => h⟩
  | cons e r ih =>
    obtain ⟨sheet, x⟩ := e
    have gx := hx (sheet, x) (by simp)
    have ax := hxa (sheet, x) (by simp)
    obtain ⟨e1, e2, e3, e4, e5⟩ := ih (mergeTree sheet [] x acc).1 (fun y hy => hx y (by simp [hy]))
      (fun y hy z hz => hxx y (by simp [hy]) z (by simp [hz])) (merge_good gx ha ax)
      (fun y hy => merge_agr gx ha ax (hxx y (by simp [hy]) (sheet, x) (by simp)) (hxa y (by simp [hy])))
    refine ⟨?_, e2, (merge_bel_right gx ha ax).trans e3, fun y hy => ?_, fun u h1 h2 => ?_⟩
    · simp only [mergeAllInto, e1, merge_nowarn sheet x [] acc gx ax, List.append_nil]
    · rcases List.mem_cons.1 hy with rfl | hy
      · exact (merge_bel_left gx ax).trans e3
      · exact e4 y hy
    · exact e5 u (merge_bel gx ha ax (h2 (sheet, x) (by simp)) h1) (fun y hy => h2 y (by simp [hy]))

end Verif
