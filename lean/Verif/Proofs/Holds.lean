import Verif.Spec.Holds
import Verif.Proofs.SpreadRun
/-! What the objects of a run hold, from the tree of the run. -/
namespace Verif
open Spec

/-! ### Every node comes from a row -/

theorem mergeAll_from (xs : List (Str × Tree)) (acc : Tree) (hx : ∀ x ∈ xs, Clean x.2) (hxx : ∀ x ∈ xs, ∀ y ∈ xs, Agr x.2 y.2)
    (ha : Clean acc) (hxa : ∀ x ∈ xs, Agr x.2 acc) (p : List PKey) (u : Tree) (h : (mergeAllInto xs acc).1.sub p = some u) :
    (∃ a, acc.sub p = some a ∧ NodeEq a u) ∨ ∃ x ∈ xs, ∃ a, x.2.sub p = some a ∧ NodeEq a u := by
  induction xs generalizing acc with
  | nil =>
    simp only [mergeAllInto] at h
    exact .inl ⟨u, h, nodeEq_refl_of_local (ha p u h)⟩
  | cons e r ih =>
    obtain ⟨sheet, x⟩ := e
    have gx := hx (sheet, x) (by simp)
    have ax := hxa (sheet, x) (by simp)
    simp only [mergeAllInto] at h
    rcases ih (mergeTree sheet [] x acc).1 (fun y hy => hx y (by simp [hy]))
      (fun y hy z hz => hxx y (by simp [hy]) z (by simp [hz])) (merge_good gx ha ax)
      (fun y hy => merge_agr gx ha ax (hxx y (by simp [hy]) (sheet, x) (by simp)) (hxa y (by simp [hy]))) h with ⟨a, h1, h2⟩ | ⟨y, hy, a, h1, h2⟩
    · rcases merge_from gx ha ax h1 with ⟨b, h3, h4⟩ | ⟨b, h3, h4⟩
      · exact .inr ⟨_, by simp, b, h3, h4.trans h2⟩
      · exact .inl ⟨b, h3, h4.trans h2⟩
    · exact .inr ⟨y, by simp [hy], a, h1, h2⟩

theorem run_from {cfg : UnCfg} (rows : List Row) (hid : ∀ x ∈ rows, Filed cfg x) (hg : ∀ x ∈ rows, Clean (encR cfg x).2)
    (ha : ∀ x ∈ rows, ∀ y ∈ rows, Agr (encR cfg x).2 (encR cfg y).2) {gs : Groups} (hgs : foldRows cfg rows [] = .ok (gs, [])) (p : List PKey) (u : Tree)
    (h : (enc gs).sub p = some u) : p = [] ∨ ∃ x ∈ rows, ∃ a, (encR cfg x).2.sub p = some a ∧ NodeEq a u := by
  obtain ⟨gs', e1, e2⟩ := foldRows_enc rows hid []
  rw [hgs] at e1
  simp only [Except.ok.injEq, Prod.mk.injEq] at e1
  obtain ⟨rfl, -⟩ := e1
  have hempty : ∀ p u, (enc []).sub p = some u → p = [] ∧ u = .tmp [] [] := by
    intro p u hu
    cases p with
    | nil => simp only [Tree.sub, Option.some.injEq] at hu; exact ⟨rfl, hu.symm⟩
    | cons s p => cases s <;> simp [enc, Tree.sub] at hu
  have good0 : Clean (enc []) := by
    intro p u hu
    obtain ⟨-, rfl⟩ := hempty p u hu
    simp [Local, KeysDistinct]
  have hmem : ∀ y ∈ rows.map (encR cfg), ∃ x ∈ rows, encR cfg x = y := fun y hy => List.mem_map.1 hy
  rw [e2] at h
  rcases mergeAll_from (rows.map (encR cfg)) (enc [])
    (fun y hy => by obtain ⟨x, hx, rfl⟩ := hmem y hy; exact hg x hx)
    (fun y hy z hz => by
      obtain ⟨x, hx, rfl⟩ := hmem y hy
      obtain ⟨x', hx', rfl⟩ := hmem z hz
      exact ha x hx x' hx') good0
    (fun y hy p a b h1 h2 => by
      obtain ⟨x, hx, rfl⟩ := hmem y hy
      obtain ⟨rfl, rfl⟩ := hempty p b h2
      simp only [Tree.sub, Option.some.injEq] at h1
      subst h1
      simp [encR, encRow, NodeEq]) p u h with ⟨a, h1, _⟩ | ⟨y, hy, a, h1, h2⟩
  · exact .inl (hempty p a h1).1
  · obtain ⟨x, hx, rfl⟩ := hmem y hy
    exact .inr ⟨x, hx, a, h1, h2⟩

/-! ### The run, with all its nodes -/

/-- The tree of a run says what is said. -/
structure RunSays (cfg : UnCfg) (m : Str) (sheets : List SheetIn) (gs : Groups) : Prop where
  clean : Clean (enc gs)
  complete : ∀ x, Said cfg m sheets x → ∃ c, (enc gs).sub (full x) = some (.cell c) ∧ c.value.pyEq x.value = true
  sound : ∀ p c, (enc gs).sub p = some (.cell c) → ∃ x, Said cfg m sheets x ∧ SamePos p (full x) ∧ c.value.pyEq x.value = true
  leafy : ∀ p u, p ≠ [] → (enc gs).sub p = some u → ∃ q c, u.sub q = some (.cell c)

theorem run_saysAll {cfg : UnCfg} (hx : cfg.row.xml = false) {m : Str} (hm : cfg.idName = some m) (sheets : List SheetIn)
    (h : ∀ r ∈ rowsIn sheets, NamesAll cfg m r.line) (hag : ∀ x y, Said cfg m sheets x → Said cfg m sheets y → x.Agree y) :
    ∃ gs w, doUnflatten cfg sheets = .ok (groupsToList gs, w) ∧ RunSays cfg m sheets gs := by
  obtain ⟨rows, e1, e2, e3⟩ := run_says hx hm sheets h
  have hagr : ∀ x ∈ rows, ∀ y ∈ rows, Agr (encR cfg x).2 (encR cfg y).2 := by
    intro x hxm y hym
    obtain ⟨r, hr, hrs, _⟩ := e2 x hxm
    obtain ⟨r', hr', hrs', _⟩ := e2 y hym
    refine agr_of_cells hrs.leafy hrs'.leafy ?_
    intro p q c d hp hq
    obtain ⟨f, f1, f2, f3⟩ := hrs.sound p c hp
    obtain ⟨g, g1, g2, g3⟩ := hrs'.sound q d hq
    have hfg := hag f g ⟨r, hr, f1⟩ ⟨r', hr', g1⟩
    refine ⟨⟨_, f2⟩, fitP_congr f2 g2 (fitP_full hfg), ?_⟩
    rintro rfl
    obtain ⟨s1, s2⟩ := of_samePos_full (SamePos.step (SamePos.flip f2) g2)
    rw [f3, g3]
    exact (hfg s1).2 s2
  have hfiled : ∀ x ∈ rows, Filed cfg x := fun x hx => by obtain ⟨_, _, h, _⟩ := e2 x hx; exact h.filed
  have hclean : ∀ x ∈ rows, Clean (encR cfg x).2 := fun x hx => by obtain ⟨_, _, h, _⟩ := e2 x hx; exact h.clean
  obtain ⟨gs, u1, u2, u3, -⟩ := run_union rows hfiled hclean hagr
  obtain ⟨w, hw, -⟩ := doUnflatten_of_rows e1 u1
  have hfrom := run_from rows hfiled hclean hagr u1
  refine ⟨gs, w, hw, u2, ?_, ?_, ?_⟩
  · rintro x ⟨r, hr, hx⟩
    obtain ⟨y, hy, hs⟩ := e3 r hr
    obtain ⟨c, c1, c2⟩ := hs.complete x hx
    obtain ⟨b, b1, b2⟩ := u3 y hy _ _ c1
    cases b with
    | cell d => exact ⟨d, b1, by rw [← c2]; exact Val.pyEq_symm b2⟩
    | obj _ => exact absurd b2 id
    | tmp _ _ => exact absurd b2 id
  · intro p c hp
    rcases hfrom p _ hp with rfl | ⟨x, hxm, a, h1, h2⟩
    · simp [enc, Tree.sub] at hp
    · cases a with
      | cell d =>
        obtain ⟨r, hr, hrs, _⟩ := e2 x hxm
        obtain ⟨f, f1, f2, f3⟩ := hrs.sound p d h1
        exact ⟨f, ⟨r, hr, f1⟩, f2, by rw [← f3]; exact Val.pyEq_symm h2⟩
      | obj _ => exact absurd h2 id
      | tmp _ _ => exact absurd h2 id
  · intro p u hne hp
    rcases hfrom p _ hp with rfl | ⟨x, hxm, a, h1, h2⟩
    · exact absurd rfl hne
    · obtain ⟨r, hr, hrs, _⟩ := e2 x hxm
      obtain ⟨q, c, hq⟩ := hrs.leafy p a h1
      have hpq : (encR cfg x).2.sub (p ++ q) = some (.cell c) := by rw [sub_append, h1]; exact hq
      obtain ⟨b, b1, b2⟩ := u3 x hxm _ _ hpq
      rw [sub_append, hp] at b1
      cases b with
      | cell d => exact ⟨q, d, b1⟩
      | obj _ => exact absurd b2 id
      | tmp _ _ => exact absurd b2 id

/-! ### The ids of items are said -/

theorem namedPos_split {m : Str} (a : Addr) : ∀ {f : Content} {A B : NamedPos} {k : Str} {v : Val}, namedPos m f a = some (A ++ (k, some v) :: B) →
    ∃ a1 i a2, a = a1 ++ (k, some i) :: a2 ∧ f (a1 ++ [(k, some i), (m, none)]) = some v ∧
      namedPos m f (a1 ++ [(k, some i), (m, none)]) = some (A ++ [(k, some v), (m, none)]) := by
  induction a with
  | nil => intro f A B k v h; simp only [namedPos, Option.some.injEq] at h; cases A <;> cases h
  | cons s a ih =>
    intro f A B k v h
    obtain ⟨k', ix⟩ := s
    cases ix with
    | none =>
      simp only [namedPos] at h
      obtain ⟨Q, hQ, hQe⟩ := Option.map_eq_some_iff.1 h
      cases A with
      | nil => cases hQe
      | cons s' A =>
        simp only [List.cons_append, List.cons.injEq] at hQe
        obtain ⟨rfl, rfl⟩ := hQe
        obtain ⟨a1, i, a2, h1, h2, h3⟩ := ih hQ
        exact ⟨(k', none) :: a1, i, a2, by rw [h1]; rfl, h2, by simp [namedPos, h3]⟩
    | some i =>
      simp only [namedPos] at h
      cases hw : f [(k', some i), (m, none)] with
      | none => rw [hw] at h; cases h
      | some w =>
        rw [hw] at h
        obtain ⟨Q, hQ, hQe⟩ := Option.map_eq_some_iff.1 h
        cases A with
        | nil =>
          simp only [List.nil_append, List.cons.injEq, Prod.mk.injEq, Option.some.injEq] at hQe
          obtain ⟨⟨rfl, rfl⟩, rfl⟩ := hQe
          exact ⟨[], i, a, rfl, hw, by simp [namedPos, hw]⟩
        | cons s' A =>
          simp only [List.cons_append, List.cons.injEq] at hQe
          obtain ⟨rfl, rfl⟩ := hQe
          obtain ⟨a1, i', a2, h1, h2, h3⟩ := ih hQ
          exact ⟨(k', some i) :: a1, i', a2, by rw [h1]; rfl, h2, by simp [namedPos, h3, hw]⟩

/-- With what is said about an item, its id is said. -/
theorem said_item {cfg : UnCfg} {m : Str} {sheets : List SheetIn} (h : ∀ r ∈ rowsIn sheets, NamesAll cfg m r.line) {x : Fact} (hx : Said cfg m sheets x)
    {A B : NamedPos} {k : Str} {v : Val} (hp : x.pos = A ++ (k, some v) :: B) :
    Said cfg m sheets ⟨x.root, x.id, A ++ [(k, some v), (m, none)], v⟩ ∧ v.hashable = true := by
  obtain ⟨r, hr, h1, h2, a, h3, h4⟩ := hx
  rw [hp] at h4
  obtain ⟨a1, i, a2, e1, e2, e3⟩ := namedPos_split a h4
  refine ⟨⟨r, hr, h1, h2, _, e2, e3⟩, ?_⟩
  rw [e1] at h3
  obtain ⟨w, w1, w2⟩ := (h r hr).items _ _ _ _ _ h3
  rw [e2] at w1
  cases w1
  exact w2

/-- With anything said about an object, its id is said. -/
theorem said_id {cfg : UnCfg} {m : Str} {sheets : List SheetIn} (h : ∀ r ∈ rowsIn sheets, NamesAll cfg m r.line) {x : Fact} (hx : Said cfg m sheets x) :
    Said cfg m sheets ⟨x.root, x.id, [(m, none)], x.id⟩ ∧ x.id.hashable = true := by
  obtain ⟨r, hr, h1, h2, a, h3, h4⟩ := hx
  refine ⟨⟨r, hr, h1, h2, _, h2, rfl⟩, ?_⟩
  obtain ⟨v, v1, v2⟩ := (h r hr).id
  rw [h2] at v1
  cases v1
  exact v2

theorem samePos_append {a b c d : List PKey} (h : SamePos a b) (h' : SamePos c d) : SamePos (a ++ c) (b ++ d) := by
  induction h with
  | nil => exact h'
  | cons h1 _ ih => exact .cons h1 ih

theorem pk_append (P Q : NamedPos) : pk (P ++ Q) = pk P ++ pk Q := by
  induction P with
  | nil => rfl
  | cons s P ih => obtain ⟨k, ix⟩ := s; cases ix <;> simp [pk, ih]

/-- A position through an item. -/
theorem pk_item {P : NamedPos} : ∀ {p q : List PKey} {v : Val}, SamePos (p ++ .item v :: q) (pk P) →
    ∃ A k w B, P = A ++ (k, some w) :: B ∧ SamePos p (pk A ++ [.field k]) ∧ v.pyEq w = true := by
  induction P with
  | nil => intro p q v h; cases p <;> cases h
  | cons s P ih =>
    intro p q v h
    obtain ⟨k, ix⟩ := s
    cases ix with
    | none =>
      simp only [pk] at h
      cases p with
      | nil => cases h with | cons h _ => exact absurd h id
      | cons t p =>
        cases h with
        | cons h1 h2 =>
          obtain ⟨A, k', w, B, rfl, e2, e3⟩ := ih h2
          exact ⟨(k, none) :: A, k', w, B, rfl, .cons h1 e2, e3⟩
    | some w =>
      simp only [pk] at h
      cases p with
      | nil => cases h with | cons h _ => exact absurd h id
      | cons t p =>
        cases h with
        | cons h1 h2 =>
          cases p with
          | nil =>
            cases h2 with
            | cons h3 h4 => exact ⟨[], k, w, P, rfl, .cons h1 .nil, h3⟩
          | cons t' p =>
            cases h2 with
            | cons h3 h4 =>
              obtain ⟨A, k', w', B, rfl, e2, e3⟩ := ih h4
              exact ⟨(k, some w) :: A, k', w', B, rfl, .cons h1 (.cons h3 e2), e3⟩

/-- Items have their ids. -/
def IdsIn (m : Str) (t : Tree) : Prop := ∀ p v u, t.sub (p ++ [.item v]) = some u →
  ∃ c a, u.sub [.field m] = some (.cell c) ∧ c.value = .atom a ∧ (Val.atom a).pyEq v = true

theorem atom_of_eq {v w : Val} (h : v.pyEq w = true) (hw : w.hashable = true) : ∃ a, v = .atom a := by
  cases w with
  | atom b =>
    cases v with
    | atom a => exact ⟨a, rfl⟩
    | arr l => simp only [Val.pyEq, Val.canon] at h; cases h1 : l.mapM Atom.canon <;> cases h2 : b.canon <;> simp [h1, h2] at h
    | arr2 l => simp only [Val.pyEq, Val.canon] at h; cases h1 : l.mapM (fun (r : List Atom) => r.mapM Atom.canon) <;> cases h2 : b.canon <;> simp [h1, h2] at h
    | geo g => simp [Val.pyEq, Val.canon] at h
  | arr _ => cases hw
  | arr2 _ => cases hw
  | geo _ => cases hw

/-- One object of the run. -/
structure ObjSays (cfg : UnCfg) (m : Str) (sheets : List SheetIn) (root : Atom) (id : Val) (fs : Fields) : Prop where
  clean : Clean (.obj fs)
  leafy : Leafy (.obj fs)
  ids : IdsIn m (.obj fs)
  named : ∃ c a, Dict.get fs m = some (.cell c) ∧ c.value = .atom a ∧ (Val.atom a).pyEq id = true
  complete : ∀ x, Said cfg m sheets x → atomEq x.root root = true → x.id.pyEq id = true →
    ∃ c, Tree.sub (pk x.pos) (.obj fs) = some (.cell c) ∧ c.value.pyEq x.value = true
  sound : ∀ p c, Tree.sub p (.obj fs) = some (.cell c) →
    ∃ x, Said cfg m sheets x ∧ atomEq x.root root = true ∧ x.id.pyEq id = true ∧ SamePos p (pk x.pos) ∧ c.value.pyEq x.value = true

theorem obj_says {cfg : UnCfg} {m : Str} {sheets : List SheetIn} (h : ∀ r ∈ rowsIn sheets, NamesAll cfg m r.line) {gs : Groups} (hr : RunSays cfg m sheets gs)
    {rv iv : Val} {fs : Fields} (hs : (enc gs).sub [.item rv, .field [], .item iv] = some (.obj fs)) :
    ∃ root, rv = .atom root ∧ ObjSays cfg m sheets root iv fs := by
  have down : ∀ p, (enc gs).sub (.item rv :: .field [] :: .item iv :: p) = Tree.sub p (.obj fs) := by
    intro p
    rw [show (PKey.item rv :: .field [] :: .item iv :: p) = [.item rv, .field [], .item iv] ++ p from rfl, sub_append, hs]; rfl
  have sound : ∀ p c, Tree.sub p (.obj fs) = some (.cell c) →
      ∃ x, Said cfg m sheets x ∧ rv.pyEq (.atom x.root) = true ∧ iv.pyEq x.id = true ∧ SamePos p (pk x.pos) ∧ c.value.pyEq x.value = true := by
    intro p c hp
    rw [← down] at hp
    obtain ⟨x, x1, x2, x3⟩ := hr.sound _ _ hp
    cases x2 with
    | cons h1 x2 =>
      cases x2 with
      | cons _ x2 =>
        cases x2 with
        | cons h2 x2 => exact ⟨x, x1, h1, h2, x2, x3⟩
  have leafy : Leafy (.obj fs) := by
    intro p u hu
    rw [← down] at hu
    exact hr.leafy _ u (by simp) hu
  obtain ⟨q0, c0, hc0⟩ := leafy [] _ rfl
  obtain ⟨x0, y1, y2, y3, -, -⟩ := sound q0 c0 hc0
  have complete : ∀ x, Said cfg m sheets x → (Val.atom x.root).pyEq rv = true → x.id.pyEq iv = true →
      ∃ c, Tree.sub (pk x.pos) (.obj fs) = some (.cell c) ∧ c.value.pyEq x.value = true := by
    intro x hx h1 h2
    obtain ⟨c, c1, c2⟩ := hr.complete x hx
    refine ⟨c, ?_, c2⟩
    rw [← down, ← c1]
    unfold full
    simp only [enc, Tree.sub]
    rw [keyGet_congr h1]
    cases keyGet _ rv with
    | none => rfl
    | some gs1 =>
      simp only [Option.bind_some, Tree.sub]
      cases Dict.get gs1 [] with
      | none => rfl
      | some t =>
        simp only [Option.bind_some]
        cases t with
        | tmp ks rs => simp only [Tree.sub]; rw [keyGet_congr h2]
        | cell c => rfl
        | obj _ => rfl
  obtain ⟨ra, rfl⟩ := atom_of_eq y2 rfl
  refine ⟨ra, rfl, ?_, leafy, ?_, ?_, ?_, ?_⟩
  · intro p u hu
    rw [← down] at hu
    exact hr.clean _ u hu
  · intro p v u hu
    obtain ⟨q, c, hq⟩ := leafy _ u hu
    have hpq : Tree.sub (p ++ .item v :: q) (.obj fs) = some (.cell c) := by
      rw [show p ++ PKey.item v :: q = (p ++ [.item v]) ++ q by simp, sub_append, hu]; exact hq
    obtain ⟨x, x1, x2, x3, x4, -⟩ := sound _ _ hpq
    obtain ⟨A, k, w, B, e1, e2, e3⟩ := pk_item x4
    obtain ⟨z1, z2⟩ := said_item h x1 e1
    obtain ⟨d, d1, d2⟩ := complete _ z1 (Val.pyEq_symm x2) (Val.pyEq_symm x3)
    obtain ⟨a, ha⟩ := atom_of_eq d2 z2
    refine ⟨d, a, ?_, ha, ?_⟩
    · have hsame : SamePos (p ++ [.item v] ++ [.field m]) (pk (A ++ [(k, some w), (m, none)])) := by
        rw [pk_append]
        have := (samePos_append e2 (.cons e3 (.cons rfl .nil)) : SamePos (p ++ [.item v, .field m]) ((pk A ++ [.field k]) ++ [.item w, .field m]))
        simpa [pk] using this
      have := sub_same hsame (.obj fs)
      rw [sub_append, hu, d1] at this
      exact this
    · rw [← ha]; exact Val.pyEq_trans d2 (Val.pyEq_symm e3)
  · obtain ⟨z1, z2⟩ := said_id h y1
    obtain ⟨d, d1, d2⟩ := complete _ z1 (Val.pyEq_symm y2) (Val.pyEq_symm y3)
    obtain ⟨a, ha⟩ := atom_of_eq d2 z2
    refine ⟨d, a, ?_, ha, by rw [← ha]; exact Val.pyEq_trans d2 (Val.pyEq_symm y3)⟩
    simp only [pk, Tree.sub] at d1
    cases hg : Dict.get fs m with
    | none => rw [hg] at d1; cases d1
    | some t => rw [hg] at d1; simp only [Option.bind_some, Tree.sub] at d1; exact d1
  · intro x hx h1 h2
    exact complete x hx h1 h2
  · intro p c hp
    obtain ⟨x, x1, x2, x3, x4, x5⟩ := sound p c hp
    exact ⟨x, x1, Val.pyEq_symm x2, Val.pyEq_symm x3, x4, x5⟩

/-! ### The document of a tree -/

theorem toJson_plain {v : Val} (h : ∀ g, v ≠ .geo g) : ¬ Composite v.toJson := by
  cases v with
  | atom a => exact id
  | arr l => rintro ⟨gs, h⟩; simp [Val.toJson] at h
  | arr2 l => rintro ⟨gs, h⟩; simp [Val.toJson] at h
  | geo g => exact absurd rfl (h g)

theorem mem_jf {fs : Fields} {k : Str} {j : Json} : (k, j) ∈ jf fs ↔ ∃ t, (k, t) ∈ fs ∧ jv t = j := by
  simp only [jf, List.mem_map, Prod.mk.injEq]
  constructor
  · rintro ⟨⟨k', t⟩, h1, rfl, h2⟩; exact ⟨t, h1, h2⟩
  · rintro ⟨t, h1, h2⟩; exact ⟨(k, t), h1, rfl, h2⟩

theorem mem_jtd {ks : List (Val × Fields)} {gs : List (Str × Json)} : .obj gs ∈ jtd ks [] ↔ ∃ v fs, (v, fs) ∈ ks ∧ gs = jf fs := by
  simp only [jtd, List.map_nil, List.append_nil, List.mem_map, jobj, Json.obj.injEq]
  constructor
  · rintro ⟨⟨v, fs⟩, h1, h2⟩; exact ⟨v, fs, h1, h2.symm⟩
  · rintro ⟨v, fs, h1, h2⟩; exact ⟨(v, fs), h1, h2.symm⟩

/-- A part of an object in order. -/
structure Sound (m : Str) (t : Tree) : Prop where
  clean : Clean t
  leafy : Leafy t
  ids : IdsIn m t

theorem Sound.sub {m : Str} {t : Tree} (h : Sound m t) {p : List PKey} {u : Tree} (hp : t.sub p = some u) : Sound m u where
  clean q w hq := h.clean (p ++ q) w (by rw [sub_append, hp]; exact hq)
  leafy q w hq := h.leafy (p ++ q) w (by rw [sub_append, hp]; exact hq)
  ids q v w hq := h.ids (p ++ q) v w (by rw [List.append_assoc, sub_append, hp]; exact hq)

theorem Sound.field {m : Str} {fs : Fields} (h : Sound m (.obj fs)) {k : Str} {t : Tree} (hk : (k, t) ∈ fs) :
    Dict.get fs k = some t ∧ Sound m t := by
  have hg : Dict.get fs k = some t := Dict.get_of_mem h.clean.node hk
  exact ⟨hg, h.sub (p := [.field k]) (by simp [Tree.sub, hg])⟩

theorem Sound.item {m : Str} {ks : List (Val × Fields)} {rs : List Fields} (h : Sound m (.tmp ks rs)) {v : Val} {fs : Fields} (hk : (v, fs) ∈ ks) :
    (∀ w, v.pyEq w = true → keyGet ks w = some fs) ∧ Sound m (.obj fs) ∧
      ∃ c a, Dict.get fs m = some (.cell c) ∧ c.value = .atom a ∧ (Val.atom a).pyEq v = true := by
  have hl := h.clean.node
  have hg : ∀ w, v.pyEq w = true → keyGet ks w = some fs := fun w hw => keyGet_of_mem hl.2.1 hk hw
  have hs : Tree.sub [.item v] (.tmp ks rs) = some (.obj fs) := by simp [Tree.sub, hg v (hl.2.2 _ hk)]
  refine ⟨hg, h.sub hs, ?_⟩
  obtain ⟨c, a, h1, h2, h3⟩ := h.ids [] v _ hs
  refine ⟨c, a, ?_, h2, h3⟩
  simp only [Tree.sub] at h1
  cases hm : Dict.get fs m with
  | none => rw [hm] at h1; cases h1
  | some t => rw [hm] at h1; simp only [Option.bind_some, Tree.sub] at h1; exact h1

theorem Sound.ne {m : Str} {fs : Fields} (h : Sound m (.obj fs)) : fs ≠ [] := by
  rintro rfl
  obtain ⟨q, c, hq⟩ := h.leafy [] _ rfl
  cases q with
  | nil => simp [Tree.sub] at hq
  | cons s q => cases s <;> simp [Tree.sub] at hq

theorem Sound.some_item {m : Str} {ks : List (Val × Fields)} {rs : List Fields} (h : Sound m (.tmp ks rs)) : ks ≠ [] := by
  rintro rfl
  obtain ⟨q, c, hq⟩ := h.leafy [] _ rfl
  cases q with
  | nil => simp [Tree.sub] at hq
  | cons s q => cases s <;> simp [Tree.sub] at hq

theorem hasId_iff {m : Str} {fs : Fields} (h : Sound m (.obj fs)) {a : Atom} {c : Cell} (hg : Dict.get fs m = some (.cell c)) (hc : c.value = .atom a) (v : Val) :
    HasId m v (jf fs) ↔ (Val.atom a).pyEq v = true := by
  constructor
  · rintro ⟨b, h1, h2⟩
    obtain ⟨t, h3, h4⟩ := mem_jf.1 h1
    have := (h.field h3).1
    rw [hg] at this
    cases this
    rw [jv_cell, hc] at h4
    simp only [Val.toJson, Json.leaf.injEq] at h4
    rw [h4]; exact h2
  · intro h2
    exact ⟨a, mem_jf.2 ⟨_, Dict.get_eq_some_mem hg, by rw [jv_cell, hc]; rfl⟩, h2⟩

theorem sub_holds {m : Str} (P : NamedPos) : ∀ {fs : Fields} {c : Cell}, Sound m (.obj fs) → Tree.sub (pk P) (.obj fs) = some (.cell c) →
    HoldsAt m (jf fs) P c.value.toJson := by
  induction P with
  | nil => intro fs c _ h; simp [pk, Tree.sub] at h
  | cons s P ih =>
    intro fs c hG h
    obtain ⟨k, ix⟩ := s
    have hk : ∃ t, Dict.get fs k = some t := by
      cases ix <;> simp only [pk, Tree.sub] at h <;> cases hg : Dict.get fs k <;> simp_all
    obtain ⟨t, ht⟩ := hk
    have hm := Dict.get_eq_some_mem ht
    have hGt := (hG.field hm).2
    cases ix with
    | none =>
      simp only [pk, Tree.sub, ht, Option.bind_some] at h
      cases P with
      | nil =>
        simp only [pk, Tree.sub, Option.some.injEq] at h
        subst h
        exact .value (mem_jf.2 ⟨_, hm, jv_cell c⟩) (toJson_plain hGt.clean.node.2)
      | cons s P =>
        cases t with
        | obj gs => exact .field (mem_jf.2 ⟨_, hm, jv_obj gs⟩) (ih hGt h)
        | cell d => obtain ⟨k', ix⟩ := s; cases ix <;> simp [pk, Tree.sub] at h
        | tmp ks rs => obtain ⟨k', ix⟩ := s; cases ix <;> simp [pk, Tree.sub] at h
    | some v =>
      simp only [pk, Tree.sub, ht, Option.bind_some] at h
      cases t with
      | obj gs => simp [Tree.sub] at h
      | cell d => simp [Tree.sub] at h
      | tmp ks rs =>
        have hrs : rs = [] := hGt.clean.node.1
        subst hrs
        simp only [Tree.sub] at h
        cases hg : keyGet ks v with
        | none => rw [hg] at h; cases h
        | some gs =>
          rw [hg] at h
          simp only [Option.bind_some] at h
          obtain ⟨v', h1, h2⟩ := keyGet_some_mem hg
          obtain ⟨-, hGi, c', a, e1, e2, e3⟩ := hGt.item h1
          exact .item (mem_jf.2 ⟨_, hm, jv_tmp ks []⟩) (mem_jtd.2 ⟨v', gs, h1, rfl⟩)
            ((hasId_iff hGi e1 e2 v).2 (Val.pyEq_trans e3 h2)) (ih hGi h)

theorem holds_sub {m : Str} {js : List (Str × Json)} {P : NamedPos} {j : Json} (h : HoldsAt m js P j) :
    ∀ {fs : Fields}, js = jf fs → Sound m (.obj fs) → ∃ c, Tree.sub (pk P) (.obj fs) = some (.cell c) ∧ j = c.value.toJson := by
  induction h with
  | value hk hn =>
    rintro fs rfl hG
    obtain ⟨t, h1, h2⟩ := mem_jf.1 hk
    obtain ⟨h3, hGt⟩ := hG.field h1
    cases t with
    | cell c => exact ⟨c, by simp [pk, Tree.sub, h3], by rw [← h2, jv_cell]⟩
    | obj gs => rw [← h2, jv_obj] at hn; exact absurd trivial hn
    | tmp ks rs =>
      rw [← h2, jv_tmp] at hn
      have hrs : rs = [] := hGt.clean.node.1
      subst hrs
      obtain ⟨e, he⟩ := List.exists_mem_of_ne_nil _ hGt.some_item
      exact absurd ⟨_, mem_jtd.2 ⟨e.1, e.2, he, rfl⟩⟩ hn
  | field hk _ ih =>
    rintro fs rfl hG
    obtain ⟨t, h1, h2⟩ := mem_jf.1 hk
    obtain ⟨h3, hGt⟩ := hG.field h1
    cases t with
    | cell c =>
      rw [jv_cell] at h2
      exact absurd (by rw [h2]; trivial) (toJson_plain hGt.clean.node.2)
    | obj gs =>
      rw [jv_obj] at h2
      obtain ⟨c, c1, c2⟩ := ih (Json.obj.inj h2).symm hGt
      exact ⟨c, by simp [pk, Tree.sub, h3, c1], c2⟩
    | tmp ks rs => rw [jv_tmp] at h2; cases h2
  | item hk hm hid _ ih =>
    rintro fs rfl hG
    obtain ⟨t, h1, h2⟩ := mem_jf.1 hk
    obtain ⟨h3, hGt⟩ := hG.field h1
    cases t with
    | cell c =>
      rw [jv_cell] at h2
      exact absurd (by rw [h2]; exact ⟨_, hm⟩) (toJson_plain hGt.clean.node.2)
    | obj gs => rw [jv_obj] at h2; cases h2
    | tmp ks rs =>
      have hrs : rs = [] := hGt.clean.node.1
      subst hrs
      rw [jv_tmp] at h2
      rw [← Json.arr.inj h2] at hm
      obtain ⟨v', gs, e1, rfl⟩ := mem_jtd.1 hm
      obtain ⟨hg, hGi, c', a, e2, e3, e4⟩ := hGt.item e1
      obtain ⟨c, c1, c2⟩ := ih rfl hGi
      refine ⟨c, ?_, c2⟩
      have := hg _ (Val.pyEq_trans (Val.pyEq_symm e4) ((hasId_iff hGi e2 e3 _).1 hid))
      simp [pk, Tree.sub, h3, this, c1]

theorem jf_keys (fs : Fields) : (jf fs).map (·.1) = Dict.keys fs := by simp [jf, Dict.keys]

theorem tidy_fields {m : Str} {l : List (Str × Json)} (h : ∀ e ∈ l, Tidy m e.2) : TidyFields m l := by
  induction l with
  | nil => trivial
  | cons e r ih => exact ⟨h e (by simp), ih (fun e he => h e (by simp [he]))⟩

theorem tidy_items {m : Str} {ks : List (Val × Fields)} (h : ∀ e ∈ ks, (∃ v, HasId m v (jf e.2)) ∧ ((jf e.2).map (·.1)).Nodup ∧ TidyFields m (jf e.2)) :
    TidyItems m (jtd ks []) := by
  induction ks with
  | nil => trivial
  | cons e r ih =>
    have := ih (fun e he => h e (by simp [he]))
    obtain ⟨h1, h2, h3⟩ := h e (by simp)
    simp only [jtd, List.map_cons, List.map_nil, List.append_nil, jobj] at this ⊢
    exact ⟨h1, h2, h3, this⟩

theorem good_tidy {m : Str} (t : Tree) : Sound m t → Tidy m (jv t) := by
  refine Tree.ind (motive := fun t => Sound m t → Tidy m (jv t)) ?_ ?_ ?_ t
  · intro c h
    rw [jv_cell]
    have := toJson_plain h.clean.node.2
    cases hv : c.value.toJson with
    | leaf a => trivial
    | obj gs => rw [hv] at this; exact absurd trivial this
    | arr l => rw [hv] at this; exact .inl (fun gs hg => this ⟨gs, hg⟩)
  · intro fs ih h
    rw [jv_obj]
    refine ⟨?_, ?_, ?_⟩
    · have := h.ne; intro hj; apply this; simpa [jf] using hj
    · rw [jf_keys]; exact h.clean.node
    · apply tidy_fields
      intro e he
      obtain ⟨t, h1, h2⟩ := mem_jf.1 (show (e.1, e.2) ∈ jf fs from he)
      rw [← h2]
      exact ih (e.1, t) h1 (h.field h1).2
  · intro ks rs ihk _ h
    have hl := h.clean.node
    have hrs : rs = [] := hl.1
    subst hrs
    rw [jv_tmp]
    refine .inr ⟨?_, ?_, ?_⟩
    · have := h.some_item; intro hj; apply this; simpa [jtd] using hj
    · unfold OwnIds
      simp only [jtd, List.map_nil, List.append_nil]
      rw [List.pairwise_map]
      refine List.Pairwise.imp_of_mem ?_ hl.2.1
      intro a b ha hb hab fs gs v hfs hgs h1 h2
      simp only [jobj, Json.obj.injEq] at hfs hgs
      subst hfs hgs
      obtain ⟨-, g1, c1, a1, e1, e2, e3⟩ := h.item (show (a.1, a.2) ∈ ks from ha)
      obtain ⟨-, g2, c2, a2, f1, f2, f3⟩ := h.item (show (b.1, b.2) ∈ ks from hb)
      rw [hasId_iff g1 e1 e2] at h1
      rw [hasId_iff g2 f1 f2] at h2
      exact hab (Val.pyEq_trans (Val.pyEq_symm e3) (Val.pyEq_trans h1 (Val.pyEq_trans (Val.pyEq_symm h2) f3)))
    · apply tidy_items
      intro e he
      obtain ⟨-, g1, c1, a1, e1, e2, e3⟩ := h.item (show (e.1, e.2) ∈ ks from he)
      refine ⟨⟨e.1, (hasId_iff g1 e1 e2 _).2 e3⟩, by rw [jf_keys]; exact g1.clean.node, ?_⟩
      apply tidy_fields
      intro e' he'
      obtain ⟨t, h1, h2⟩ := mem_jf.1 (show (e'.1, e'.2) ∈ jf e.2 from he')
      rw [← h2]
      exact ihk e he (e'.1, t) h1 (g1.field h1).2

/-- The document of one object of the run. -/
theorem obj_isSaid {cfg : UnCfg} {m : Str} {sheets : List SheetIn} {root : Atom} {id : Val} {fs : Fields} (h : ObjSays cfg m sheets root id fs) :
    IsSaid cfg m sheets root id (jf fs) := by
  have hG : Sound m (.obj fs) := ⟨h.clean, h.leafy, h.ids⟩
  obtain ⟨c, a, e1, e2, e3⟩ := h.named
  refine ⟨(hasId_iff hG e1 e2 _).2 e3, ?_, ?_, ?_⟩
  · intro x h1 h2 h3
    obtain ⟨c, c1, c2⟩ := h.complete x h1 h2 h3
    exact ⟨_, sub_holds _ hG c1, _, rfl, c2⟩
  · intro p j hp
    obtain ⟨c, c1, rfl⟩ := holds_sub hp rfl hG
    obtain ⟨x, x1, x2, x3, x4, x5⟩ := h.sound _ _ c1
    exact ⟨x, x1, x2, x3, sameNamed_of_pk x4, _, rfl, x5⟩
  · rw [← jv_obj]; exact good_tidy _ hG

end Verif
