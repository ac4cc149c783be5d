import Verif.Props.Holds
/-! What an object holds determines it. -/
namespace Verif
open Spec

/-! ### Lists with the same members -/

theorem match_perm {α β : Type} {R : α → β → Prop} : ∀ (l : List α) (m : List β), (∀ x ∈ l, ∃ y ∈ m, R x y) → (∀ y ∈ m, ∃ x ∈ l, R x y) →
    l.Pairwise (fun x x' => ∀ y ∈ m, ¬ (R x y ∧ R x' y)) → m.Pairwise (fun y y' => ∀ x ∈ l, ¬ (R x y ∧ R x y')) → ∃ m', All₂ R l m' ∧ m'.Perm m := by
  intro l
  induction l with
  | nil =>
    intro m _ h2 _ _
    cases m with
    | nil => exact ⟨[], .nil, .refl _⟩
    | cons y r =>
      obtain ⟨x, hx, -⟩ := h2 y (by simp)
      cases hx
  | cons x l ih =>
    intro m h1 h2 h3 h4
    obtain ⟨y, hy, hxy⟩ := h1 x (by simp)
    obtain ⟨s, t, rfl⟩ := List.append_of_mem hy
    rw [List.pairwise_cons] at h3
    have hp : (s ++ y :: t).Perm (y :: (s ++ t)) := List.perm_middle
    have hmem : ∀ z, z ∈ s ++ t → z ∈ s ++ y :: t := fun z hz => hp.mem_iff.2 (List.mem_cons_of_mem _ hz)
    have h4' : (y :: (s ++ t)).Pairwise (fun y y' => ∀ z ∈ x :: l, ¬ (R z y ∧ R z y')) := h4.perm hp (fun h z hz hh => h z hz ⟨hh.2, hh.1⟩)
    rw [List.pairwise_cons] at h4'
    obtain ⟨m', q1, q2⟩ := ih (s ++ t)
      (by
        intro x' hx'
        obtain ⟨y', hy', hr⟩ := h1 x' (by simp [hx'])
        rcases List.mem_cons.1 (hp.mem_iff.1 hy') with rfl | hy'
        · exact absurd ⟨hxy, hr⟩ (h3.1 x' hx' _ hy)
        · exact ⟨y', hy', hr⟩)
      (by
        intro y' hy'
        obtain ⟨x', hx', hr⟩ := h2 y' (hmem y' hy')
        rcases List.mem_cons.1 hx' with rfl | hx'
        · exact absurd ⟨hxy, hr⟩ (h4'.1 y' hy' _ (by simp))
        · exact ⟨x', hx', hr⟩)
      (h3.2.imp (fun h z hz => h z (hmem z hz)))
      (h4'.2.imp (fun h z hz => h z (by simp [hz])))
    exact ⟨y :: m', .cons hxy q1, (q2.cons y).trans hp.symm⟩

/-! ### Tidy values -/

theorem tidyF_mem {m : Str} : ∀ {fs : List (Str × Json)}, TidyFields m fs → ∀ {k v}, (k, v) ∈ fs → Tidy m v := by
  intro fs
  induction fs with
  | nil => intro _ k v h; cases h
  | cons e r ih =>
    intro h k v hm
    obtain ⟨k', v'⟩ := e
    simp only [TidyFields] at h
    rcases List.mem_cons.1 hm with h1 | h1
    · simp only [Prod.mk.injEq] at h1; rw [h1.2]; exact h.1
    · exact ih h.2 h1

theorem tidyI_mem {m : Str} : ∀ {l : List Json}, TidyItems m l → ∀ x ∈ l, ∃ gs, x = .obj gs ∧ (∃ v, HasId m v gs) ∧ (gs.map (·.1)).Nodup ∧ TidyFields m gs := by
  intro l
  induction l with
  | nil => intro _ x h; cases h
  | cons e r ih =>
    intro h x hm
    cases e with
    | leaf a => simp only [TidyItems] at h
    | arr l => simp only [TidyItems] at h
    | obj gs =>
      simp only [TidyItems] at h
      rcases List.mem_cons.1 hm with rfl | h1
      · exact ⟨gs, rfl, h.1, h.2.1, h.2.2.1⟩
      · exact ih h.2.2.2 x h1

theorem tidy_array {m : Str} {l : List Json} (h : Tidy m (.arr l)) {gs : List (Str × Json)} (hg : .obj gs ∈ l) : OwnIds m l ∧ TidyItems m l := by
  simp only [Tidy] at h
  rcases h with h | h
  · exact absurd hg (h gs)
  · exact h.2

theorem nodup_fst {fs : List (Str × Json)} (h : (fs.map (·.1)).Nodup) {k : Str} {v w : Json} (h1 : (k, v) ∈ fs) (h2 : (k, w) ∈ fs) : v = w := by
  induction fs with
  | nil => cases h1
  | cons e r ih =>
    simp only [List.map_cons, List.nodup_cons] at h
    rcases List.mem_cons.1 h1 with h1 | h1 <;> rcases List.mem_cons.1 h2 with h2 | h2
    · rw [← h1] at h2; simp only [Prod.mk.injEq, true_and] at h2; exact h2.symm
    · exact absurd (List.mem_map.2 ⟨_, h2, by rw [← h1]⟩) h.1
    · exact absurd (List.mem_map.2 ⟨_, h1, by rw [← h2]⟩) h.1
    · exact ih h.2 h1 h2

theorem pairwise_either {α : Type} {R : α → α → Prop} {l : List α} (h : l.Pairwise R) {x y : α} (hx : x ∈ l) (hy : y ∈ l) : x = y ∨ R x y ∨ R y x := by
  induction l with
  | nil => cases hx
  | cons e r ih =>
    rw [List.pairwise_cons] at h
    rcases List.mem_cons.1 hx with h1 | h1 <;> rcases List.mem_cons.1 hy with h2 | h2
    · exact .inl (h1.trans h2.symm)
    · subst h1; exact .inr (.inl (h.1 _ h2))
    · subst h2; exact .inr (.inr (h.1 _ h1))
    · exact ih h.2 h1 h2

theorem hasId_congr {m : Str} {v w : Val} {fs : List (Str × Json)} (h : HasId m v fs) (hv : v.pyEq w = true) : HasId m w fs := by
  obtain ⟨a, h1, h2⟩ := h
  exact ⟨a, h1, Val.pyEq_trans h2 hv⟩

/-- The object has only one id. -/
theorem hasId_same {m : Str} {v w : Val} {fs : List (Str × Json)} (hd : (fs.map (·.1)).Nodup) (h : HasId m v fs) (h' : HasId m w fs) : v.pyEq w = true := by
  obtain ⟨a, h1, h2⟩ := h
  obtain ⟨b, h3, h4⟩ := h'
  have := nodup_fst hd h1 h3
  simp only [Json.leaf.injEq] at this
  subst this
  exact Val.pyEq_trans (Val.pyEq_symm h2) h4

theorem ownIds_same {m : Str} {l : List Json} (h : OwnIds m l) {fs gs : List (Str × Json)} {v : Val} (h1 : .obj fs ∈ l) (h2 : .obj gs ∈ l)
    (h3 : HasId m v fs) (h4 : HasId m v gs) : fs = gs := by
  rcases pairwise_either h h1 h2 with h | h | h
  · simpa using h
  · exact absurd h4 (h _ _ _ rfl rfl h3)
  · exact absurd h3 (h _ _ _ rfl rfl h4)

theorem holds_ne {m : Str} {fs : List (Str × Json)} {p : NamedPos} {j : Json} (h : HoldsAt m fs p j) : p ≠ [] := by
  cases h <;> simp

theorem holds_plain {m : Str} {fs : List (Str × Json)} {p : NamedPos} {j : Json} (h : HoldsAt m fs p j) : ¬ Composite j := by
  induction h with
  | value _ h => exact h
  | field _ _ ih => exact ih
  | item _ _ _ _ ih => exact ih

/-- Two values of one object do not contradict each other. -/
theorem holds_fit {m : Str} {fs : List (Str × Json)} {p : NamedPos} {j : Json} (h : HoldsAt m fs p j) : ∀ {q : NamedPos} {j' : Json}, (fs.map (·.1)).Nodup → TidyFields m fs →
    HoldsAt m fs q j' → FitNamed p q ∧ (SameNamed p q → j = j') := by
  induction h with
  | @value fs k j h1 h2 =>
    intro q j' hd ht h
    cases h with
    | @value _ k' _ h3 h4 =>
      refine ⟨fun _ => trivial, ?_⟩
      intro hs
      cases hs with
      | cons hs _ =>
        obtain ⟨rfl, -⟩ := hs
        exact nodup_fst hd h1 h3
    | @field _ k' gs p' _ h3 h4 =>
      have hk : k ≠ k' := by
        rintro rfl
        have := nodup_fst hd h1 h3
        subst this
        exact h2 trivial
      refine ⟨fun e => absurd e hk, ?_⟩
      intro hs
      cases hs with
      | cons hs _ => exact absurd hs.1 hk
    | @item _ k' l gs v p' _ h3 h4 h5 h6 =>
      have hk : k ≠ k' := by
        rintro rfl
        have := nodup_fst hd h1 h3
        subst this
        exact h2 ⟨_, h4⟩
      refine ⟨hk, ?_⟩
      intro hs
      cases hs with
      | cons hs _ => exact absurd hs.1 hk
  | @field fs k gs p j h1 h2 ih =>
    intro q j' hd ht h
    have htg := tidyF_mem ht h1
    simp only [Tidy] at htg
    cases h with
    | @value _ k' _ h3 h4 =>
      have hk : k ≠ k' := by
        rintro rfl
        have := nodup_fst hd h1 h3
        subst this
        exact h4 trivial
      refine ⟨fun e => absurd e hk, ?_⟩
      intro hs
      cases hs with
      | cons hs _ => exact absurd hs.1 hk
    | @field _ k' gs' p' _ h3 h4 =>
      refine ⟨?_, ?_⟩
      · rintro rfl
        have := nodup_fst hd h1 h3
        simp only [Json.obj.injEq] at this
        subst this
        exact (ih htg.2.1 htg.2.2 h4).1
      · intro hs
        cases hs with
        | cons hs hr =>
          obtain ⟨rfl, -⟩ := hs
          have := nodup_fst hd h1 h3
          simp only [Json.obj.injEq] at this
          subst this
          exact (ih htg.2.1 htg.2.2 h4).2 hr
    | @item _ k' l gs' v p' _ h3 h4 h5 h6 =>
      have hk : k ≠ k' := by
        rintro rfl
        have := nodup_fst hd h1 h3
        cases this
      refine ⟨hk, ?_⟩
      intro hs
      cases hs with
      | cons hs _ => exact absurd hs.1 hk
  | @item fs k l gs v p j h1 h2 h3 h4 ih =>
    intro q j' hd ht h
    obtain ⟨ho, hi⟩ := tidy_array (tidyF_mem ht h1) h2
    obtain ⟨_, e, -, hd', ht'⟩ := tidyI_mem hi _ h2
    cases e
    cases h with
    | @value _ k' _ h5 h6 =>
      have hk : k ≠ k' := by
        rintro rfl
        have := nodup_fst hd h1 h5
        subst this
        exact h6 ⟨_, h2⟩
      refine ⟨hk, ?_⟩
      intro hs
      cases hs with
      | cons hs _ => exact absurd hs.1 hk
    | @field _ k' gs' p' _ h5 h6 =>
      have hk : k ≠ k' := by
        rintro rfl
        have := nodup_fst hd h1 h5
        cases this
      refine ⟨hk, ?_⟩
      intro hs
      cases hs with
      | cons hs _ => exact absurd hs.1 hk
    | @item _ k' l' gs' v' p' _ h5 h6 h7 h8 =>
      refine ⟨?_, ?_⟩
      · rintro rfl hv
        have := nodup_fst hd h1 h5
        simp only [Json.arr.injEq] at this
        subst this
        have := ownIds_same ho h2 h6 (hasId_congr h3 hv) h7
        subst this
        exact (ih hd' ht' h8).1
      · intro hs
        cases hs with
        | cons hs hr =>
          obtain ⟨rfl, hv⟩ := hs
          have := nodup_fst hd h1 h5
          simp only [Json.arr.injEq] at this
          subst this
          have := ownIds_same ho h2 h6 (hasId_congr h3 hv) h7
          subst this
          exact (ih hd' ht' h8).2 hr

/-- There is a value in every object. -/
theorem tidy_some {m : Str} (fs : List (Str × Json)) (h : Tidy m (.obj fs)) : ∃ p j, HoldsAt m fs p j := by
  simp only [Tidy] at h
  match fs, h with
  | (k, .leaf a) :: r, h => exact ⟨_, _, .value (k := k) (j := .leaf a) (by simp) (by simp [Composite])⟩
  | (k, .obj gs) :: r, h =>
    obtain ⟨p, j, hp⟩ := tidy_some gs (tidyF_mem h.2.2 (k := k) (by simp))
    exact ⟨_, _, .field (k := k) (by simp) hp⟩
  | (k, .arr l) :: r, h =>
    by_cases hc : Composite (.arr l)
    · obtain ⟨gs, hg⟩ := hc
      have hg : Json.obj gs ∈ l := hg
      obtain ⟨-, hi⟩ := tidy_array (tidyF_mem h.2.2 (k := k) (v := .arr l) (by simp)) hg
      obtain ⟨_, e, ⟨v, hv⟩, -, -⟩ := tidyI_mem hi _ hg
      cases e
      obtain ⟨a, h1, h2⟩ := hv
      exact ⟨_, _, .item (k := k) (l := l) (by simp) hg ⟨a, h1, h2⟩ (.value h1 (by simp [Composite]))⟩
    · exact ⟨_, _, .value (k := k) (j := .arr l) (by simp) hc⟩
termination_by sizeOf fs

/-! ### What an object holds determines it -/

theorem sameFields_all {a b : List (Str × Json)} (h : All₂ (fun x y => x.1 = y.1 ∧ SameJson x.2 y.2) a b) : SameJsonFields a b := by
  induction h with
  | nil => exact .nil
  | @cons x y _ _ h _ ih =>
    obtain ⟨k, v⟩ := x
    obtain ⟨k', v'⟩ := y
    obtain ⟨h1, h2⟩ := h
    simp only at h1 h2
    subst h1
    exact .cons h2 ih

theorem sameItems_all {a b : List Json} (h : All₂ SameJson a b) : SameJsonItems a b := by
  induction h with
  | nil => exact .nil
  | cons h _ ih => exact .cons h ih

/-- Everything that the first object holds the second one holds. -/
def HoldsIn (m : Str) (fs gs : List (Str × Json)) : Prop := ∀ p j, HoldsAt m fs p j → ∃ q j', HoldsAt m gs q j' ∧ SameNamed p q ∧ SameJson j j'

theorem HoldsIn.field {m : Str} {fs gs fs' gs' : List (Str × Json)} (h : HoldsIn m fs gs) (hg : (gs.map (·.1)).Nodup) {k : Str} (h1 : (k, .obj fs') ∈ fs)
    (h2 : (k, .obj gs') ∈ gs) : HoldsIn m fs' gs' := by
  intro p j hp
  obtain ⟨q, j', q1, q2, q3⟩ := h _ _ (.field h1 hp)
  cases q2 with
  | @cons _ t _ q' q2 q4 =>
    obtain ⟨k', o⟩ := t
    obtain ⟨rfl, q5⟩ := q2
    cases o with
    | some v => exact absurd q5 (by simp)
    | none =>
      cases q1 with
      | value => cases q4; exact absurd rfl (holds_ne hp)
      | field e1 e2 =>
        have := nodup_fst hg h2 e1
        simp only [Json.obj.injEq] at this
        subst this
        exact ⟨q', j', e2, q4, q3⟩

theorem HoldsIn.item {m : Str} {fs gs fs' gs' : List (Str × Json)} (h : HoldsIn m fs gs) (hg : (gs.map (·.1)).Nodup) {k : Str} {l l' : List Json} {v : Val}
    (h1 : (k, .arr l) ∈ fs) (h2 : .obj fs' ∈ l) (h3 : HasId m v fs') (h4 : (k, .arr l') ∈ gs) (h5 : .obj gs' ∈ l') (h6 : HasId m v gs') (ho : OwnIds m l') :
    HoldsIn m fs' gs' := by
  intro p j hp
  obtain ⟨q, j', q1, q2, q3⟩ := h _ _ (.item h1 h2 h3 hp)
  cases q2 with
  | @cons _ t _ q' q2 q4 =>
    obtain ⟨k', o⟩ := t
    obtain ⟨rfl, q5⟩ := q2
    cases o with
    | none => exact absurd q5 (by simp)
    | some w =>
      cases q1 with
      | item e1 e2 e3 e4 =>
        have := nodup_fst hg h4 e1
        simp only [Json.arr.injEq] at this
        subst this
        have := ownIds_same ho h5 e2 (hasId_congr h6 q5) e3
        subst this
        exact ⟨q', j', e4, q4, q3⟩

/-- Where the second object has the same. -/
theorem HoldsIn.find {m : Str} {fs gs : List (Str × Json)} (h : HoldsIn m fs gs) (ht : TidyFields m fs) {k : Str} {v : Json} (hk : (k, v) ∈ fs) :
    (¬ Composite v ∧ ∃ v', (k, v') ∈ gs ∧ SameJson v v') ∨ (∃ fs' gs', v = .obj fs' ∧ (k, .obj gs') ∈ gs) ∨
      ∃ l l', v = .arr l ∧ (∃ fs', .obj fs' ∈ l) ∧ (k, .arr l') ∈ gs ∧ ∃ gs', .obj gs' ∈ l' := by
  by_cases hc : Composite v
  · right
    cases v with
    | leaf a => exact absurd hc (by simp [Composite])
    | obj fs' =>
      left
      obtain ⟨p, j, hp⟩ := tidy_some fs' (tidyF_mem ht hk)
      obtain ⟨q, j', q1, q2, q3⟩ := h _ _ (.field hk hp)
      cases q2 with
      | @cons _ t _ q' q2 q4 =>
        obtain ⟨k', o⟩ := t
        obtain ⟨rfl, q5⟩ := q2
        cases o with
        | some v => exact absurd q5 (by simp)
        | none =>
          cases q1 with
          | value => cases q4; exact absurd rfl (holds_ne hp)
          | field e1 e2 => exact ⟨_, _, rfl, e1⟩
    | arr l =>
      right
      obtain ⟨fs', hf⟩ := hc
      have hf : Json.obj fs' ∈ l := hf
      obtain ⟨-, hi⟩ := tidy_array (tidyF_mem ht hk) hf
      obtain ⟨_, e, ⟨v, a, hv, hv'⟩, -, -⟩ := tidyI_mem hi _ hf
      cases e
      obtain ⟨q, j', q1, q2, q3⟩ := h _ _ (.item hk hf ⟨a, hv, hv'⟩ (.value hv (by simp [Composite])))
      cases q2 with
      | @cons _ t _ q' q2 q4 =>
        obtain ⟨k', o⟩ := t
        obtain ⟨rfl, q5⟩ := q2
        cases o with
        | none => exact absurd q5 (by simp)
        | some w =>
          cases q1 with
          | item e1 e2 e3 e4 => exact ⟨l, _, rfl, ⟨_, hf⟩, e1, _, e2⟩
  · left
    refine ⟨hc, ?_⟩
    obtain ⟨q, j', q1, q2, q3⟩ := h _ _ (.value hk hc)
    cases q2 with
    | @cons _ t _ q' q2 q4 =>
      obtain ⟨k', o⟩ := t
      obtain ⟨rfl, q5⟩ := q2
      cases q4
      cases q1 with
      | value e1 => exact ⟨_, e1, q3⟩
      | field _ e2 => exact absurd rfl (holds_ne e2)
      | item _ _ _ e2 => exact absurd rfl (holds_ne e2)

theorem HoldsIn.find_item {m : Str} {fs gs : List (Str × Json)} (h : HoldsIn m fs gs) {k : Str} {l : List Json} {fs' : List (Str × Json)} {v : Val}
    (hk : (k, .arr l) ∈ fs) (hf : .obj fs' ∈ l) (hv : HasId m v fs') : ∃ l' gs', (k, .arr l') ∈ gs ∧ .obj gs' ∈ l' ∧ HasId m v gs' := by
  obtain ⟨a, h1, h2⟩ := hv
  obtain ⟨q, j', q1, q2, q3⟩ := h _ _ (.item hk hf ⟨a, h1, h2⟩ (.value h1 (by simp [Composite])))
  cases q2 with
  | @cons _ t _ q' q2 q4 =>
    obtain ⟨k', o⟩ := t
    obtain ⟨rfl, q5⟩ := q2
    cases o with
    | none => exact absurd q5 (by simp)
    | some w =>
      cases q1 with
      | item e1 e2 e3 e4 => exact ⟨_, _, e1, e2, hasId_congr e3 (Val.pyEq_symm q5)⟩

/-- If two objects hold the same they are the same, up to the order of fields and items. -/
theorem same_of_holds {m : Str} (fs gs : List (Str × Json)) (df : (fs.map (·.1)).Nodup) (tf : TidyFields m fs) (dg : (gs.map (·.1)).Nodup) (tg : TidyFields m gs)
    (h1 : HoldsIn m fs gs) (h2 : HoldsIn m gs fs) : SameJson (.obj fs) (.obj gs) := by
  have hval : ∀ k v, (k, v) ∈ fs → ∃ v', (k, v') ∈ gs ∧ SameJson v v' := by
    intro k v hk
    have hsz : sizeOf v < sizeOf fs := by
      have := List.sizeOf_lt_of_mem hk
      simp only [Prod.mk.sizeOf_spec] at this
      omega
    rcases h1.find tf hk with ⟨-, h⟩ | ⟨fs', gs', rfl, hg⟩ | ⟨l, l', rfl, ⟨f0, hf0⟩, hg, g0, hg0⟩
    · exact h
    · have t1 := tidyF_mem tf hk
      have t2 := tidyF_mem tg hg
      simp only [Tidy] at t1 t2
      refine ⟨_, hg, ?_⟩
      exact same_of_holds fs' gs' t1.2.1 t1.2.2 t2.2.1 t2.2.2 (h1.field dg hk hg) (h2.field df hg hk)
    · obtain ⟨o1, i1⟩ := tidy_array (tidyF_mem tf hk) hf0
      obtain ⟨o2, i2⟩ := tidy_array (tidyF_mem tg hg) hg0
      refine ⟨_, hg, ?_⟩
      -- items with the same id are the same
      have hitem : ∀ fs' gs' v, .obj fs' ∈ l → .obj gs' ∈ l' → HasId m v fs' → HasId m v gs' → SameJson (.obj fs') (.obj gs') := by
        intro fs' gs' v hf hg' hv hv'
        have hsz' : sizeOf fs' < sizeOf fs := by
          have := List.sizeOf_lt_of_mem hf
          simp only [Json.obj.sizeOf_spec] at this
          simp only [Json.arr.sizeOf_spec] at hsz
          omega
        obtain ⟨_, e, -, d1, t1⟩ := tidyI_mem i1 _ hf
        cases e
        obtain ⟨_, e, -, d2, t2⟩ := tidyI_mem i2 _ hg'
        cases e
        exact same_of_holds fs' gs' d1 t1 d2 t2 (h1.item dg hk hf hv hg hg' hv' o2) (h2.item df hg hg' hv' hk hf hv o1)
      obtain ⟨m', q1, q2⟩ := match_perm (R := fun x y => SameJson x y ∧ ∃ fs' gs' v, x = .obj fs' ∧ y = .obj gs' ∧ HasId m v fs' ∧ HasId m v gs') l l'
        (by
          intro x hx
          obtain ⟨fs', rfl, ⟨v, hv⟩, -, -⟩ := tidyI_mem i1 _ hx
          obtain ⟨l2, gs', e1, e2, e3⟩ := h1.find_item hk hx hv
          have := nodup_fst dg hg e1
          simp only [Json.arr.injEq] at this
          subst this
          exact ⟨_, e2, hitem _ _ v hx e2 hv e3, _, _, v, rfl, rfl, hv, e3⟩)
        (by
          intro y hy
          obtain ⟨gs', rfl, ⟨v, hv⟩, -, -⟩ := tidyI_mem i2 _ hy
          obtain ⟨l2, fs', e1, e2, e3⟩ := h2.find_item hg hy hv
          have := nodup_fst df hk e1
          simp only [Json.arr.injEq] at this
          subst this
          exact ⟨_, e2, hitem _ _ v e2 hy e3 hv, _, _, v, rfl, rfl, e3, hv⟩)
        (by
          refine List.Pairwise.imp_of_mem ?_ o1
          rintro a b ha hb hab y hy ⟨⟨-, f1, g1, v, rfl, rfl, v1, v2⟩, -, f2, g2, w, rfl, e, w1, w2⟩
          cases e
          obtain ⟨_, e, -, d2, -⟩ := tidyI_mem i2 _ hy
          cases e
          exact hab _ _ _ rfl rfl v1 (hasId_congr w1 (hasId_same d2 w2 v2)))
        (by
          refine List.Pairwise.imp_of_mem ?_ o2
          rintro a b ha hb hab x hx ⟨⟨-, f1, g1, v, rfl, rfl, v1, v2⟩, -, f2, g2, w, e, rfl, w1, w2⟩
          cases e
          obtain ⟨_, e, -, d1, -⟩ := tidyI_mem i1 _ hx
          cases e
          exact hab _ _ _ rfl rfl v2 (hasId_congr w2 (hasId_same d1 w1 v1)))
      exact .arr (sameItems_all (All₂.imp q1 (fun _ _ h => h.1))) q2
  have hval' : ∀ k v', (k, v') ∈ gs → ∃ v, (k, v) ∈ fs ∧ SameJson v v' := by
    intro k v' hk
    have : ∃ v, (k, v) ∈ fs := by
      rcases h2.find tg hk with ⟨-, v, h, -⟩ | ⟨_, _, -, h⟩ | ⟨_, _, -, -, h, -⟩
      · exact ⟨_, h⟩
      · exact ⟨_, h⟩
      · exact ⟨_, h⟩
    obtain ⟨v, hv⟩ := this
    obtain ⟨v2, e1, e2⟩ := hval k v hv
    exact ⟨v, hv, by rw [nodup_fst dg hk e1]; exact e2⟩
  obtain ⟨m', q1, q2⟩ := match_perm (R := fun x y => x.1 = y.1 ∧ SameJson x.2 y.2) fs gs
    (by
      rintro ⟨k, v⟩ hx
      obtain ⟨v', e1, e2⟩ := hval k v hx
      exact ⟨_, e1, rfl, e2⟩)
    (by
      rintro ⟨k, v⟩ hx
      obtain ⟨v', e1, e2⟩ := hval' k v hx
      exact ⟨_, e1, rfl, e2⟩)
    (by
      rw [List.Nodup, List.pairwise_map] at df
      exact df.imp (fun h y _ hh => h (hh.1.1.trans hh.2.1.symm)))
    (by
      rw [List.Nodup, List.pairwise_map] at dg
      exact dg.imp (fun h y _ hh => h (hh.1.1.symm.trans hh.2.1)))
  exact .obj (sameFields_all q1) q2
termination_by sizeOf fs
decreasing_by
  all_goals (try simp only [Json.obj.sizeOf_spec] at hsz)
  all_goals omega

end Verif
