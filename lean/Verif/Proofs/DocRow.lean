import Verif.Proofs.Doc
/-! The headings of the positions of a document. -/
namespace Verif
open Spec

/-- The position in a row that has one item in each array. -/
def addrOf : List PKey → Addr
  | .field k :: .item _ :: r => (k, some 0) :: addrOf r
  | .field k :: r => (k, none) :: addrOf r
  | _ => []

/-- The ids on the way. -/
def labelsP : List PKey → List Val
  | [] => []
  | .field _ :: r => labelsP r
  | .item l :: r => l :: labelsP r

/-- Items come after fields. -/
def okP : List PKey → Prop
  | .field _ :: .item _ :: r => okP r
  | .field _ :: r => okP r
  | [] => True
  | .item _ :: _ => False

theorem labelsP_append (P Q : List PKey) : labelsP (P ++ Q) = labelsP P ++ labelsP Q := by
  induction P with
  | nil => rfl
  | cons s P ih => cases s <;> simp [labelsP, ih]

theorem labelsP_flds (kk : List Str) : labelsP (flds kk) = [] := by
  induction kk with
  | nil => rfl
  | cons k r ih => simp only [flds, List.map_cons, labelsP]; exact ih

/-- The forms of a position. -/
theorem okP_cases {P : List PKey} (h : okP P) : P = [] ∨ (∃ k l r, P = .field k :: .item l :: r ∧ okP r) ∨
    ∃ k r, P = .field k :: r ∧ okP r ∧ addrOf P = (k, none) :: addrOf r := by
  cases P with
  | nil => exact .inl rfl
  | cons s P =>
    cases s with
    | item l => exact absurd h (by simp [okP])
    | field k =>
      cases P with
      | nil => exact .inr (.inr ⟨k, [], rfl, trivial, rfl⟩)
      | cons s P =>
        cases s with
        | item l => exact .inr (.inl ⟨k, l, P, rfl, by simpa [okP] using h⟩)
        | field k' => exact .inr (.inr ⟨k, _, rfl, by simpa [okP] using h, rfl⟩)

/-- Induction over positions. -/
theorem okP_ind {motive : ∀ P, okP P → Prop} (nil : motive [] trivial)
    (item : ∀ k l r (h : okP r) (h' : okP (.field k :: .item l :: r)), motive r h → motive (.field k :: .item l :: r) h')
    (field : ∀ k r (h : okP r) (h' : okP (.field k :: r)), addrOf (.field k :: r) = (k, none) :: addrOf r → motive r h → motive (.field k :: r) h') :
    ∀ P (h : okP P), motive P h := by
  intro P
  induction hn : P.length using Nat.strongRecOn generalizing P with
  | _ n ih =>
    intro h
    rcases okP_cases h with rfl | ⟨k, l, r, rfl, hr⟩ | ⟨k, r, rfl, hr, ha⟩
    · exact nil
    · exact item k l r hr h (ih r.length (by simp at hn; omega) r rfl hr)
    · exact field k r hr h ha (ih r.length (by simp at hn; omega) r rfl hr)

theorem addrOf_keys {P : List PKey} (h : okP P) : (addrOf P).map (·.1) = keysP P := by
  induction P, h using okP_ind with
  | nil => rfl
  | item k l r _ _ ih => simp [addrOf, keysP, ih]
  | field k r _ _ ha ih => simp [ha, keysP, ih]

theorem pos_addrOf {P : List PKey} (h : okP P) : ∀ ls, labelsP P <+: ls → pos ls (addrOf P) = P := by
  induction P, h using okP_ind with
  | nil => intro ls _; rfl
  | item k l r _ _ ih =>
    intro ls hl
    simp only [labelsP] at hl
    cases ls with
    | nil => simp at hl
    | cons l' ls =>
      obtain ⟨rfl, hl2⟩ := List.cons_prefix_cons.1 hl
      simp [addrOf, pos, ih ls hl2]
  | field k r _ _ ha ih =>
    intro ls hl
    simp [ha, pos, ih ls hl]

theorem crossed_addrOf {P : List PKey} (h : okP P) : crossed (addrOf P) = (labelsP P).length := by
  induction P, h using okP_ind with
  | nil => rfl
  | item k l r _ _ ih => simp only [crossed] at ih; simp [addrOf, crossed, labelsP, ih]
  | field k r _ _ ha ih => simp only [crossed] at ih; simp [ha, crossed, labelsP, ih]

theorem addrOf_zero {P : List PKey} (h : okP P) : ∀ s ∈ addrOf P, ∀ i, s.2 = some i → i = 0 := by
  induction P, h using okP_ind with
  | nil => intro s hs; cases hs
  | item k l r _ _ ih =>
    intro s hs i hi
    rcases List.mem_cons.1 hs with rfl | hs
    · simpa using hi.symm
    · exact ih s hs i hi
  | field k r _ _ ha ih =>
    intro s hs i hi
    rw [ha] at hs
    rcases List.mem_cons.1 hs with rfl | hs
    · cases hi
    · exact ih s hs i hi

/-- An item on the way. -/
theorem addrOf_split {k : Str} (A : Addr) : ∀ {P : List PKey} {B : Addr}, okP P → addrOf P = A ++ (k, some 0) :: B →
    ∃ PA l PB, P = PA ++ .field k :: .item l :: PB ∧ addrOf PA = A ∧ okP PA ∧ addrOf PB = B ∧ okP PB := by
  induction A with
  | nil =>
    intro P B h ha
    rcases okP_cases h with rfl | ⟨k', l, r, rfl, hr⟩ | ⟨k', r, rfl, hr, hh⟩
    · cases ha
    · simp only [addrOf, List.nil_append, List.cons.injEq, Prod.mk.injEq, and_true] at ha
      exact ⟨[], l, r, by simp [ha.1], rfl, trivial, ha.2, hr⟩
    · rw [hh] at ha; simp at ha
  | cons s A ih =>
    intro P B h ha
    rcases okP_cases h with rfl | ⟨k', l, r, rfl, hr⟩ | ⟨k', r, rfl, hr, hh⟩
    · cases ha
    · simp only [addrOf, List.cons_append, List.cons.injEq] at ha
      obtain ⟨PA, l', PB, rfl, h1, h2, h3, h4⟩ := ih hr ha.2
      exact ⟨.field k' :: .item l :: PA, l', PB, rfl, by simp [addrOf, ha.1, h1], by simpa [okP] using h2, h3, h4⟩
    · rw [hh] at ha
      simp only [List.cons_append, List.cons.injEq] at ha
      obtain ⟨PA, l', PB, rfl, h1, h2, h3, h4⟩ := ih hr ha.2
      refine ⟨.field k' :: PA, l', PB, rfl, ?_, ?_, h3, h4⟩
      · cases PA with
        | nil => simp only [addrOf] at h1 ⊢; rw [← ha.1, ← h1]
        | cons s PA =>
          cases s with
          | item l => exact absurd h2 (by simp [okP])
          | field k2 => simp only [addrOf]; rw [← ha.1, h1]
      · cases PA with
        | nil => trivial
        | cons s PA =>
          cases s with
          | item l => exact absurd h2 (by simp [okP])
          | field k2 => simpa [okP] using h2

theorem addrOf_inj {P Q : List PKey} (hP : okP P) (hQ : okP Q) (h : addrOf P = addrOf Q) (hl : labelsP P = labelsP Q) : P = Q := by
  have h1 := pos_addrOf hP (labelsP P) (List.prefix_refl _)
  have h2 := pos_addrOf hQ (labelsP P) (by rw [hl]; exact List.prefix_refl _)
  rw [← h1, ← h2, h]

/-- Two values of one tree, on ways with the same ids, are at compatible positions. -/
theorem compatible_cells {P : List PKey} (hP : okP P) : ∀ {Q : List PKey} {fs : Fields} {ls : List Val} {c d : Cell}, okP Q →
    Tree.sub P (.obj fs) = some (.cell c) → Tree.sub Q (.obj fs) = some (.cell d) → labelsP P <+: ls → labelsP Q <+: ls → P ≠ Q →
    Compatible (addrOf P) (addrOf Q) := by
  induction P, hP using okP_ind with
  | nil => intro Q fs ls c d _ h; simp [Tree.sub] at h
  | item k l r hr _ ih =>
    intro Q fs ls c d hQ h1 h2 hl hl' hne
    rcases okP_cases hQ with rfl | ⟨k', l', r', rfl, hr'⟩ | ⟨k', r', rfl, hr', hh⟩
    · simp [Tree.sub] at h2
    · simp only [addrOf, Compatible]
      by_cases hk : k = k'
      · subst hk
        right; right
        simp only [labelsP] at hl hl'
        cases ls with
        | nil => simp at hl
        | cons l0 ls =>
          obtain ⟨rfl, hla⟩ := List.cons_prefix_cons.1 hl
          obtain ⟨rfl, hlb⟩ := List.cons_prefix_cons.1 hl'
          simp only [Tree.sub] at h1 h2
          cases hg : Dict.get fs k with
          | none => rw [hg] at h1; simp at h1
          | some t =>
            rw [hg] at h1 h2
            simp only [Option.bind_some] at h1 h2
            cases t with
            | cell c => simp [Tree.sub] at h1
            | obj g => simp [Tree.sub] at h1
            | tmp ks rs =>
              simp only [Tree.sub] at h1 h2
              cases hkk : keyGet ks l' with
              | none => rw [hkk] at h1; simp at h1
              | some g =>
                rw [hkk] at h1 h2
                exact ih hr' h1 h2 hla hlb (fun h => hne (by rw [h]))
      · exact .inl hk
    · rw [hh]
      simp only [addrOf, Compatible]
      intro hk
      subst hk
      simp only [Tree.sub] at h1 h2
      cases hg : Dict.get fs k with
      | none => rw [hg] at h1; simp at h1
      | some t =>
        rw [hg] at h1 h2
        simp only [Option.bind_some] at h1 h2
        cases t with
        | cell c => simp [Tree.sub] at h1
        | obj g => simp [Tree.sub] at h1
        | tmp ks rs =>
          cases r' with
          | nil => simp [Tree.sub] at h2
          | cons s r' =>
            cases s with
            | item l => exact absurd hr' (by simp [okP])
            | field k2 => simp [Tree.sub] at h2
  | field k r hr _ ha ih =>
    intro Q fs ls c d hQ h1 h2 hl hl' hne
    rcases okP_cases hQ with rfl | ⟨k', l', r', rfl, hr'⟩ | ⟨k', r', rfl, hr', hh⟩
    · simp [Tree.sub] at h2
    · rw [ha]
      simp only [addrOf, Compatible]
      intro hk
      subst hk
      simp only [Tree.sub] at h1 h2
      cases hg : Dict.get fs k with
      | none => rw [hg] at h1; simp at h1
      | some t =>
        rw [hg] at h1 h2
        simp only [Option.bind_some] at h1 h2
        cases t with
        | cell c => simp [Tree.sub] at h2
        | obj g => simp [Tree.sub] at h2
        | tmp ks rs =>
          cases r with
          | nil => simp [Tree.sub] at h1
          | cons s r' =>
            cases s with
            | item l => exact absurd hr (by simp [okP])
            | field k2 => simp [Tree.sub] at h1
    · rw [ha, hh]
      simp only [Compatible]
      by_cases hk : k = k'
      · subst hk
        right
        simp only [Tree.sub] at h1 h2
        cases hg : Dict.get fs k with
        | none => rw [hg] at h1; simp at h1
        | some t =>
          rw [hg] at h1 h2
          simp only [Option.bind_some] at h1 h2
          cases t with
          | cell c0 =>
            obtain ⟨rfl, -⟩ := sub_cell _ h1
            obtain ⟨rfl, -⟩ := sub_cell _ h2
            exact absurd rfl hne
          | obj g => exact ih hr' h1 h2 hl hl' (fun h => hne (by rw [h]))
          | tmp ks rs =>
            cases r with
            | nil => simp [Tree.sub] at h1
            | cons s r' =>
              cases s with
              | item l => exact absurd hr (by simp [okP])
              | field k2 => simp [Tree.sub] at h1
      · exact .inl hk

/-- The headings of the values of a document name their positions. -/
theorem address_docT {T : Trip} (v : Json) :
    (∀ fs ks, v = .obj fs → T.Object fs → T.FitsFields ks fs → ∀ P c, Tree.sub P (.obj (docF T ks fs)) = some (.cell c) →
      okP P ∧ (∀ k ∈ keysP P, GoodKey k) ∧ address T.types ks (strs P) = some (addrOf P)) ∧
    ∀ ks k, GoodKey k → T.Fits (ks ++ [k]) v → ∀ X c, (docT T (ks ++ [k]) v).sub X = some (.cell c) →
      okP (.field k :: X) ∧ (∀ k' ∈ keysP X, GoodKey k') ∧ address T.types ks (k :: strs X) = some (addrOf (.field k :: X)) := by
  induction v using Json.ind with
  | leaf a =>
    refine ⟨(by intro fs ks h; cases h), ?_⟩
    intro ks k hk hf X c h
    simp only [docT] at h
    obtain ⟨rfl, -⟩ := sub_cell _ h
    simp only [Trip.Fits] at hf
    refine ⟨trivial, by simp [keysP], ?_⟩
    have h1 := hf.2.2.1
    have h2 := hf.2.2.2.1
    simp only [pathText] at h1 h2
    simp [address, strs, hk.1, hk.2.2.1, h1, h2, addrOf]
  | arr l ih =>
    refine ⟨(by intro fs ks h; cases h), ?_⟩
    intro ks k hk hf X c h
    simp only [Trip.Fits] at hf
    rcases hf with ⟨t, ht, hr⟩ | ⟨hj, hty, hfit, -⟩
    · simp only [docT, ht] at h
      obtain ⟨rfl, -⟩ := sub_cell _ h
      refine ⟨trivial, by simp [keysP], ?_⟩
      have h1 := hr.2.1
      have h2 := hr.2.2.1
      simp only [pathText] at h1 h2
      simp [address, strs, hk.1, hk.2.2.1, h1, h2, addrOf]
    · simp only [docT, hj] at h
      cases X with
      | nil => simp [Tree.sub] at h
      | cons s X =>
        cases s with
        | field k => simp [Tree.sub] at h
        | item x =>
          simp only [Tree.sub, Option.bind_eq_some_iff] at h
          obtain ⟨g, hg, h⟩ := h
          obtain ⟨x', hm, hxx⟩ := keyGet_some_mem hg
          obtain ⟨j, fs, hmj, he⟩ := mem_docI.1 hm
          cases he
          obtain ⟨fs', he, ho, hnr, hnm, hff⟩ := fitsItems_iff.1 hfit _ (List.mem_of_getElem? hmj)
          cases he
          obtain ⟨h1, h2, h3⟩ := (ih _ (List.mem_of_getElem? hmj)).1 fs (ks ++ [k]) rfl ho hff X c h
          refine ⟨by simpa [okP] using h1, by simpa [keysP] using h2, ?_⟩
          have hz : Py.int? s%"0" = some 0 := by decide
          simp only [pathText] at hty
          simp only [strs] at h3
          simp [address, strs, strP, hk.1, hk.2.2.1, hz, hty, addrOf, h3]
  | obj fs ih =>
    have B : ∀ ks, T.Object fs → T.FitsFields ks fs → ∀ P c, Tree.sub P (.obj (docF T ks fs)) = some (.cell c) →
        okP P ∧ (∀ k ∈ keysP P, GoodKey k) ∧ address T.types ks (strs P) = some (addrOf P) := by
      intro ks ho hff P c h
      cases P with
      | nil => simp [Tree.sub] at h
      | cons s P =>
        cases s with
        | item x => simp [Tree.sub] at h
        | field k =>
          simp only [Tree.sub, get_docF] at h
          cases hk : Dict.get fs k with
          | none => rw [hk] at h; simp at h
          | some w =>
            rw [hk] at h
            have hm := Dict.get_eq_some_mem hk
            have hgk := ho.2.2.1 k (List.mem_map.2 ⟨_, hm, rfl⟩)
            obtain ⟨h1, h2, h3⟩ := (ih _ hm).2 ks k hgk (fitsFields_iff.1 hff _ hm) P c h
            refine ⟨h1, ?_, h3⟩
            intro k' hk'
            rcases List.mem_cons.1 hk' with rfl | hk'
            · exact hgk
            · exact h2 _ hk'
    refine ⟨(by intro gs ks he; cases he; exact B ks), ?_⟩
    intro ks k hk hf X c h
    simp only [Trip.Fits] at hf
    simp only [docT] at h
    obtain ⟨h1, h2, h3⟩ := B (ks ++ [k]) hf.2.1 hf.2.2.2 X c h
    cases X with
    | nil => simp [Tree.sub] at h
    | cons s X =>
      cases s with
      | item x => simp [Tree.sub] at h
      | field k' =>
        have hgk' := h2 k' (by simp [keysP])
        refine ⟨by simpa [okP] using h1, h2, ?_⟩
        have hty := hf.1
        have hna : T.types (Py.join s%"/" (ks ++ [k])) ≠ some .array := by
          simp only [pathText] at hty
          rcases hty with e | e <;> rw [e] <;> simp
        simp only [pathText] at hty
        have e : strs (.field k' :: X) = k' :: strs X := rfl
        rw [e] at h3 ⊢
        rw [address]
        have hor : ¬ (k = [] ∨ (Py.int? k).isSome = true) := by simp [hk.1, hk.2.2.1]
        rw [if_neg hor]
        simp only [hgk'.2.2.1]
        rw [if_neg hna, if_pos hty, h3]
        rfl

theorem rstrip_good {k : Str} (h : GoodKey k) : Py.rstrip (fun c => c = '[' || c = ']') k = k := by
  apply Py.rstrip_of_not
  cases hl : k.getLast? with
  | none => rfl
  | some c =>
    have h1 := h.2.2.2.1; have h2 := h.2.2.2.2
    rw [hl] at h1 h2
    simp only [ne_eq, Option.some.injEq] at h1 h2
    simp [h1, h2]

theorem mem_strs {P : List PKey} {s : Str} (h : s ∈ strs P) : s = s%"0" ∨ s ∈ keysP P := by
  induction P with
  | nil => cases h
  | cons x P ih =>
    cases x with
    | field k =>
      rcases List.mem_cons.1 h with h | h
      · right; rw [h]; simp [keysP, strP]
      · rcases ih h with h | h
        · exact .inl h
        · right; simp [keysP, h]
    | item l =>
      rcases List.mem_cons.1 h with h | h
      · left; exact h
      · exact ih h

theorem strs_noSlash {P : List PKey} (h : ∀ k ∈ keysP P, GoodKey k) : ∀ s ∈ strs P, '/' ∉ s := by
  intro s hs
  rcases mem_strs hs with rfl | hs
  · decide
  · exact (h s hs).2.1

theorem pathList_strs {P : List PKey} (hne : P ≠ []) (h : ∀ k ∈ keysP P, GoodKey k) : pathList (pathText (strs P)) = strs P := by
  unfold pathList pathText
  have hne' : strs P ≠ [] := by simpa [strs] using hne
  rw [Py.split_join hne' (strs_noSlash h)]
  refine Eq.trans (List.map_congr_left (g := id) ?_) (List.map_id _)
  intro s hs
  rcases mem_strs hs with rfl | hs
  · decide
  · exact rstrip_good (h s hs)

/-- A heading tells the position, if the ids on the way are known. -/
theorem strs_inj {P Q : List PKey} (hP : P ≠ []) (hQ : Q ≠ []) (h1 : ∀ k ∈ keysP P, GoodKey k) (h2 : ∀ k ∈ keysP Q, GoodKey k)
    (h : pathText (strs P) = pathText (strs Q)) : strs P = strs Q :=
  pathText_inj (by simpa [strs] using hP) (by simpa [strs] using hQ) (strs_noSlash h1) (strs_noSlash h2) h

end Verif
