import Verif.Proofs.SaidDoc
/-! What a line says whose cells are at known positions of a document, all items on the way having ids. -/
namespace Verif
open Spec

/-- The position, with the ids of the items. -/
def nm : List PKey → NamedPos
  | .field k :: .item v :: r => (k, some v) :: nm r
  | .field k :: r => (k, none) :: nm r
  | _ => []

theorem nm_field {k : Str} {r : List PKey} (h : okP r) : nm (.field k :: r) = (k, none) :: nm r := by
  cases r with
  | nil => rfl
  | cons s r => cases s with
    | item l => exact absurd h (by simp [okP])
    | field k' => rfl

theorem pk_nm {P : List PKey} (h : okP P) : pk (nm P) = P := by
  induction P, h using okP_ind with
  | nil => rfl
  | item k l r _ _ ih => simp [nm, pk, ih]
  | field k r hr _ _ ih => rw [nm_field hr]; simp [pk, ih]

theorem okP_left {k : Str} {l : Val} {PB : List PKey} : ∀ {PA : List PKey}, okP (PA ++ .field k :: .item l :: PB) → okP PA
  | [], _ => trivial
  | .item _ :: _, h => by simp [okP] at h
  | [.field _], _ => trivial
  | .field _ :: .field k' :: r, h => by
    simp only [List.cons_append, okP] at h ⊢
    exact okP_left (PA := .field k' :: r) h
  | .field _ :: .item _ :: r, h => by
    simp only [List.cons_append, okP] at h ⊢
    exact okP_left (PA := r) h

theorem addrOf_field {k : Str} {r : List PKey} (h : okP r) : addrOf (.field k :: r) = (k, none) :: addrOf r := by
  cases r with
  | nil => rfl
  | cons s r => cases s with
    | item l => exact absurd h (by simp [okP])
    | field k' => rfl

theorem namedPos_nm {m : Str} {P : List PKey} (h : okP P) : ∀ {f : Content},
    (∀ PA k l PB, P = PA ++ .field k :: .item l :: PB → f (addrOf PA ++ [(k, some 0), (m, none)]) = some l) → namedPos m f (addrOf P) = some (nm P) := by
  induction P, h using okP_ind with
  | nil => intro f _; rfl
  | item k l r hr _ ih =>
    intro f hf
    have h0 := hf [] k l r rfl
    simp only [addrOf, List.nil_append] at h0
    simp only [addrOf, namedPos, nm, h0]
    rw [ih]
    · rfl
    · intro PA k' l' PB e
      exact hf (.field k :: .item l :: PA) k' l' PB (by rw [e]; rfl)
  | field k r hr _ ha ih =>
    intro f hf
    rw [ha, nm_field hr]
    simp only [namedPos]
    rw [ih]
    · rfl
    · intro PA k' l' PB e
      have := hf (.field k :: PA) k' l' PB (by rw [e]; rfl)
      rw [addrOf_field (okP_left (by rw [← e]; exact hr))] at this
      exact this

/-- Where both positions go into the same array, they go to the same item. -/
def Tog (P Q : List PKey) : Prop := ∀ A k v w P' Q', P = A ++ .field k :: .item v :: P' → Q = A ++ .field k :: .item w :: Q' → v = w

theorem Tog.tail {s : PKey} {P Q : List PKey} (h : Tog (s :: P) (s :: Q)) : Tog P Q := by
  intro A k v w P' Q' e1 e2
  exact h (s :: A) k v w P' Q' (by rw [e1]; rfl) (by rw [e2]; rfl)

theorem tog_inj {P : List PKey} (hP : okP P) : ∀ {Q : List PKey}, okP Q → Tog P Q → addrOf P = addrOf Q → P = Q := by
  induction P, hP using okP_ind with
  | nil =>
    intro Q hQ _ h
    rcases okP_cases hQ with rfl | ⟨k', l', r', rfl, hr'⟩ | ⟨k', r', rfl, hr', hh⟩
    · rfl
    · simp [addrOf] at h
    · rw [hh] at h; simp [addrOf] at h
  | item k l r hr _ ih =>
    intro Q hQ ht h
    rcases okP_cases hQ with rfl | ⟨k', l', r', rfl, hr'⟩ | ⟨k', r', rfl, hr', hh⟩
    · simp [addrOf] at h
    · simp only [addrOf, List.cons.injEq, Prod.mk.injEq, and_true] at h
      obtain ⟨rfl, h⟩ := h
      have := ht [] k l l' r r' rfl rfl
      subst this
      rw [ih hr' ht.tail.tail h]
    · rw [hh] at h; simp [addrOf] at h
  | field k r hr _ ha ih =>
    intro Q hQ ht h
    rcases okP_cases hQ with rfl | ⟨k', l', r', rfl, hr'⟩ | ⟨k', r', rfl, hr', hh⟩
    · rw [ha] at h; simp [addrOf] at h
    · rw [ha] at h; simp [addrOf] at h
    · rw [ha, hh] at h
      simp only [List.cons.injEq, Prod.mk.injEq, and_true] at h
      obtain ⟨rfl, h⟩ := h
      rw [ih hr' ht.tail h]

theorem tog_compat {P : List PKey} (hP : okP P) : ∀ {Q : List PKey} {fs : Fields} {c d : Cell}, okP Q →
    Tree.sub P (.obj fs) = some (.cell c) → Tree.sub Q (.obj fs) = some (.cell d) → Tog P Q → P ≠ Q → Compatible (addrOf P) (addrOf Q) := by
  induction P, hP using okP_ind with
  | nil => intro Q fs c d _ h; simp [Tree.sub] at h
  | item k l r hr _ ih =>
    intro Q fs c d hQ h1 h2 ht hne
    rcases okP_cases hQ with rfl | ⟨k', l', r', rfl, hr'⟩ | ⟨k', r', rfl, hr', hh⟩
    · simp [Tree.sub] at h2
    · simp only [addrOf, Compatible]
      by_cases hk : k = k'
      · subst hk
        right; right
        have := ht [] k l l' r r' rfl rfl
        subst this
        simp only [Tree.sub] at h1 h2
        cases hg : Dict.get fs k with
        | none => rw [hg] at h1; simp at h1
        | some t =>
          rw [hg] at h1 h2
          simp only [Option.bind_some] at h1 h2
          cases t with
          | cell c => simp [Tree.sub] at h1
          | obj g => simp [Tree.sub] at h1
          | tmp ks rs =>
            simp only [Tree.sub] at h1 h2
            cases hkk : keyGet ks l with
            | none => rw [hkk] at h1; simp at h1
            | some g =>
              rw [hkk] at h1 h2
              exact ih hr' h1 h2 ht.tail.tail (fun h => hne (by rw [h]))
      · exact .inl hk
    · rw [hh]
      simp only [addrOf, Compatible]
      intro hk
      subst hk
      simp only [Tree.sub] at h1 h2
      cases hg : Dict.get fs k with
      | none => rw [hg] at h1; simp at h1
      | some t =>
        rw [hg] at h1 h2
        simp only [Option.bind_some] at h1 h2
        cases t with
        | cell c => simp [Tree.sub] at h1
        | obj g => simp [Tree.sub] at h1
        | tmp ks rs =>
          cases r' with
          | nil => simp [Tree.sub] at h2
          | cons s r' =>
            cases s with
            | item l => exact absurd hr' (by simp [okP])
            | field k2 => simp [Tree.sub] at h2
  | field k r hr _ ha ih =>
    intro Q fs c d hQ h1 h2 ht hne
    rcases okP_cases hQ with rfl | ⟨k', l', r', rfl, hr'⟩ | ⟨k', r', rfl, hr', hh⟩
    · simp [Tree.sub] at h2
    · rw [ha]
      simp only [addrOf, Compatible]
      intro hk
      subst hk
      simp only [Tree.sub] at h1 h2
      cases hg : Dict.get fs k with
      | none => rw [hg] at h1; simp at h1
      | some t =>
        rw [hg] at h1 h2
        simp only [Option.bind_some] at h1 h2
        cases t with
        | cell c => simp [Tree.sub] at h2
        | obj g => simp [Tree.sub] at h2
        | tmp ks rs =>
          cases r with
          | nil => simp [Tree.sub] at h1
          | cons s r' =>
            cases s with
            | item l => exact absurd hr (by simp [okP])
            | field k2 => simp [Tree.sub] at h1
    · rw [ha, hh]
      simp only [Compatible]
      by_cases hk : k = k'
      · subst hk
        right
        simp only [Tree.sub] at h1 h2
        cases hg : Dict.get fs k with
        | none => rw [hg] at h1; simp at h1
        | some t =>
          rw [hg] at h1 h2
          simp only [Option.bind_some] at h1 h2
          cases t with
          | cell c0 =>
            obtain ⟨rfl, -⟩ := sub_cell _ h1
            obtain ⟨rfl, -⟩ := sub_cell _ h2
            exact absurd rfl hne
          | obj g => exact ih hr' h1 h2 ht.tail (fun h => hne (by rw [h]))
          | tmp ks rs =>
            cases r with
            | nil => simp [Tree.sub] at h1
            | cons s r' =>
              cases s with
              | item l => exact absurd hr (by simp [okP])
              | field k2 => simp [Tree.sub] at h1
      · exact .inl hk

/-- The values (`S`, with their positions) of a line about the object with tree `D`, all items on the way having ids. -/
structure SaysSet (T : Trip) (D : Tree) (S : List PKey → Atom → Prop) : Prop where
  cell : ∀ P b, S P b → D.sub P = some (.cell (docCell (back T (keysP P) b))) ∧ ∃ j, T.Returns (keysP P) b j
  item : ∀ PA k l PB b, S (PA ++ .field k :: .item l :: PB) b → l.hashable = true ∧
    ∃ a, S (PA ++ [.field k, .item l, .field T.idName]) a ∧ back T (keysP (PA ++ [.field k, .item l, .field T.idName])) a = l
  one : ∀ P Q b b', S P b → S Q b' → Tog P Q
  id : ∃ a, S [.field T.idName] a ∧ (back T [T.idName] a).hashable = true

theorem line_says {T : Trip} {cfg : UnCfg} (hcfg : T.Reads cfg) {fs : List (Str × Json)} (ho : T.Object fs) (hf : T.FitsFields [] fs)
    {S : List PKey → Atom → Prop} (hS : SaysSet T (.obj (docF T [] fs)) S) {l : Line} (hl : LineHas T S l)
    (hroot : atomEq (rootCell cfg.rootId l) (rootCell cfg.rootId l) = true) :
    NamesAll cfg T.idName l ∧
    (∀ x, Says cfg T.idName l x → x.root = rootCell cfg.rootId l ∧ (∃ a, S [.field T.idName] a ∧ x.id = back T [T.idName] a) ∧
      ∃ P b, S P b ∧ okP P ∧ pk x.pos = P ∧ x.value = back T (keysP P) b) ∧
    (∀ P b, S P b → ∃ x, Says cfg T.idName l x ∧ x.root = rootCell cfg.rootId l ∧ (∃ a, S [.field T.idName] a ∧ x.id = back T [T.idName] a) ∧
      pk x.pos = P ∧ x.value = back T (keysP P) b) := by
  have hpos : ∀ P b, S P b → okP P ∧ (∀ k ∈ keysP P, GoodKey k) ∧ address T.types [] (strs P) = some (addrOf P) ∧ P ≠ [] := by
    intro P b h
    have h1 := (hS.cell P b h).1
    have h2 := (address_docT (T := T) (.obj fs)).1 fs [] rfl ho hf P _ h1
    refine ⟨h2.1, h2.2.1, h2.2.2, ?_⟩
    rintro rfl
    simp [Tree.sub] at h1
  have hcol : ∀ c ∈ columns l, ∃ P b, S P b ∧ c = ⟨pathText (strs P), T.write b⟩ := by
    intro c hcm
    simp only [columns, List.mem_map, List.mem_filter, Bool.not_eq_true', Prod.exists] at hcm
    obtain ⟨h, a, ⟨hm, hb⟩, rfl⟩ := hcm
    obtain ⟨P, b, h1, rfl, rfl⟩ := hl.from_ h a hm hb
    exact ⟨P, b, h1, rfl⟩
  have haddr : ∀ P b, S P b → (⟨pathText (strs P), T.write b⟩ : Column).addr cfg.row = some (addrOf P) := by
    intro P b h
    obtain ⟨h1, h2, h3, h4⟩ := hpos P b h
    simp only [Column.addr, pathList_strs h4 h2, hcfg.types, h3]
  have hval : ∀ P b, S P b → ∃ w, (⟨pathText (strs P), T.write b⟩ : Column).value cfg.row = .ok (back T (keysP P) b, w) := by
    intro P b h
    obtain ⟨-, ⟨j, hr⟩⟩ := hS.cell P b h
    obtain ⟨⟨w, hw⟩, -⟩ := hr.back
    refine ⟨w, ?_⟩
    simp only [Column.value, haddr P b h, Option.getD_some, hcfg.types, hcfg.conv]
    rw [addrOf_keys (hpos P b h).1]
    exact hw
  have hfit : ((columns l).map (fun c => (c.addr cfg.row).getD [])).Pairwise Compatible := by
    rw [List.pairwise_map]
    have h0 : l.Pairwise (fun x y => x.1 ≠ y.1) := by
      have := hl.columns
      rw [List.Nodup, List.pairwise_map] at this
      exact this
    unfold columns
    rw [List.pairwise_map]
    refine (List.Pairwise.sublist List.filter_sublist h0).imp_of_mem ?_
    intro x y hx hy hne
    simp only [List.mem_filter, Bool.not_eq_true'] at hx hy
    obtain ⟨P, b, h1, e1, e2⟩ := hl.from_ x.1 x.2 hx.1 hx.2
    obtain ⟨Q, b', h1', e1', e2'⟩ := hl.from_ y.1 y.2 hy.1 hy.2
    rw [e1, e2, e1', e2']
    simp only [Option.getD_some]
    rw [haddr P b h1, haddr Q b' h1']
    simp only [Option.getD_some]
    refine tog_compat (hpos P b h1).1 (hpos Q b' h1').1 (hS.cell P b h1).1 (hS.cell Q b' h1').1 (hS.one P Q b b' h1 h1') ?_
    rintro rfl
    exact hne (by rw [e1, e1'])
  have hhas : ∀ P b, S P b → contentOf cfg.row (columns l) (addrOf P) = some (back T (keysP P) b) := by
    intro P b h
    have hm : (⟨pathText (strs P), T.write b⟩ : Column) ∈ columns l := by
      simp only [columns, List.mem_map, List.mem_filter, Bool.not_eq_true', Prod.exists]
      obtain ⟨-, ⟨j, hr⟩⟩ := hS.cell P b h
      exact ⟨_, _, ⟨hl.all P b h, hr.1⟩, rfl⟩
    obtain ⟨w, hw⟩ := hval P b h
    exact contentOf_of_column (nodup_addr hfit) hm (haddr P b h) hw
  have hget : ∀ a v, contentOf cfg.row (columns l) a = some v → ∃ P b, S P b ∧ okP P ∧ a = addrOf P ∧ v = back T (keysP P) b := by
    intro a v h
    obtain ⟨d, hd, hda, w', hdv⟩ := contentOf_addr h
    obtain ⟨P, b, h2, rfl⟩ := hcol d hd
    rw [haddr P b h2] at hda
    cases hda
    obtain ⟨w2, hw2⟩ := hval P b h2
    rw [hw2] at hdv
    simp only [Except.ok.injEq, Prod.mk.injEq] at hdv
    exact ⟨P, b, h2, (hpos P b h2).1, rfl, hdv.1.symm⟩
  have hidc : ∀ a, S [.field T.idName] a → contentOf cfg.row (columns l) [(T.idName, none)] = some (back T [T.idName] a) := fun a ha => hhas _ a ha
  have hnamed : ∀ P b, S P b → namedPos T.idName (contentOf cfg.row (columns l)) (addrOf P) = some (nm P) := by
    intro P b h
    refine namedPos_nm (hpos P b h).1 ?_
    intro PA k v PB e
    have h' := h
    rw [e] at h'
    obtain ⟨-, a, ha, hb⟩ := hS.item PA k v PB b h'
    have := hhas _ a ha
    rw [addrOf_snoc_id (okP_left (by rw [← e]; exact (hpos P b h).1)), hb] at this
    exact this
  refine ⟨⟨?_, hfit, ?_, ?_, ?_, ?_, hroot⟩, ?_, ?_⟩
  · intro c hc
    obtain ⟨P, b, h, rfl⟩ := hcol c hc
    rw [haddr P b h]; simp
  · intro c hc
    obtain ⟨P, b, h, rfl⟩ := hcol c hc
    obtain ⟨w, hw⟩ := hval P b h
    obtain ⟨-, ⟨j, hr⟩⟩ := hS.cell P b h
    exact ⟨_, w, hw, hr.back.2.1, hr.back.2.2.1, hr.back.2.2.2.1⟩
  · obtain ⟨a, ha, hh⟩ := hS.id
    exact ⟨_, hidc a ha, hh⟩
  · intro A k i B v h
    obtain ⟨P, b, h1, h2, h3, -⟩ := hget _ _ h
    have hi : i = 0 := addrOf_zero h2 (k, some i) (by rw [← h3]; simp) i rfl
    subst hi
    obtain ⟨PA, l', PB, rfl, e1, e2, e3, e4⟩ := addrOf_split A h2 h3.symm
    obtain ⟨g1, a, g2, g3⟩ := hS.item PA k l' PB b h1
    have := hhas _ a g2
    rw [addrOf_snoc_id e2, e1, g3] at this
    exact ⟨_, this, g1⟩
  · intro A k i j m a b e hij h1 h2
    exfalso
    obtain ⟨P, _, _, o1, e1, -⟩ := hget _ _ h1
    obtain ⟨Q, _, _, o2, e2, -⟩ := hget _ _ h2
    have i0 := addrOf_zero o1 (k, some i) (by rw [← e1]; simp) i rfl
    have j0 := addrOf_zero o2 (k, some j) (by rw [← e2]; simp) j rfl
    exact hij (by rw [i0, j0])
  · rintro x ⟨hx1, hx2, a, hx3, hx4⟩
    obtain ⟨i, hi, -⟩ := hS.id
    have hid := hidc i hi
    rw [hx2, Option.some.injEq] at hid
    obtain ⟨P, b, h1, h2, rfl, h4⟩ := hget _ _ hx3
    rw [hnamed P b h1, Option.some.injEq] at hx4
    exact ⟨hx1, ⟨i, hi, hid⟩, P, b, h1, h2, by rw [← hx4]; exact pk_nm h2, h4⟩
  · intro P b h
    obtain ⟨i, hi, -⟩ := hS.id
    exact ⟨⟨rootCell cfg.rootId l, back T [T.idName] i, nm P, back T (keysP P) b⟩, ⟨rfl, hidc i hi, addrOf P, hhas P b h, hnamed P b h⟩, rfl, ⟨i, hi, rfl⟩,
      pk_nm (hpos P b h).1, rfl⟩

end Verif
