import Verif.Proofs.Merge
/-! Invariants of the row builder and of merging: what every key and every cell satisfies. -/
namespace Verif

mutual
/-- All keys of dicts satisfy `Q`, the cell at key path `p` satisfies `P p`, keys and indices are
distinct. -/
def RAll (Q : Str → Prop) (P : List Str → Cell → Prop) (p : List Str) : RTree → Prop
  | .cell c => P p c
  | .obj fs => RAllF Q P p fs
  | .lad is => RAllI Q P p is
def RAllF (Q : Str → Prop) (P : List Str → Cell → Prop) (p : List Str) : List (Str × RTree) → Prop
  | [] => True
  | (k, t) :: r => k ∉ Dict.keys r ∧ Q k ∧ RAll Q P (p ++ [k]) t ∧ RAllF Q P p r
def RAllI (Q : Str → Prop) (P : List Str → Cell → Prop) (p : List Str) :
    List (Int × List (Str × RTree)) → Prop
  | [] => True
  | (i, fs) :: r => i ∉ Dict.keys r ∧ RAllF Q P p fs ∧ RAllI Q P p r
end

section
variable {Q : Str → Prop} {P : List Str → Cell → Prop}

theorem rallF_iff {p : List Str} {fs : RFields} : RAllF Q P p fs ↔
    (Dict.keys fs).Nodup ∧ ∀ k t, Dict.get fs k = some t → Q k ∧ RAll Q P (p ++ [k]) t := by
  induction fs with
  | nil => simp [RAllF, Dict.keys]
  | cons e r ih =>
    obtain ⟨j, t⟩ := e
    simp only [RAllF, ih, Dict.keys, List.map_cons, List.nodup_cons]
    constructor
    · rintro ⟨h1, hq, h2, h3, h4⟩
      refine ⟨⟨h1, h3⟩, ?_⟩
      intro k t' h
      rw [Dict.get_cons] at h
      by_cases hk : j = k
      · subst hk; simp at h; exact h ▸ ⟨hq, h2⟩
      · simp [hk] at h; exact h4 k t' h
    · rintro ⟨⟨h1, h3⟩, h4⟩
      have := h4 j t (by simp [Dict.get_cons])
      refine ⟨h1, this.1, this.2, h3, ?_⟩
      intro k t' h
      apply h4 k
      rw [Dict.get_cons]
      have : j ≠ k := by
        rintro rfl
        exact h1 (Dict.mem_keys_of_mem (Dict.get_eq_some_mem h))
      simp [this, h]

theorem rallI_iff {p : List Str} {is : List (Int × RFields)} : RAllI Q P p is ↔
    (Dict.keys is).Nodup ∧ ∀ i fs, Dict.get is i = some fs → RAllF Q P p fs := by
  induction is with
  | nil => simp [RAllI, Dict.keys]
  | cons e r ih =>
    obtain ⟨j, t⟩ := e
    simp only [RAllI, ih, Dict.keys, List.map_cons, List.nodup_cons]
    constructor
    · rintro ⟨h1, h2, h3, h4⟩
      refine ⟨⟨h1, h3⟩, ?_⟩
      intro k t' h
      rw [Dict.get_cons] at h
      by_cases hk : j = k
      · subst hk; simp at h; exact h ▸ h2
      · simp [hk] at h; exact h4 k t' h
    · rintro ⟨⟨h1, h3⟩, h4⟩
      refine ⟨h1, h4 j t (by simp [Dict.get_cons]), h3, ?_⟩
      intro k t' h
      apply h4 k
      rw [Dict.get_cons]
      have : j ≠ k := by
        rintro rfl
        exact h1 (Dict.mem_keys_of_mem (Dict.get_eq_some_mem h))
      simp [this, h]

theorem rallF_set {p : List Str} {fs : RFields} (h : RAllF Q P p fs) {k : Str} {t : RTree} (hq : Q k)
    (ht : RAll Q P (p ++ [k]) t) : RAllF Q P p (Dict.set fs k t) := by
  rw [rallF_iff] at h ⊢
  refine ⟨Dict.nodup_keys_set _ _ h.1, ?_⟩
  intro k' t' h'
  rw [Dict.get_set] at h'
  by_cases hk : k = k'
  · subst hk; simp at h'; subst h'; exact ⟨hq, ht⟩
  · simp [hk] at h'; exact h.2 k' t' h'

theorem rallI_set {p : List Str} {is : List (Int × RFields)} (h : RAllI Q P p is) {i : Int} {fs : RFields}
    (ht : RAllF Q P p fs) : RAllI Q P p (Dict.set is i fs) := by
  rw [rallI_iff] at h ⊢
  refine ⟨Dict.nodup_keys_set _ _ h.1, ?_⟩
  intro k' t' h'
  rw [Dict.get_set] at h'
  by_cases hk : i = k'
  · subst hk; simp at h'; subst h'; exact ht
  · simp [hk] at h'; exact h.2 k' t' h'
end

/-- The keys among path components: those that are not integers. -/
def keysOf (items : List Str) : List Str := items.filter (fun i => !isint i)

theorem keysOf_append (a b : List Str) : keysOf (a ++ b) = keysOf a ++ keysOf b := List.filter_append _ _

theorem keysOf_single {item : Str} (h : ¬ isint item = true) : keysOf [item] = [item] := by
  simp [keysOf, h]

theorem keysOf_single_int {item : Str} (h : isint item = true) : keysOf [item] = [] := by
  simp [keysOf, h]

/-- The key paths at which the row builder can put a cell for the component `item` of a dict at
path `p`. -/
def LeafPath (xml : Bool) (p : List Str) (item : Str) (q : List Str) : Prop :=
  q = p ++ [item] ∨
  (xml = true ∧ (q = p ++ [item, s%"text()"] ∨ q = p ++ [item, item]))

/-- What the invariant of the row builder needs to know about keys and cells. -/
structure PlaceInv (cfg : RowCfg) (path : Str) (comps : List Str) (Q : Str → Prop)
    (P : List Str → Cell → Prop) (Pin : List Str → Cell → Prop) (Pth : List Str → List Str → Prop) :
    Prop where
  pInt : ∀ pre p item, isint item = true → Pth pre p → Pth (pre ++ [item]) p
  pKey : ∀ pre p item, ¬ isint item = true → Pth pre p → Pth (pre ++ [item]) (p ++ [item])
  pStay : ∀ pre p item rest, comps = pre ++ item :: rest → rest ≠ [] → rest.headD [] = [] →
    Pth pre p → Pth (pre ++ [item]) p
  key : ∀ item ∈ comps, ¬ isint item = true → Q item
  text : cfg.xml = true → Q s%"text()"
  tail : ∀ item rest cell, Pin (item :: rest) cell → Pin rest cell
  leaf : ∀ pre p item rest cell ty v w, comps = pre ++ item :: rest → ¬ isint item = true →
    Pth pre p → Pin (item :: rest) cell →
    (ty = currentType cfg path (pathTillNow (pre ++ [item])) cell (rest.headD []) ∧ rest.headD [] = [] ∨
      cfg.xml = true ∧ ty = some .array ∧ rest.length ≤ 1) →
    convertCell cfg ty cell.value = .ok (v, w) →
    Pin rest { cell with value := v } ∧
    (v.blank = false → ∀ q, LeafPath cfg.xml p item q → P q { cell with value := v })

theorem placeLeaf_all {cfg : RowCfg} {Q : Str → Prop} {P : List Str → Cell → Prop} {p : List Str}
    {ty : Option CType} {till item : Str} {cell cell' : Cell} {cur cur' : RFields} {w : List Warn}
    (h : placeLeaf cfg ty till item cell cur = .ok (cur', cell', w))
    (hq : Q item) (ht : cfg.xml = true → Q s%"text()") (hcur : RAllF Q P p cur)
    (hP : ∀ v w', convertCell cfg ty cell.value = .ok (v, w') → v.blank = false →
      P (p ++ [item]) { cell with value := v } ∧
      (cfg.xml = true → P (p ++ [s%"text()"]) { cell with value := v } ∨ ty ≠ some .array) ∧
      (cfg.xml = true → P (p ++ [item, s%"text()"]) { cell with value := v } ∨ ty = some .array)) :
    RAllF Q P p cur' ∧ (cell' = cell ∨ ∃ v w', convertCell cfg ty cell.value = .ok (v, w') ∧
      cell' = { cell with value := v }) := by
  unfold placeLeaf at h
  cases hbl : leafBlocked cfg.xml (Dict.get cur item) with
  | true => rw [hbl] at h; simp only [if_true] at h; cases h; exact ⟨hcur, Or.inl rfl⟩
  | false =>
    rw [hbl] at h
    simp only [Bool.false_eq_true, if_false] at h
    cases hc : convertCell cfg ty cell.value with
    | error e => simp [hc] at h
    | ok vw =>
      obtain ⟨v, w'⟩ := vw
      simp only [hc] at h
      cases hb : v.blank with
      | true =>
        simp [hb] at h
        obtain ⟨rfl, rfl, rfl⟩ := h
        exact ⟨hcur, Or.inr ⟨v, w', rfl, rfl⟩⟩
      | false =>
        have hP' := hP v w' hc hb
        simp only [hb, Bool.false_eq_true, if_false] at h
        cases hp : putCell cfg ty item { cell with value := v } cur with
        | error e => simp [hp] at h
        | ok cur2 =>
          simp only [hp] at h
          injection h with h
          simp only [Prod.mk.injEq] at h
          obtain ⟨rfl, rfl, rfl⟩ := h
          refine ⟨?_, Or.inr ⟨v, w', rfl, rfl⟩⟩
          unfold putCell at hp
          by_cases hx : cfg.xml = true
          · simp only [hx, if_true] at hp
            split at hp
            · cases hp; exact rallF_set hcur hq hP'.1
            · split at hp
              · next hty =>
                cases hp
                refine rallF_set hcur (ht hx) ?_
                rcases hP'.2.1 hx with h | h
                · exact h
                · exact absurd hty h
              · next hty =>
                have hP2 : P (p ++ [item, s%"text()"]) { cell with value := v } := by
                  rcases hP'.2.2 hx with h | h
                  · exact h
                  · exact absurd h hty
                have hnew : ∀ fs, RAllF Q P (p ++ [item]) fs →
                    RAllF Q P (p ++ [item]) (Dict.set fs s%"text()" (.cell { cell with value := v })) := by
                  intro fs hfs
                  refine rallF_set hfs (ht hx) ?_
                  simpa [RAll] using hP2
                split at hp
                · cases hp
                  refine rallF_set hcur hq ?_
                  have := hnew [] (by simp [RAllF])
                  simpa [RAll, Dict.set] using this
                · next fs hg =>
                  cases hp
                  refine rallF_set hcur hq ?_
                  have := (rallF_iff.1 hcur).2 item _ hg
                  simp only [RAll] at this ⊢
                  exact hnew fs this.2
                · cases hp
          · simp only [hx] at hp
            cases hp
            exact rallF_set hcur hq hP'.1

theorem mapW_ok {f : RFields → RFields} {w w' : List Warn} {r : Except Err (RFields × List Warn)} {c : RFields}
    (h : mapW f w r = .ok (c, w')) : ∃ c0 w0, r = .ok (c0, w0) ∧ c = f c0 ∧ w' = w ++ w0 := by
  cases r with
  | error e => simp [mapW] at h
  | ok x => obtain ⟨a, b⟩ := x; simp [mapW] at h; exact ⟨a, b, rfl, h.1.symm, h.2.symm⟩

theorem place_all {cfg : RowCfg} {path : Str} {comps : List Str} {Q : Str → Prop}
    {P : List Str → Cell → Prop} {Pin : List Str → Cell → Prop} {Pth : List Str → List Str → Prop}
    (inv : PlaceInv cfg path comps Q P Pin Pth) (items : List Str) :
    ∀ (pre p : List Str) (cell : Cell) (cur cur' : RFields) (w : List Warn), comps = pre ++ items →
      Pth pre p → Pin items cell → RAllF Q P p cur →
      place cfg path pre items cell cur = .ok (cur', w) → RAllF Q P p cur' := by
  induction items with
  | nil => intro pre p cell cur cur' w _ _ _ hcur h; simp [place] at h; exact h.1 ▸ hcur
  | cons item rest ih =>
    intro pre p cell cur cur' w hcomps hpth hpin hcur h
    have hcomps' : comps = (pre ++ [item]) ++ rest := by simp [hcomps]
    rw [place] at h
    by_cases hint : isint item = true
    · rw [if_pos hint] at h
      obtain ⟨cur2, w2, hp, rfl, rfl⟩ := mapW_ok h
      · exact ih (pre ++ [item]) p cell cur _ _ hcomps' (inv.pInt _ _ _ hint hpth) (inv.tail _ _ _ hpin) hcur hp
    · rw [if_neg hint] at h
      have hpth' := inv.pKey _ _ _ hint hpth
      have hq : Q item := inv.key item (by simp [hcomps]) hint
      have hpin' := inv.tail _ _ _ hpin
      simp only at h
      split at h
      · cases h
      · split at h
        · -- array
          next idx _ =>
          split at h
          · cases h; exact hcur
          · next is hm =>
            have his : RAllI Q P (p ++ [item]) is := by
              cases hg : Dict.get cur item with
              | none => simp only [ladAt, objAt, hg] at hm; injection hm with hm; subst hm; simp [RAllI]
              | some t =>
                simp only [ladAt, hg] at hm
                cases t with
                | lad is' =>
                  injection hm with hm; subst hm
                  have := (rallF_iff.1 hcur).2 item _ hg
                  simpa only [RAll] using this.2
                | cell _ => cases hm
                | obj _ => cases hm
            have hinner : RAllF Q P (p ++ [item]) ((Dict.get is idx).getD []) := by
              cases hg : Dict.get is idx with
              | none => simp [RAllF]
              | some fs => exact (rallI_iff.1 his).2 idx fs hg
            have fin : ∀ inner', RAllF Q P (p ++ [item]) inner' →
                RAllF Q P p (Dict.set cur item (.lad (Dict.set is idx inner'))) := by
              intro inner' hi
              refine rallF_set hcur hq ?_
              simp only [RAll]
              exact rallI_set his hi
            split at h
            · obtain ⟨inner', w', hp, rfl, rfl⟩ := mapW_ok h
              · exact fin _ (ih _ _ _ _ _ _ hcomps' hpth' hpin' hinner hp)
            · next hcond =>
              have hx : cfg.xml = true := by
                cases hxx : cfg.xml <;> simp [hxx] at hcond ⊢
              have hlen : rest.length ≤ 1 := by
                simp [hx] at hcond; omega
              split at h
              · cases h
              · next inner1 cell' w1 hpl =>
                have hl := placeLeaf_all hpl hq inv.text hinner (by
                  intro v w' hc hb
                  have := (inv.leaf pre p item rest cell (some .array) v w' hcomps hint hpth hpin
                    (Or.inr ⟨hx, rfl, hlen⟩) hc).2 hb
                  refine ⟨?_, fun _ => Or.inl ?_, fun _ => Or.inr rfl⟩
                  · apply this; right; exact ⟨hx, Or.inr (by simp)⟩
                  · apply this; right; exact ⟨hx, Or.inl (by simp)⟩)
                obtain ⟨inner2, w2, hp, rfl, rfl⟩ := mapW_ok h
                · refine fin _ (ih _ _ cell' _ _ _ hcomps' hpth' ?_ hl.1 hp)
                  rcases hl.2 with h | ⟨v, w', hc, h⟩
                  · rw [h]; exact hpin'
                  · rw [h]
                    exact (inv.leaf pre p item rest cell (some .array) v w' hcomps hint hpth hpin
                      (Or.inr ⟨hx, rfl, hlen⟩) hc).1
        · next hidx =>
          split at h
          · -- object
            split at h
            · cases h; exact hcur
            · next fs hm =>
              have hfs : RAllF Q P (p ++ [item]) fs := by
                cases hg : Dict.get cur item with
                | none => simp only [ladAt, objAt, hg] at hm; injection hm with hm; subst hm; simp [RAllF]
                | some t =>
                  simp only [objAt, hg] at hm
                  cases t with
                  | obj fs' =>
                    injection hm with hm; subst hm
                    have := (rallF_iff.1 hcur).2 item _ hg
                    simpa only [RAll] using this.2
                  | cell _ => cases hm
                  | lad _ => cases hm
              obtain ⟨fs', w', hp, rfl, rfl⟩ := mapW_ok h
              · refine rallF_set hcur hq ?_
                simp only [RAll]
                exact ih _ _ _ _ _ _ hcomps' hpth' hpin' hfs hp
          · split at h
            · cases h
            · next hobj hnext =>
              have hcond : rest.headD [] = [] := by
                by_cases hn : rest.headD [] = []
                · exact hn
                · exfalso
                  cases hty : currentType cfg path (pathTillNow (pre ++ [item])) cell (rest.headD []) with
                  | none => exact hobj (Or.inr ⟨hty, hn⟩)
                  | some t => exact hnext ⟨by rw [hty]; simp, hn⟩
              have harr : currentType cfg path (pathTillNow (pre ++ [item])) cell (rest.headD []) ≠ some .array := by
                intro hty
                rw [hty] at hidx
                unfold arrayIndex at hidx
                split at hidx <;> simp at hidx
              split at h
              · cases h
              · next cur1 cell' w1 hpl =>
                have hl := placeLeaf_all hpl hq inv.text hcur (by
                  intro v w' hc hb
                  have := (inv.leaf pre p item rest cell _ v w' hcomps hint hpth hpin
                    (Or.inl ⟨rfl, hcond⟩) hc).2 hb
                  refine ⟨this _ (Or.inl rfl), fun _ => Or.inr harr, fun hx => Or.inl ?_⟩
                  exact this _ (Or.inr ⟨hx, Or.inl rfl⟩))
                obtain ⟨cur2, w2, hp, rfl, rfl⟩ := mapW_ok h
                · have hpin2 : Pin rest cell' := by
                    rcases hl.2 with h | ⟨v, w', hc, h⟩
                    · rw [h]; exact hpin'
                    · rw [h]
                      exact (inv.leaf pre p item rest cell _ v w' hcomps hint hpth hpin
                        (Or.inl ⟨rfl, hcond⟩) hc).1
                  by_cases hr : rest = []
                  · subst hr; simp [place] at hp; exact hp.1 ▸ hl.1
                  · exact ih _ _ cell' _ _ _ hcomps' (inv.pStay pre p item rest hcomps hr hcond hpth)
                      hpin2 hl.1 hp

end Verif
