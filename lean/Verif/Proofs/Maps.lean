import Verif.Proofs.PathOrder
/-! The source maps of a good tree. -/
namespace Verif
open Spec

/-! #### Grouping -/

theorem mem_addOnce {α : Type} [DecidableEq α] {l : List α} {x y : α} : y ∈ addOnce l x ↔ y ∈ l ∨ y = x := by
  unfold addOnce
  split
  · next h => constructor
              · exact Or.inl
              · rintro (h' | rfl)
                · exact h'
                · exact h
  · simp

theorem nodup_addOnce {α : Type} [DecidableEq α] {l : List α} (x : α) (h : l.Nodup) : (addOnce l x).Nodup := by
  unfold addOnce
  split
  · exact h
  · next hx =>
    rw [List.nodup_append]
    refine ⟨h, by simp, ?_⟩
    intro a ha b hb he
    rw [List.mem_singleton] at hb
    subst he hb
    exact hx ha

theorem mem_addAll {α : Type} [DecidableEq α] {xs l : List α} {y : α} : y ∈ xs.foldl addOnce l ↔ y ∈ l ∨ y ∈ xs := by
  induction xs generalizing l with
  | nil => simp
  | cons x r ih => simp only [List.foldl_cons, ih, mem_addOnce, List.mem_cons, or_assoc]

theorem nodup_addAll {α : Type} [DecidableEq α] {xs l : List α} (h : l.Nodup) : (xs.foldl addOnce l).Nodup := by
  induction xs generalizing l with
  | nil => exact h
  | cons x r ih => exact ih (nodup_addOnce x h)

/-- Grouping the elements `g e` under the keys `f e`. -/
def groupBy {ε α : Type} [DecidableEq α] (f : ε → Str) (g : ε → List α) (m : List ε) (d : List (Str × List α)) :
    List (Str × List α) := m.foldl (fun d e => addGroup d (f e) (g e)) d

theorem rowMap_eq (m : PMap) : rowMap m =
    groupBy (fun e => pathStr e.1.dropLast) (fun e => e.2.map (fun l => (l.sheet, l.row))) m [] := rfl

theorem headingMap_eq (m : PMap) : headingMap m =
    groupBy (fun e => headerPath e.1) (fun e => e.2.map (fun l => (l.sheet, l.heading))) m [] := rfl

theorem groupBy_nodup {ε α : Type} [DecidableEq α] (f : ε → Str) (g : ε → List α) (m : List ε) (d : List (Str × List α))
    (h : (Dict.keys d).Nodup) : (Dict.keys (groupBy f g m d)).Nodup := by
  unfold groupBy
  induction m generalizing d with
  | nil => exact h
  | cons e r ih => exact ih _ (Dict.nodup_keys_set _ _ h)

theorem groupBy_spec {ε α : Type} [DecidableEq α] (f : ε → Str) (g : ε → List α) (m : List ε) (d : List (Str × List α))
    (hd : ∀ k l, Dict.get d k = some l → l.Nodup) :
    (∀ k, k ∈ Dict.keys (groupBy f g m d) ↔ k ∈ Dict.keys d ∨ ∃ e ∈ m, f e = k) ∧
    ∀ k l, Dict.get (groupBy f g m d) k = some l → l.Nodup ∧
      ∀ x, x ∈ l ↔ x ∈ (Dict.get d k).getD [] ∨ ∃ e ∈ m, f e = k ∧ x ∈ g e := by
  unfold groupBy
  induction m generalizing d with
  | nil =>
    refine ⟨by simp, ?_⟩
    intro k l h
    simp only [List.foldl_nil] at h
    exact ⟨hd k l h, by simp [h]⟩
  | cons e r ih =>
    simp only [List.foldl_cons]
    have hd' : ∀ k l, Dict.get (addGroup d (f e) (g e)) k = some l → l.Nodup := by
      intro k l h
      unfold addGroup at h
      rw [Dict.get_set] at h
      by_cases hk : f e = k
      · simp only [hk, if_true, Option.some.injEq] at h
        subst h
        apply nodup_addAll
        cases hg : Dict.get d k with
        | none => simp
        | some l' => exact hd k l' hg
      · simp only [hk, if_false] at h; exact hd k l h
    obtain ⟨i1, i2⟩ := ih _ hd'
    constructor
    · intro k
      rw [i1 k]
      unfold addGroup
      rw [Dict.mem_keys_set]
      simp only [List.mem_cons, exists_eq_or_imp]
      grind
    · intro k l h
      obtain ⟨j1, j2⟩ := i2 k l h
      refine ⟨j1, fun x => ?_⟩
      rw [j2 x]
      unfold addGroup
      rw [Dict.get_set]
      simp only [List.mem_cons, exists_eq_or_imp]
      by_cases hk : f e = k
      · subst hk
        simp only [if_true, Option.getD_some, mem_addAll, true_and, or_assoc]
      · simp only [hk, if_false, false_and, false_or]

/-! #### The cell map -/

theorem cellMap_eq {m : PMap} (h : (m.map (fun e => pathStr e.1)).Nodup) :
    cellMap m = m.map (fun e => (pathStr e.1, .cells e.2)) := by
  have gen : ∀ (m : PMap) (d : List (Str × MapEntry)), (Dict.keys d ++ m.map (fun e => pathStr e.1)).Nodup →
      m.foldl (fun d e => Dict.set d (pathStr e.1) (.cells e.2)) d = d ++ m.map (fun e => (pathStr e.1, .cells e.2)) := by
    intro m
    induction m with
    | nil => intro d _; simp
    | cons e r ih =>
      intro d hd
      simp only [List.foldl_cons, List.map_cons]
      have hno : Dict.get d (pathStr e.1) = none := by
        rw [Dict.get_none_iff]
        intro hk
        exact (List.nodup_append.1 hd).2.2 _ hk _ (by simp) rfl
      rw [Dict.set_of_get_none _ _ _ hno, ih _ (by simpa [Dict.keys] using hd)]
      simp
  have := gen m [] (by simpa [Dict.keys] using h)
  simpa [cellMap] using this

theorem addRows_ok {rs : List (Str × List (Str × Nat))} {m : List (Str × MapEntry)}
    (h : (Dict.keys m ++ Dict.keys rs).Nodup) :
    addRows rs m = .ok (m ++ rs.map (fun e => (e.1, .rows e.2))) := by
  induction rs generalizing m with
  | nil => simp [addRows]
  | cons e r ih =>
    obtain ⟨k, l⟩ := e
    have hno : Dict.has m k = false := by
      cases hh : Dict.has m k with
      | false => rfl
      | true =>
        rw [Dict.has_iff] at hh
        exact absurd rfl ((List.nodup_append.1 h).2.2 k hh k (by simp [Dict.keys]))
    simp only [addRows, hno, Bool.false_eq_true, if_false]
    rw [ih (by simpa [Dict.keys] using h)]
    simp

/-! #### All together -/

/-- The path of an entry, below the root. -/
def EntryOk (root : Option Str) (e : List PStep × List Loc) : Prop :=
  ∃ q, e.1 = rootSteps root ++ q ∧ 2 ≤ q.length ∧ NoSlash q

theorem sep_of_prefix {r p q : List PStep} (h : Sep (r ++ p) (r ++ q)) : Sep p q := by
  induction r with
  | nil => exact h
  | cons s r ih => cases s <;> simp [Sep] at h <;> exact ih h

theorem pathStr_nodup {root : Option Str} {m : PMap} (hs : AllSep m) (he : ∀ e ∈ m, EntryOk root e) :
    (m.map (fun e => pathStr e.1)).Nodup := by
  unfold List.Nodup
  rw [List.pairwise_map]
  refine List.Pairwise.imp_of_mem ?_ hs
  intro a b ha hb hab hp
  obtain ⟨p, hp1, hp2, hp3⟩ := he a ha
  obtain ⟨q, hq1, hq2, hq3⟩ := he b hb
  rw [hp1, hq1] at hp hab
  have := pathStr_inj (by intro h; simp [h] at hp2) (by intro h; simp [h] at hq2) hp3 hq3 hp
  exact Sep.str (sep_of_prefix hab) [] [] (by simpa using this)

theorem noSlash_dropLast {q : List PStep} (h : NoSlash q) : NoSlash q.dropLast :=
  fun k hk => h k (List.dropLast_subset _ hk)

/-- Rows and cells have different keys. -/
theorem row_cell_ne {root : Option Str} {m : PMap} (hs : AllSep m) (he : ∀ e ∈ m, EntryOk root e)
    {a b : List PStep × List Loc} (ha : a ∈ m) (hb : b ∈ m) : pathStr a.1.dropLast ≠ pathStr b.1 := by
  intro hp
  obtain ⟨p, hp1, hp2, hp3⟩ := he a ha
  obtain ⟨q, hq1, hq2, hq3⟩ := he b hb
  have hpne : p ≠ [] := by intro h; simp [h] at hp2
  have hdrop : (rootSteps root ++ p).dropLast = rootSteps root ++ p.dropLast := by
    rw [List.dropLast_append_of_ne_nil hpne]
  rw [hp1, hq1, hdrop] at hp
  have hst := pathStr_inj (by intro h; have := congrArg List.length h; simp at this; omega)
    (by intro h; simp [h] at hq2) (noSlash_dropLast hp3) hq3 hp
  have hlen := congrArg List.length hst
  simp only [List.length_map, List.length_dropLast] at hlen
  -- the two paths are different, so they part
  have hne : a ≠ b := by
    intro h
    subst h
    have : p = q := List.append_cancel_left (hp1.symm.trans hq1)
    subst this; omega
  have hab : Sep p q := by
    have : Sep a.1 b.1 := by
      obtain ⟨i, hi, rfl⟩ := List.mem_iff_getElem.1 ha
      obtain ⟨j, hj, rfl⟩ := List.mem_iff_getElem.1 hb
      have := List.pairwise_iff_getElem.1 hs
      rcases Nat.lt_trichotomy i j with h | h | h
      · exact this i j hi hj h
      · subst h; exact absurd rfl hne
      · exact (this j i hj hi h).symm
    rw [hp1, hq1] at this
    exact sep_of_prefix this
  -- one more component after the row's path
  obtain ⟨l, hl⟩ : ∃ l, p = p.dropLast ++ [l] := ⟨p.getLast hpne, (List.dropLast_concat_getLast hpne).symm⟩
  apply Sep.str hab [] [l]
  rw [List.append_nil, hl]
  simp only [List.map_append, List.map_cons, List.map_nil, hst]

theorem rootList_eq (root : Option Str) : rootPrefix root = rootSteps root := by
  cases root <;> rfl

theorem sourceMaps_ok {Q : Str → Prop} {P : List Str → Cell → Prop} (hQ : ∀ k, Q k → '/' ∉ k)
    {tree : List (List (Str × CTree))} (hg : CGoodI Q P [] tree) (root : Option Str) (wc wh : Bool) :
    ∃ sorted : PMap, sorted.Perm ((cellsInItems 0 tree).map (entryOf (rootSteps root))) ∧ AllSep sorted ∧
      (∀ e ∈ sorted, EntryOk root e) ∧ (sorted.map (·.1)).Pairwise PathLt ∧
      sourceMaps root wc wh tree = .ok
        (if !wc && !wh then (none, none)
         else (if wc then some (sorted.map (fun e => (pathStr e.1, .cells e.2)) ++
                  (rowMap sorted).map (fun e => (e.1, .rows e.2))) else none,
               some (if wh then headingMap sorted else []))) := by
  obtain ⟨hc, hsep⟩ := cells_goodI [] 0 tree hg
  have hsep' := allSep_entryOf (rootSteps root) hsep
  have hl := listErrorPath_ok [] (rootSteps root) 0 tree [] hg (by simpa using hsep')
  rw [List.nil_append] at hl
  obtain ⟨sorted, hs1, hs2⟩ := sortPaths_ok hsep'
  have hs3 := hsep'.perm hs2
  have hok : ∀ e ∈ sorted, EntryOk root e := by
    intro e he
    obtain ⟨d, hd, rfl⟩ := List.mem_map.1 (hs2.subset he)
    refine ⟨d.1, rfl, ?_, ?_⟩
    · obtain ⟨j, k, p, h1, _⟩ := cellsInItems_head hd
      rw [h1]; simp
    · intro k hk
      exact hQ k ((hc d hd).2.2 k hk)
  refine ⟨sorted, hs2, hs3, hok, (sortPaths_sorted hsep' hs1).1, ?_⟩
  unfold sourceMaps
  by_cases hn : (!wc && !wh) = true
  · simp only [hn, if_true]
  · simp only [hn]
    simp only [rootList_eq, hl, hs1]
    have hnd := pathStr_nodup hs3 hok
    have hrows : addRows (rowMap sorted) (cellMap sorted) =
        .ok (sorted.map (fun e => (pathStr e.1, .cells e.2)) ++ (rowMap sorted).map (fun e => (e.1, .rows e.2))) := by
      rw [cellMap_eq hnd]
      apply addRows_ok
      rw [List.nodup_append]
      refine ⟨?_, ?_, ?_⟩
      · simpa [Dict.keys, Function.comp_def] using hnd
      · rw [rowMap_eq]; exact groupBy_nodup _ _ _ _ (by simp [Dict.keys])
      · intro x hx y hy hxy
        subst hxy
        rw [rowMap_eq, (groupBy_spec _ _ _ _ (by simp)).1] at hy
        simp only [Dict.keys, List.map_nil, List.not_mem_nil, false_or] at hy
        obtain ⟨a, ha, hay⟩ := hy
        simp only [Dict.keys, List.map_map, List.mem_map, Function.comp] at hx
        obtain ⟨b, hb, hbx⟩ := hx
        exact row_cell_ne hs3 hok ha hb (hay.trans hbx.symm)
    rw [hrows]
    cases wc <;> simp

/-! #### The cells of a run -/

theorem tallK_td {Q : Str → Prop} {P P' : List Str → Cell → Prop} (h : ∀ p c, P p c → P' p c) (td : TDict)
    (ht : TDAll Q P [] td) : TDAll Q P' [] td := by
  refine ⟨?_, ?_⟩
  · rw [tallK_iff]
    intro e he
    exact tallF_mono h [] _ (tallK_iff.1 ht.1 e he)
  · rw [tallI_iff]
    intro e he
    exact tallF_mono h [] _ (tallI_iff.1 ht.2 e he)

end Verif
