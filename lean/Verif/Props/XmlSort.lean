import Verif.Spec.Xml
import Verif.Proofs.Dict
/-! C44: sorting XML output by schema. -/
namespace Verif
open Spec Xml

theorem insertRank_perm (keys : List Str) (x : Elem) (l : List Elem) : (insertRank keys x l).Perm (x :: l) := by
  induction l with
  | nil => exact .refl _
  | cons y r ih =>
    rw [insertRank]
    split
    · exact .refl _
    · exact (ih.cons y).trans (.swap x y r)

theorem sortRank_perm (keys : List Str) (l : List Elem) : (sortRank keys l).Perm l := by
  induction l with
  | nil => exact .refl _
  | cons x r ih => exact (insertRank_perm keys x _).trans (ih.cons x)

theorem insertRank_sorted (keys : List Str) (x : Elem) (l : List Elem)
    (h : l.Pairwise (fun c d => rank keys c.tag ≤ rank keys d.tag)) :
    (insertRank keys x l).Pairwise (fun c d => rank keys c.tag ≤ rank keys d.tag) := by
  induction l with
  | nil => simp [insertRank]
  | cons y r ih =>
    rw [insertRank]
    rw [List.pairwise_cons] at h
    split
    · next hle =>
      refine List.pairwise_cons.2 ⟨?_, List.pairwise_cons.2 h⟩
      intro z hz
      rcases List.mem_cons.1 hz with rfl | hz
      · exact hle
      · exact Nat.le_trans hle (h.1 z hz)
    · next hle =>
      refine List.pairwise_cons.2 ⟨?_, ih h.2⟩
      intro z hz
      rcases List.mem_cons.1 ((insertRank_perm keys x r).mem_iff.1 hz) with rfl | hz
      · omega
      · exact h.1 z hz

theorem sortRank_sorted (keys : List Str) (l : List Elem) :
    (sortRank keys l).Pairwise (fun c d => rank keys c.tag ≤ rank keys d.tag) := by
  induction l with
  | nil => exact List.Pairwise.nil
  | cons x r ih => exact insertRank_sorted keys x _ ih

theorem insertRank_filter (keys : List Str) (P : Elem → Bool) (hP : ∀ a b, P a → P b → rank keys a.tag = rank keys b.tag)
    (x : Elem) (l : List Elem) : (insertRank keys x l).filter P = (x :: l).filter P := by
  induction l with
  | nil => rfl
  | cons y r ih =>
    rw [insertRank]
    split
    · rfl
    · next hle =>
      rw [List.filter_cons, ih]
      cases hx : P x with
      | false => simp [List.filter_cons, hx]
      | true =>
        cases hy : P y with
        | false => simp [List.filter_cons, hx, hy]
        | true => exact absurd (hP x y hx hy) (by omega)

theorem sortRank_filter (keys : List Str) (P : Elem → Bool) (hP : ∀ a b, P a → P b → rank keys a.tag = rank keys b.tag)
    (l : List Elem) : (sortRank keys l).filter P = l.filter P := by
  induction l with
  | nil => rfl
  | cons x r ih => rw [sortRank, insertRank_filter keys P hP, List.filter_cons, List.filter_cons, ih]

theorem not_precedes {keys : List Str} {a b : Str} (h : rank keys a ≤ rank keys b) : ¬ Precedes keys b a := by
  rintro ⟨h1, h2⟩
  have hlt := List.idxOf_lt_length_of_mem h1
  unfold rank at h
  rw [if_pos h1] at h
  rcases h2 with h2 | h2
  · rw [if_neg h2] at h; omega
  · by_cases ha : a ∈ keys
    · rw [if_pos ha] at h; omega
    · rw [if_neg ha] at h; omega

mutual
/-- C44: `sort_element` sorts by the schema, at every level: only the order of children changes, and children that the schema does
not tell apart keep their order. -/
theorem C44_sorted_by_schema (o : Order) (e : Elem) : SortedAs o e (sortElement o e) := by
  match e with
  | .mk t a x cs =>
    rw [sortElement]
    refine .mk (sortChildren_sorted o cs) (sortRank_perm _ _).symm ?_ ?_ ?_
    · exact (sortRank_sorted _ _).imp (fun h => not_precedes h)
    · intro name hn
      apply sortRank_filter
      intro a b ha hb
      simp only [decide_eq_true_eq] at ha hb
      rw [ha, hb]
    · apply sortRank_filter
      intro a b ha hb
      simp only [decide_eq_true_eq] at ha hb
      rw [rank, rank, if_neg ha, if_neg hb]
termination_by structural e
theorem sortChildren_sorted (o : Order) (cs : List Elem) : SortedChildren o cs (sortChildren o cs) := by
  match cs with
  | [] => rw [sortChildren]; exact .nil
  | c :: r => rw [sortChildren]; exact .cons (C44_sorted_by_schema _ c) (sortChildren_sorted o r)
termination_by structural cs
end

/-! The specification determines the result: there is only one way to sort. -/

theorem tag_sortElement (o : Order) (e : Elem) : (sortElement o e).tag = e.tag := by
  cases e; rw [sortElement]; rfl

/-- Elements with the same rank are not told apart. -/
theorem rank_inj {keys : List Str} {a b : Str} (ha : a ∈ keys) (h : rank keys a = rank keys b) : a = b := by
  have hlt := List.idxOf_lt_length_of_mem ha
  unfold rank at h
  rw [if_pos ha] at h
  by_cases hb : b ∈ keys
  · rw [if_pos hb] at h
    have g1 : keys[keys.idxOf a]? = some a := by
      rw [List.getElem?_eq_getElem hlt, List.getElem_idxOf]
    have g2 : keys[keys.idxOf b]? = some b := by
      rw [List.getElem?_eq_getElem (List.idxOf_lt_length_of_mem hb), List.getElem_idxOf]
    rw [h, g2] at g1
    exact (Option.some.inj g1).symm
  · rw [if_neg hb] at h; omega

theorem rank_of_not_precedes {keys : List Str} {a b : Str} (h : ¬ Precedes keys b a) : rank keys a ≤ rank keys b := by
  unfold rank
  by_cases ha : a ∈ keys
  · have hlt := List.idxOf_lt_length_of_mem ha
    rw [if_pos ha]
    by_cases hb : b ∈ keys
    · rw [if_pos hb]
      exact Nat.le_of_not_lt (fun hc => h ⟨hb, Or.inr hc⟩)
    · rw [if_neg hb]; omega
  · rw [if_neg ha]
    by_cases hb : b ∈ keys
    · exact absurd ⟨hb, Or.inl ha⟩ h
    · rw [if_neg hb]; omega

/-- Two sorted lists with the same classes are equal. -/
theorem sorted_unique (r : Elem → Nat) : ∀ (l m : List Elem), l.Pairwise (fun a b => r a ≤ r b) → m.Pairwise (fun a b => r a ≤ r b) →
    (∀ n, l.filter (fun a => r a = n) = m.filter (fun a => r a = n)) → l = m
  | [], [], _, _, _ => rfl
  | [], b :: m, _, _, h => by have := h (r b); simp at this
  | a :: l, [], _, _, h => by have := h (r a); simp at this
  | a :: l, b :: m, hl, hm, h => by
    rw [List.pairwise_cons] at hl hm
    have hab : r a = r b := by
      have h1 : a ∈ (b :: m).filter (fun c => r c = r a) := by rw [← h]; simp
      have h2 : b ∈ (a :: l).filter (fun c => r c = r b) := by rw [h]; simp
      have g1 : r b ≤ r a := by
        rcases List.mem_cons.1 (List.mem_filter.1 h1).1 with rfl | hc
        · exact Nat.le_refl _
        · exact hm.1 a hc
      have g2 : r a ≤ r b := by
        rcases List.mem_cons.1 (List.mem_filter.1 h2).1 with rfl | hc
        · exact Nat.le_refl _
        · exact hl.1 b hc
      omega
    have heq : a = b := by
      have := h (r a)
      simp only [List.filter_cons, decide_true, if_true, hab, List.cons.injEq] at this
      exact this.1
    subst heq
    congr 1
    apply sorted_unique r l m hl.2 hm.2
    intro n
    have := h n
    simp only [List.filter_cons] at this
    split at this
    · simpa using this
    · exact this

mutual
/-- C44: there is only one way to sort as specified. -/
theorem C44_sorting_is_unique (o : Order) (e e1 : Elem) (h : SortedAs o e e1) : e1 = sortElement o e := by
  match e with
  | .mk t a x cs =>
    cases h with
    | @mk _ _ _ _ _ ds cs' h1 h2 h3 h4 h5 =>
      have hd := sortedChildren_unique o cs ds h1
      subst hd
      rw [sortElement]
      congr 1
      apply sorted_unique (fun c => rank (Dict.keys o.entries) c.tag)
      · exact h3.imp (fun h => rank_of_not_precedes h)
      · exact sortRank_sorted _ _
      · intro n
        rw [sortRank_filter _ _ (by intro a b ha hb; simp only [decide_eq_true_eq] at ha hb; rw [ha, hb])]
        by_cases hn : ∃ name ∈ Dict.keys o.entries, rank (Dict.keys o.entries) name = n
        · obtain ⟨name, hk, rfl⟩ := hn
          have hp : (fun c : Elem => decide (rank (Dict.keys o.entries) c.tag = rank (Dict.keys o.entries) name)) = (fun c => decide (c.tag = name)) := by
            funext c
            rw [decide_eq_decide]
            exact ⟨fun h => (rank_inj hk h.symm).symm, fun h => by rw [h]⟩
          rw [hp]; exact h4 name hk
        · have hz : ∀ c : Elem, rank (Dict.keys o.entries) c.tag = n → c.tag ∉ Dict.keys o.entries := fun c hc hm => hn ⟨_, hm, hc⟩
          have hp : (fun c : Elem => decide (rank (Dict.keys o.entries) c.tag = n)) =
              (fun c => decide (rank (Dict.keys o.entries) c.tag = n) && decide (c.tag ∉ Dict.keys o.entries)) := by
            funext c
            by_cases hc : rank (Dict.keys o.entries) c.tag = n
            · simp [hc, hz c hc]
            · simp [hc]
          rw [hp, ← List.filter_filter, ← List.filter_filter, h5]
termination_by structural e
theorem sortedChildren_unique (o : Order) (cs ds : List Elem) (h : SortedChildren o cs ds) : ds = sortChildren o cs := by
  match cs with
  | [] => cases h; rw [sortChildren]
  | c :: r =>
    cases h with
    | cons h1 h2 => rw [sortChildren, C44_sorting_is_unique _ c _ h1, sortedChildren_unique o r _ h2]
termination_by structural cs
end

theorem mem_sortChildren (o : Order) : ∀ (cs : List Elem) (d : Elem), d ∈ sortChildren o cs →
    ∃ c ∈ cs, d = sortElement ((Dict.get o.entries c.tag).getD (.mk [])) c
  | [], d, h => by rw [sortChildren] at h; cases h
  | c :: r, d, h => by
    rw [sortChildren] at h
    rcases List.mem_cons.1 h with rfl | h
    · exact ⟨c, by simp, rfl⟩
    · obtain ⟨c', h1, h2⟩ := mem_sortChildren o r d h
      exact ⟨c', by simp [h1], h2⟩

mutual
/-- Nothing to do if everything is sorted. -/
theorem sortedAs_again (o : Order) (e : Elem) : SortedAs o (sortElement o e) (sortElement o e) := by
  match e with
  | .mk t a x cs =>
    rw [sortElement]
    refine .mk ?_ (.refl _) ?_ (fun _ _ => rfl) rfl
    · have key : ∀ l : List Elem, (∀ d ∈ l, ∃ c ∈ cs, d = sortElement ((Dict.get o.entries c.tag).getD (.mk [])) c) → SortedChildren o l l := by
        intro l
        induction l with
        | nil => intro _; exact .nil
        | cons d r ih =>
          intro hl
          refine .cons ?_ (ih (fun d hd => hl d (by simp [hd])))
          obtain ⟨c, hc, rfl⟩ := hl d (by simp)
          rw [tag_sortElement]
          exact sortedAs_again_mem o cs c hc
      apply key
      intro d hd
      have hd := (sortRank_perm _ _).mem_iff.1 hd
      exact mem_sortChildren o cs d hd
    · exact (sortRank_sorted _ _).imp (fun h => not_precedes h)
termination_by structural e
theorem sortedAs_again_mem (o : Order) (cs : List Elem) (c : Elem) (hc : c ∈ cs) :
    SortedAs ((Dict.get o.entries c.tag).getD (.mk [])) (sortElement ((Dict.get o.entries c.tag).getD (.mk [])) c)
      (sortElement ((Dict.get o.entries c.tag).getD (.mk [])) c) := by
  match cs with
  | [] => cases hc
  | d :: r =>
    rcases Classical.em (c = d) with h | h
    · rw [h]; exact sortedAs_again _ d
    · exact sortedAs_again_mem o r c (by simpa [h] using hc)
termination_by structural cs
end

/-- C44: sorting again changes nothing. -/
theorem C44_sorting_twice (o : Order) (e : Elem) : sortElement o (sortElement o e) = sortElement o e :=
  (C44_sorting_is_unique o _ _ (sortedAs_again o e)).symm

/-- A concrete case: `b` and `a` in schema order, the unknown `z` last, the two `a`s in their order; inside `b`, `d` before `c`. -/
example : sortElement (.mk [(s%"a", .mk []), (s%"b", .mk [(s%"d", .mk []), (s%"c", .mk [])])])
      (.mk s%"r" [] none [.mk s%"z" [] none [], .mk s%"b" [] none [.mk s%"c" [] none [], .mk s%"d" [] none []],
        .mk s%"a" [] (some s%"1") [], .mk s%"a" [] (some s%"2") []]) =
    .mk s%"r" [] none [.mk s%"a" [] (some s%"1") [], .mk s%"a" [] (some s%"2") [],
      .mk s%"b" [] none [.mk s%"d" [] none [], .mk s%"c" [] none []], .mk s%"z" [] none []] := by
  rfl

end Verif
