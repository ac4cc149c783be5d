import Verif.Props.XmlRender
import Verif.Props.XmlSort
import Verif.Spec.Sheets
/-! C46: the order of attributes. -/
namespace Verif.Spec
open Xml

/-- In the element, and everywhere inside, the attributes are in ascending order of their names (compared before prefixes are replaced). -/
inductive AttribsAscend (q : Str → Str) : Elem → Prop
  | mk {tag attrib text children} (names : List Str) : names.Pairwise (fun a b => ¬ NameLt b a) → Dict.keys attrib = names.map q →
      (∀ c ∈ children, AttribsAscend q c) → AttribsAscend q (.mk tag attrib text children)

end Verif.Spec

namespace Verif
open Spec Xml

theorem le_iff_not_lt (a b : Str) : insertKey.le a b = true ↔ ¬ NameLt b a := by
  induction a generalizing b with
  | nil => cases b <;> simp [insertKey.le, NameLt]
  | cons x r ih =>
    cases b with
    | nil => simp [insertKey.le, NameLt]
    | cons y s =>
      rw [insertKey.le]
      by_cases h : x = y
      · subst h
        rw [if_pos rfl, ih]
        simp [NameLt]
      · rw [if_neg h]
        have hne : x.toNat ≠ y.toNat := fun e => h (Char.toNat_inj.1 e)
        simp only [decide_eq_true_eq, NameLt, not_or, not_and]
        constructor
        · intro hl; exact ⟨by omega, fun e => absurd e.symm h⟩
        · intro hl; omega

theorem insertKey_sorted {α : Type} (x : Str × α) (l : List (Str × α)) (h : l.Pairwise (fun a b => insertKey.le a.1 b.1 = true)) :
    (insertKey x l).Pairwise (fun a b => insertKey.le a.1 b.1 = true) := by
  induction l with
  | nil => simp [insertKey]
  | cons y r ih =>
    rw [insertKey]
    rw [List.pairwise_cons] at h
    split
    · next hxy =>
      rw [List.pairwise_cons, List.pairwise_cons]
      refine ⟨?_, h⟩
      intro z hz
      rcases List.mem_cons.1 hz with rfl | hz
      · exact hxy
      · exact le_trans' _ _ _ hxy (h.1 z hz)
    · next hxy =>
      rw [List.pairwise_cons]
      refine ⟨?_, ih h.2⟩
      intro z hz
      rcases List.mem_cons.1 ((insertKey_perm x r).mem_iff.1 hz) with rfl | hz
      · exact (le_total _ _).resolve_left hxy
      · exact h.1 z hz

theorem sortKeys_sorted {α : Type} (l : List (Str × α)) : (sortKeys l).Pairwise (fun a b => insertKey.le a.1 b.1 = true) := by
  induction l with
  | nil => exact .nil
  | cons x r ih => exact insertKey_sorted x _ ih

/-- The attributes among the sorted entries are in ascending order. -/
theorem srt_ascending (fs : List (Str × Json)) : (((srt fs).filter (fun f => isAttribute f.1)).map (fun f => f.1.drop 1)).Pairwise (fun a b => ¬ NameLt b a) := by
  have h1 : (srt fs).filter (fun f => isAttribute f.1) = sortKeys ((sortAll fs).filter (fun p => Py.startsWith s%"@" p.1)) := by
    rw [srt, sortAttributes, List.filter_append]
    have e1 : ∀ l : List (Str × Json), (∀ p ∈ l, isAttribute p.1 = true) → l.filter (fun f => isAttribute f.1) = l := fun l h => List.filter_eq_self.2 h
    have e2 : ∀ l : List (Str × Json), (l.filter (fun p => !Py.startsWith s%"@" p.1)).filter (fun f => isAttribute f.1) = [] := by
      intro l
      rw [List.filter_filter, List.filter_eq_nil_iff]
      intro p _
      rw [startsWith_at]
      cases isAttribute p.1 <;> simp
    rw [e2, List.append_nil, e1]
    intro p hp
    have := (sortKeys_perm _).mem_iff.1 hp
    rw [List.mem_filter, startsWith_at] at this
    exact this.2
  rw [h1, List.pairwise_map]
  refine (sortKeys_sorted _).imp_of_mem ?_
  intro a b ha hb hab
  have hat : ∀ p ∈ sortKeys ((sortAll fs).filter (fun p => Py.startsWith s%"@" p.1)), ∃ k, p.1 = '@' :: k := by
    intro p hp
    have := (sortKeys_perm _).mem_iff.1 hp
    rw [List.mem_filter, startsWith_at] at this
    have h := this.2
    cases hk : p.1 with
    | nil => rw [hk] at h; simp [isAttribute] at h
    | cons c r => rw [hk] at h; simp [isAttribute] at h; exact ⟨r, by rw [h]⟩
  obtain ⟨k, hk⟩ := hat a ha
  obtain ⟨l, hl⟩ := hat b hb
  rw [hk, hl] at hab ⊢
  rw [insertKey.le, if_pos rfl, le_iff_not_lt] at hab
  exact hab

theorem keys_update_const (q : Str → Str) (n : Str) (ts : List Str) (d : List (Str × Str)) :
    Dict.keys (Dict.update d (ts.map (fun t => (q n, t)))) = Dict.keys d ∨ Dict.keys (Dict.update d (ts.map (fun t => (q n, t)))) = Dict.keys d ++ [q n] := by
  induction ts generalizing d with
  | nil => exact .inl rfl
  | cons t r ih =>
    have e : Dict.update d ((t :: r).map (fun t => (q n, t))) = Dict.update (Dict.set d (q n) t) (r.map (fun t => (q n, t))) := rfl
    rw [e]
    have hin : q n ∈ Dict.keys (Dict.set d (q n) t) := Dict.mem_keys_set.2 (.inl rfl)
    have hsame : Dict.keys (Dict.update (Dict.set d (q n) t) (r.map (fun t => (q n, t)))) = Dict.keys (Dict.set d (q n) t) := by
      clear ih e
      generalize Dict.set d (q n) t = d' at hin
      induction r generalizing d' with
      | nil => rfl
      | cons u r ih =>
        have e : Dict.update d' ((u :: r).map (fun t => (q n, t))) = Dict.update (Dict.set d' (q n) u) (r.map (fun t => (q n, t))) := rfl
        have h2 : Dict.keys (Dict.set d' (q n) u) = Dict.keys d' := by rw [Dict.keys_set, if_pos hin]
        rw [e, ih _ (by rw [h2]; exact hin), h2]
    rw [hsame, Dict.keys_set]
    split
    · exact .inl rfl
    · exact .inr rfl

theorem keys_attrs (q : Str → Str) (L : List (Str × Json)) (d : List (Str × Str)) :
    ∃ names : List Str, names.Sublist ((L.filter (fun f => isAttribute f.1)).map (fun f => f.1.drop 1)) ∧ Dict.keys (Dict.update d (attrs q L)) = Dict.keys d ++ names.map q := by
  induction L generalizing d with
  | nil => exact ⟨[], .slnil, by simp [attrs, Dict.update]⟩
  | cons f r ih =>
    obtain ⟨k, v⟩ := f
    by_cases ha : isAttribute k = true
    · have e : Dict.update d (attrs q ((k, v) :: r)) = Dict.update (Dict.update d ((scalarsOf v).map (fun t => (q (k.drop 1), t)))) (attrs q r) := by
        simp [attrs, ha, Dict.update]
      obtain ⟨names, h1, h2⟩ := ih (Dict.update d ((scalarsOf v).map (fun t => (q (k.drop 1), t))))
      rw [e, h2, List.filter_cons, if_pos ha, List.map_cons]
      rcases keys_update_const q (k.drop 1) (scalarsOf v) d with h | h
      · exact ⟨names, h1.cons _, by rw [h]⟩
      · exact ⟨k.drop 1 :: names, h1.cons₂ _, by rw [h]; simp⟩
    · have e : attrs q ((k, v) :: r) = attrs q r := by simp [attrs, ha]
      rw [e, List.filter_cons, if_neg ha]
      exact ih d

theorem all₂_kid {α β : Type} {R : α → β → Prop} {a : List α} {b : List β} (h : All₂ R a b) {y : β} (hy : y ∈ b) : ∃ x ∈ a, R x y := by
  induction h with
  | nil => cases hy
  | cons h1 _ ih =>
    rcases List.mem_cons.1 hy with rfl | hy
    · exact ⟨_, by simp, h1⟩
    · obtain ⟨x, hx, hr⟩ := ih hy; exact ⟨x, by simp [hx], hr⟩

theorem ascend_srt (valid : Str → List (Str × Str) → Bool) {ns : List (Str × Str)} {fs : List (Str × Json)} (hp : PlainXml (qualify ns) fs) :
    ∀ {sub : Acc} {tag : Str}, entries valid (srt fs) { nsmap := ns } = .ok sub →
    AttribsAscend (qualify ns) (.mk tag sub.attrib sub.text sub.children) := by
  induction hp with
  | @mk fs hn ha hk ih =>
    intro sub tag h
    have hd := entries_does valid (srt fs) (by
        rintro ⟨k, v⟩ hf hat
        obtain ⟨u, hu, rfl⟩ := mem_srt.1 hf
        obtain ⟨h1, h2⟩ := ha _ hu hat
        exact ⟨h1, by rw [dictsOf_sortJson, h2]; rfl⟩)
      (by
        rintro kg hkg s hs
        rw [kids_srt, List.mem_map] at hkg
        obtain ⟨kg, hkg, rfl⟩ := hkg
        exact (renders_srt valid (hk kg hkg) (tag := kg.1) hs).1) rfl h
    obtain ⟨names, n1, n2⟩ := keys_attrs (qualify ns) (srt fs) []
    refine .mk names ((srt_ascending fs).sublist n1) ?_ ?_
    · rw [hd.attrib]; simpa [Dict.keys] using n2
    · intro c hc
      obtain ⟨es, h1, h2⟩ := hd.children
      rw [h2] at hc
      simp only [List.nil_append, List.mem_filter] at hc
      obtain ⟨kg, hkg, sub', hs, rfl⟩ := all₂_kid h1 hc.1
      rw [kids_srt, List.mem_map] at hkg
      obtain ⟨kg, hkg, rfl⟩ := hkg
      exact ih kg hkg hs

theorem ascend_sort {q : Str → Str} {e : Elem} (h : AttribsAscend q e) : ∀ o : Order, AttribsAscend q (sortElement o e) := by
  induction h with
  | @mk tag attrib text children names h1 h2 _ ih =>
    intro o
    rw [sortElement]
    refine .mk names h1 h2 ?_
    intro c hc
    obtain ⟨c', hc', rfl⟩ := mem_sortChildren o children c ((sortRank_perm _ _).mem_iff.1 hc)
    exact ih c' hc' _

/-- C46: everywhere in the XML document the attributes are in ascending order of their names, whatever their order in the data. -/
theorem C46_attributes_ascend (valid : Str → List (Str × Str) → Bool) (fs : List (Str × Json)) (tag : Str) (order : Option Order) (q : Str → Str)
    (hq : Qualifies xmlPrefix q) (hp : PlainXml q fs) (e : Elem) (h : toXml valid fs tag order = .ok e) : AttribsAscend q e := by
  rw [qualifies_eq hq] at hp ⊢
  unfold toXml dictToXml at h
  dsimp only at h
  split at h
  · cases h
  · cases h
  · next e0 he =>
    split at he
    · cases he
    · next a hb =>
      simp only [Except.ok.injEq] at he
      split at he
      · have h0 := ascend_srt valid hp (tag := qualify xmlPrefix tag) hb
        have he' := Option.some.inj he
        subst he'
        injection h with h
        split at h
        · rw [← h]; exact h0
        · rw [← h]
          cases h0 with
          | mk names h1 h2 h3 =>
            refine .mk names h1 h2 ?_
            intro c hc
            obtain ⟨c', hc', rfl⟩ := List.mem_map.1 hc
            exact ascend_sort (h3 c' hc') _
      · cases he

/-- `a` before `b` before `xml:lang`, though given in another order. -/
example : AttribsAscend (qualify xmlPrefix) (.mk s%"r" [(s%"a", s%"1"), (s%"b", s%"2"), (s%"{http://www.w3.org/XML/1998/namespace}lang", s%"en")] none []) :=
  C46_attributes_ascend (fun _ _ => true) [(s%"@xml:lang", .leaf (.str s%"en")), (s%"@b", .leaf (.int 2)), (s%"@a", .leaf (.int 1))] s%"r" none _
    (qualifies_qualify _) (.mk (by decide +kernel) (by decide +kernel) (by intro kg hkg; revert hkg; simp [kids, dictsOf, isAttribute])) _ (by rfl)

/-- An element with `b` before `a` would not do. -/
example : ¬ AttribsAscend id (.mk s%"r" [(s%"b", s%"2"), (s%"a", s%"1")] none []) := by
  intro h
  cases h with
  | mk names h1 h2 _ =>
    simp only [Dict.keys, List.map_cons, List.map_nil, List.map_id_fun, id] at h2
    subst h2
    simp [NameLt] at h1

end Verif
