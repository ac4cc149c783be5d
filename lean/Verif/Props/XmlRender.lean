import Verif.Spec.Xml
import Verif.Proofs.Dict
import Verif.Proofs.Induct
import Verif.Proofs.DecEq
import Verif.Props.XmlSort
/-! C46: the XML element made of a dict. -/
namespace Verif
open Spec Xml

theorem startsWith_at (k : Str) : Py.startsWith s%"@" k = isAttribute k := by
  cases k with
  | nil => rfl
  | cons c r =>
    show ('@' == c && List.isPrefixOf [] r) = decide (some c = some '@')
    simp only [List.isPrefixOf, Bool.and_true, Option.some.injEq]
    by_cases h : c = '@'
    · subst h; rfl
    · simp [h, Ne.symm h]

theorem not_at_xmlns {k : Str} (h : isAttribute k = false) : Py.startsWith s%"@xmlns" k = false := by
  cases k with
  | nil => rfl
  | cons c r =>
    have hc : c ≠ '@' := by intro hc; subst hc; simp [isAttribute] at h
    show ('@' == c && _) = false
    simp [Ne.symm hc]

theorem sortAll_eq (fs : List (Str × Json)) : sortAll fs = fs.map (fun f => (f.1, sortJson f.2)) := by
  induction fs with
  | nil => rw [sortAll]; rfl
  | cons f r ih => obtain ⟨k, v⟩ := f; rw [sortAll, ih]; rfl

theorem sortItems_eq (l : List Json) : sortItems l = l.map sortJson := by
  induction l with
  | nil => rw [sortItems]; rfl
  | cons f r ih => rw [sortItems, ih]; rfl

/-- The entries of a dict in the order in which they are processed. -/
def srt (fs : List (Str × Json)) : List (Str × Json) := sortAttributes (sortAll fs)

theorem scalarsOf_sortJson (v : Json) : scalarsOf (sortJson v) = scalarsOf v := by
  cases v with
  | leaf a => rw [sortJson]
  | obj fs => rw [sortJson]; rfl
  | arr l =>
    rw [sortJson, sortItems_eq]
    simp only [scalarsOf, List.filterMap_map]
    congr 1
    funext j
    cases j <;> simp [sortJson]

theorem dictsOf_sortJson (v : Json) : dictsOf (sortJson v) = (dictsOf v).map srt := by
  cases v with
  | leaf a => rw [sortJson]; rfl
  | obj fs => rw [sortJson]; rfl
  | arr l =>
    rw [sortJson, sortItems_eq]
    simp only [dictsOf, List.filterMap_map, List.map_filterMap]
    congr 1
    funext j
    cases j <;> simp [sortJson, srt]

theorem insertKey_perm {α : Type} (x : Str × α) (l : List (Str × α)) : (insertKey x l).Perm (x :: l) := by
  induction l with
  | nil => exact .refl _
  | cons y r ih =>
    rw [insertKey]
    split
    · exact .refl _
    · exact ((List.Perm.cons y ih).trans (.swap x y r))

theorem sortKeys_perm {α : Type} (l : List (Str × α)) : (sortKeys l).Perm l := by
  induction l with
  | nil => exact .refl _
  | cons x r ih => exact (insertKey_perm _ _).trans (ih.cons x)

theorem sortAttributes_perm {α : Type} (l : List (Str × α)) : (sortAttributes l).Perm l :=
  ((sortKeys_perm _).append_right _).trans (List.filter_append_perm _ l)

theorem srt_perm (fs : List (Str × Json)) : (srt fs).Perm (fs.map (fun f => (f.1, sortJson f.2))) := by
  rw [srt, sortAll_eq]; exact sortAttributes_perm _

theorem mem_srt {fs : List (Str × Json)} {k : Str} {v : Json} : (k, v) ∈ srt fs ↔ ∃ u, (k, u) ∈ fs ∧ v = sortJson u := by
  rw [(srt_perm fs).mem_iff, List.mem_map]
  constructor
  · rintro ⟨⟨k', u⟩, h, he⟩; cases he; exact ⟨u, h, rfl⟩
  · rintro ⟨u, h, rfl⟩; exact ⟨(k, u), h, rfl⟩

/-- What does not look at attributes does not see the sorting. -/
theorem flatMap_srt {β : Type} (f : Str × Json → List β) (fs : List (Str × Json)) (h : ∀ k v, isAttribute k = true → f (k, v) = []) :
    (srt fs).flatMap f = fs.flatMap (fun p => f (p.1, sortJson p.2)) := by
  rw [srt, sortAll_eq, sortAttributes, List.flatMap_append]
  have h1 : ∀ l : List (Str × Json), (∀ p ∈ l, isAttribute p.1 = true) → l.flatMap f = [] := by
    intro l hl
    rw [List.flatMap_eq_nil_iff]
    rintro ⟨k, v⟩ hp
    exact h k v (hl _ hp)
  rw [h1, List.nil_append]
  · induction fs with
    | nil => rfl
    | cons p r ih =>
      obtain ⟨k, v⟩ := p
      simp only [List.map_cons, List.filter_cons, startsWith_at, List.flatMap_cons] at ih ⊢
      by_cases ha : isAttribute k = true
      · simp only [ha, Bool.not_true, Bool.false_eq_true, if_false, h _ _ ha, List.nil_append]; exact ih
      · simp only [Bool.not_eq_true] at ha
        simp only [ha, Bool.not_false, if_true, List.flatMap_cons]; rw [ih]
  · intro p hp
    have := (sortKeys_perm _).mem_iff.1 hp
    rw [List.mem_filter, startsWith_at] at this
    exact this.2

theorem kids_srt (fs : List (Str × Json)) : kids (srt fs) = (kids fs).map (fun kg => (kg.1, srt kg.2)) := by
  unfold kids
  rw [flatMap_srt _ _ (by intro k v h; simp [h]), List.map_flatMap]
  congr 1
  funext p
  by_cases ha : isAttribute p.1 = true
  · simp [ha]
  · simp [ha, dictsOf_sortJson]

/-- The texts of the `text()` entries. -/
def texts (fs : List (Str × Json)) : List Str := (fs.filter (fun f => f.1 = s%"text()")).flatMap (fun f => scalarsOf f.2)

theorem texts_eq (fs : List (Str × Json)) : texts fs = fs.flatMap (fun f => if f.1 = s%"text()" then scalarsOf f.2 else []) := by
  unfold texts
  induction fs with
  | nil => rfl
  | cons f r ih => by_cases h : f.1 = s%"text()" <;> simp [List.filter_cons, h, ih]

theorem texts_srt (fs : List (Str × Json)) : texts (srt fs) = texts fs := by
  rw [texts_eq, texts_eq, flatMap_srt]
  · congr 1; funext p; simp only [scalarsOf_sortJson]
  · intro k v h
    rw [if_neg]
    rintro rfl; revert h; decide

/-- The attribute assignments, in order. -/
def attrs (q : Str → Str) (fs : List (Str × Json)) : List (Str × Str) :=
  fs.flatMap (fun f => if isAttribute f.1 then (scalarsOf f.2).map (fun t => (q (f.1.drop 1), t)) else [])

theorem get_map_const (name : Str) (n : Str) (l : List Str) :
    Dict.get (l.map (fun t => (n, t))).reverse name = if n = name then l.getLast? else none := by
  rw [← List.map_reverse]
  cases h : l.reverse with
  | nil => have : l = [] := by simpa using h
           subst this; simp
  | cons a r =>
    have : l.getLast? = some a := by rw [List.getLast?_eq_head?_reverse, h]; rfl
    rw [this, List.map_cons, Dict.get_cons]
    split
    · rfl
    · rw [Dict.get_none_iff]
      simp only [Dict.keys, List.map_map, List.mem_map, Function.comp, not_exists, not_and]
      intro x _; assumption

theorem get_attrs (q : Str → Str) (fs : List (Str × Json)) (name t : Str)
    (hn : ((fs.filter (fun f => isAttribute f.1)).map (fun f => q (f.1.drop 1))).Nodup) :
    Dict.get (attrs q fs).reverse name = some t ↔ ∃ k v, ('@' :: k, v) ∈ fs ∧ q k = name ∧ (scalarsOf v).getLast? = some t := by
  induction fs with
  | nil => simp [attrs]
  | cons f r ih =>
    obtain ⟨k, v⟩ := f
    by_cases ha : isAttribute k = true
    · obtain ⟨k', rfl⟩ : ∃ k', k = '@' :: k' := by
        cases k with
        | nil => simp [isAttribute] at ha
        | cons c r => simp [isAttribute] at ha; exact ⟨r, by rw [ha]⟩
      rw [List.filter_cons, if_pos ha, List.map_cons, List.nodup_cons] at hn
      have hnew : ∀ k v, ('@' :: k, v) ∈ r → q k ≠ q k' := by
        intro k v hm he
        apply hn.1
        rw [List.mem_map]
        refine ⟨('@' :: k, v), List.mem_filter.2 ⟨hm, by simp [isAttribute]⟩, ?_⟩
        simpa using he
      have : attrs q (('@' :: k', v) :: r) = (scalarsOf v).map (fun t => (q k', t)) ++ attrs q r := by
        simp only [attrs, List.flatMap_cons, ha, if_true]; rfl
      rw [this, List.reverse_append, Dict.get_append, get_map_const, Option.or_eq_some_iff, ih hn.2]
      constructor
      · rintro (⟨k, u, h1, h2, h3⟩ | ⟨_, h⟩)
        · exact ⟨k, u, by simp [h1], h2, h3⟩
        · split at h
          · exact ⟨k', v, by simp, by assumption, h⟩
          · cases h
      · rintro ⟨k, u, h1, h2, h3⟩
        rcases List.mem_cons.1 h1 with h1 | h1
        · cases h1
          right
          refine ⟨?_, by rw [if_pos h2]; exact h3⟩
          cases hg : Dict.get (attrs q r).reverse name with
          | none => rfl
          | some t' =>
            have hall := Dict.get_eq_some_mem hg
            exfalso
            simp only [List.mem_reverse, attrs, List.mem_flatMap] at hall
            obtain ⟨⟨k2, v2⟩, hm, hx⟩ := hall
            by_cases ha2 : isAttribute k2 = true
            · simp only [ha2, if_true, List.mem_map] at hx
              obtain ⟨_, _, hx⟩ := hx
              cases hx
              apply hn.1
              rw [List.mem_map]
              exact ⟨(k2, v2), List.mem_filter.2 ⟨hm, ha2⟩, by simpa using h2.symm⟩
            · simp [ha2] at hx
        · exact Or.inl ⟨k, u, h1, h2, h3⟩
    · rw [List.filter_cons, if_neg ha] at hn
      have : attrs q ((k, v) :: r) = attrs q r := by simp only [attrs, List.flatMap_cons]; simp [ha]
      rw [this, ih hn]
      constructor
      · rintro ⟨k, u, h1, h2, h3⟩; exact ⟨k, u, by simp [h1], h2, h3⟩
      · rintro ⟨k2, u, h1, h2, h3⟩
        rcases List.mem_cons.1 h1 with h1 | h1
        · cases h1; simp [isAttribute] at ha
        · exact ⟨k2, u, h1, h2, h3⟩

/-! ### Processing the entries -/

variable (valid : Str → List (Str × Str) → Bool)

/-- The items of an entry. -/
def itemsOf : Json → List Json
  | .arr l => l
  | j => [j]

theorem entry_list (k : Str) (v : Json) (acc : Acc) : entry valid k v acc = listEntry valid k (itemsOf v) acc := by
  cases v with
  | leaf a =>
    rw [entry, itemsOf, listEntry]
    · cases scalarEntry k a acc with
      | error e => rfl
      | ok b => simp only; rw [listEntry]
    · simp
  | obj fs =>
    rw [entry, itemsOf, listEntry]
    · cases entries valid fs { nsmap := acc.nsmap } with
      | error e => rfl
      | ok b => simp only; rw [listEntry]
    · simp
  | arr l => rw [entry, itemsOf]

theorem scalarsOf_items (v : Json) : scalarsOf (.arr (itemsOf v)) = scalarsOf v := by cases v <;> rfl
theorem dictsOf_items (v : Json) : dictsOf (.arr (itemsOf v)) = dictsOf v := by cases v <;> rfl

/-- The element for a processed dict. -/
def ElemOf (ns : List (Str × Str)) (kg : Str × List (Str × Json)) (e : Elem) : Prop :=
  ∃ sub, entries valid kg.2 { nsmap := ns } = .ok sub ∧ e = .mk (qualify ns kg.1) sub.attrib sub.text sub.children

/-- What processing entries does. -/
structure XDoes (ns : List (Str × Str)) (as : List (Str × Str)) (ts : List Str) (ks : List (Str × List (Str × Json))) (acc acc' : Acc) : Prop where
  nsmap : acc'.nsmap = ns
  attrib : acc'.attrib = Dict.update acc.attrib as
  text : acc'.text = (ts.filter (· ≠ [])).getLast?.or acc.text
  children : ∃ es, All₂ (ElemOf valid ns) ks es ∧ acc'.children = acc.children ++ es.filter (fun e => valid e.tag e.attrib)

theorem all₂_append {α β : Type} {R : α → β → Prop} {l l' : List α} {m m' : List β} (h : All₂ R l m) (h' : All₂ R l' m') :
    All₂ R (l ++ l') (m ++ m') := by
  induction h with
  | nil => exact h'
  | cons h1 _ ih => exact .cons h1 ih

theorem XDoes.trans {valid ns as ts ks as' ts' ks'} {a b c : Acc} (h : XDoes valid ns as ts ks a b) (g : XDoes valid ns as' ts' ks' b c) :
    XDoes valid ns (as ++ as') (ts ++ ts') (ks ++ ks') a c := by
  refine ⟨g.nsmap, ?_, ?_, ?_⟩
  · rw [g.attrib, h.attrib]; simp [Dict.update]
  · rw [g.text, h.text, List.filter_append, List.getLast?_append, Option.or_assoc]
  · obtain ⟨es, h1, h2⟩ := h.children
    obtain ⟨es', g1, g2⟩ := g.children
    exact ⟨es ++ es', all₂_append h1 g1, by rw [g2, h2, List.filter_append, List.append_assoc]⟩

theorem XDoes.refl {valid ns} {a : Acc} (h : a.nsmap = ns) : XDoes valid ns [] [] [] a a :=
  ⟨h, rfl, rfl, [], .nil, by simp⟩

theorem scalarEntry_does {ns k a} {acc acc' : Acc} (hk : isAttribute k = true → Py.startsWith s%"@xmlns" k = false)
    (hn : acc.nsmap = ns) (h : scalarEntry k a acc = .ok acc') :
    XDoes valid ns (if isAttribute k then [(qualify ns (k.drop 1), Py.str a)] else []) (if k = s%"text()" then [Py.str a] else []) [] acc acc' := by
  unfold scalarEntry at h
  rw [startsWith_at] at h
  by_cases ha : isAttribute k = true
  · rw [if_pos ha, hk ha] at h
    simp only [Bool.false_eq_true, if_false, Except.ok.injEq] at h
    subst h
    have ht : k ≠ s%"text()" := by rintro rfl; revert ha; decide
    exact ⟨hn, by simp [ha, Dict.update, hn], by simp [ht], [], .nil, by simp⟩
  · rw [if_neg ha] at h
    split at h
    · next ht =>
      subst ht
      injection h with h
      subst h
      have hf : isAttribute s%"text()" = false := by decide
      by_cases he : (Py.str a).isEmpty = true
      · rw [if_pos he]
        refine ⟨hn, by simp [hf, Dict.update], ?_, [], .nil, by simp⟩
        have : Py.str a = [] := by simpa using he
        simp [this]
      · rw [if_neg he]
        refine ⟨hn, by simp [hf, Dict.update], ?_, [], .nil, by simp⟩
        have : Py.str a ≠ [] := by simpa using he
        simp [this]
    · cases h

theorem listEntry_does {ns k} (hk : isAttribute k = true → Py.startsWith s%"@xmlns" k = false) : ∀ (l : List Json) {acc acc' : Acc},
    (isAttribute k = true → dictsOf (.arr l) = []) →
    (∀ g ∈ dictsOf (.arr l), ∀ sub, entries valid g { nsmap := ns } = .ok sub → sub.nsmap = ns) →
    acc.nsmap = ns → listEntry valid k l acc = .ok acc' →
    XDoes valid ns (if isAttribute k then (scalarsOf (.arr l)).map (fun t => (qualify ns (k.drop 1), t)) else [])
      (if k = s%"text()" then scalarsOf (.arr l) else []) (if isAttribute k then [] else (dictsOf (.arr l)).map (fun g => (k, g))) acc acc'
  | [], acc, acc', _, _, hn, h => by
    rw [listEntry] at h
    cases h
    have := XDoes.refl (valid := valid) hn
    simpa [scalarsOf, dictsOf] using this
  | .arr _ :: _, acc, acc', _, _, hn, h => by rw [listEntry] at h; cases h
  | .leaf a :: r, acc, acc', hd, hs, hn, h => by
    rw [listEntry] at h
    split at h
    · cases h
    · next b hb =>
      have h1 := scalarEntry_does valid hk hn hb
      have h2 := listEntry_does hk r hd hs h1.nsmap h
      have := h1.trans h2
      by_cases ht : k = s%"text()"
      · by_cases ha : isAttribute k = true <;> simpa [scalarsOf, dictsOf, ha, if_pos ht] using this
      · by_cases ha : isAttribute k = true <;> simpa [scalarsOf, dictsOf, ha, if_neg ht] using this
  | .obj fs :: r, acc, acc', hd, hs, hn, h => by
    have ha : isAttribute k = false := by
      cases ha : isAttribute k with
      | false => rfl
      | true => have := hd ha; simp [dictsOf] at this
    rw [listEntry] at h
    simp only [not_at_xmlns ha, Bool.false_eq_true, if_false, hn] at h
    split at h
    · cases h
    · next sub hb =>
      have hsub := hs fs (by simp [dictsOf]) sub hb
      have h1 : XDoes valid ns [] [] [(k, fs)] acc { acc with
          nsmap := sub.nsmap,
          children := if valid (qualify ns k) sub.attrib
            then acc.children ++ [.mk (qualify ns k) sub.attrib sub.text sub.children] else acc.children } := by
        refine ⟨hsub, rfl, rfl, [.mk (qualify ns k) sub.attrib sub.text sub.children], .cons ⟨sub, hb, rfl⟩ .nil, ?_⟩
        by_cases hv : valid (qualify ns k) sub.attrib = true
        · simp [hv, Elem.tag, Elem.attrib]
        · simp [hv, Elem.tag, Elem.attrib]
      have h2 := listEntry_does hk r (by simp [ha]) (fun g hg => hs g (by simp only [dictsOf, List.filterMap_cons] at hg ⊢; simp [hg])) h1.nsmap h
      have := h1.trans h2
      by_cases ht : k = s%"text()"
      · simpa [scalarsOf, dictsOf, ha, if_pos ht] using this
      · simpa [scalarsOf, dictsOf, ha, if_neg ht] using this

theorem entries_does {ns} : ∀ (L : List (Str × Json)) {acc acc' : Acc},
    (∀ f ∈ L, isAttribute f.1 = true → Py.startsWith s%"@xmlns" f.1 = false ∧ dictsOf f.2 = []) →
    (∀ kg ∈ kids L, ∀ sub, entries valid kg.2 { nsmap := ns } = .ok sub → sub.nsmap = ns) →
    acc.nsmap = ns → entries valid L acc = .ok acc' →
    XDoes valid ns (attrs (qualify ns) L) (texts L) (kids L) acc acc'
  | [], acc, acc', _, _, hn, h => by
    rw [entries] at h; cases h
    exact XDoes.refl hn
  | (k, v) :: r, acc, acc', ha, hs, hn, h => by
    rw [entries] at h
    split at h
    · cases h
    · next b hb =>
      rw [entry_list] at hb
      have hk := ha (k, v) (by simp)
      have h1 := listEntry_does valid (fun h => (hk h).1) (itemsOf v) (by rw [dictsOf_items]; exact fun h => (hk h).2)
        (by
          rw [dictsOf_items]
          intro g hg
          by_cases hat : isAttribute k = true
          · rw [(hk hat).2] at hg; cases hg
          · exact hs (k, g) (by simp [kids, hat, hg])) hn hb
      have h2 := entries_does r (fun f hf => ha f (by simp [hf])) (fun kg hg => hs kg (by simp only [kids, List.flatMap_cons, List.mem_append] at hg ⊢; exact Or.inr hg)) h1.nsmap h
      have := h1.trans h2
      rw [scalarsOf_items, dictsOf_items] at this
      rw [texts_eq]
      rw [texts_eq] at this
      exact this

theorem all₂_imp_mem {α β : Type} {R S : α → β → Prop} {l : List α} {m : List β} (h : All₂ R l m) (hi : ∀ a ∈ l, ∀ b, R a b → S a b) :
    All₂ S l m := by
  induction h with
  | nil => exact .nil
  | cons h1 _ ih => exact .cons (hi _ (by simp) _ h1) (ih (fun a ha => hi a (by simp [ha])))

theorem all₂_map_left' {α β γ : Type} {R : γ → β → Prop} {f : α → γ} : ∀ {l : List α} {m : List β}, All₂ R (l.map f) m → All₂ (fun a b => R (f a) b) l m
  | [], _, h => by cases h; exact .nil
  | a :: r, _, h => by
    cases h with
    | cons h1 h2 => exact .cons h1 (all₂_map_left' h2)

theorem renders_srt {ns : List (Str × Str)} {fs : List (Str × Json)} (hp : PlainXml (qualify ns) fs) :
    ∀ {sub : Acc} {tag : Str}, entries valid (srt fs) { nsmap := ns } = .ok sub →
    sub.nsmap = ns ∧ Renders valid (qualify ns) tag fs (.mk (qualify ns tag) sub.attrib sub.text sub.children) := by
  induction hp with
  | @mk fs hn ha _ ih =>
    intro sub tag h
    have hd := entries_does valid (srt fs) (by
        rintro ⟨k, v⟩ hf hat
        obtain ⟨u, hu, rfl⟩ := mem_srt.1 hf
        obtain ⟨h1, h2⟩ := ha _ hu hat
        exact ⟨h1, by rw [dictsOf_sortJson, h2]; rfl⟩)
      (by
        rintro kg hkg s hs
        rw [kids_srt, List.mem_map] at hkg
        obtain ⟨kg, hkg, rfl⟩ := hkg
        exact (ih kg hkg (tag := kg.1) hs).1) rfl h
    refine ⟨hd.nsmap, ?_⟩
    obtain ⟨es, h1, h2⟩ := hd.children
    refine .mk (es := es) ?_ ?_ ?_ ?_ (by simpa using h2)
    · rw [hd.attrib]; exact Dict.nodup_keys_update _ .nil
    · intro name t
      rw [hd.attrib, Dict.get_update, show Dict.get ({ nsmap := ns } : Acc).attrib name = none from rfl, Option.or_none, get_attrs]
      · constructor
        · rintro ⟨k, v, g1, g2, g3⟩
          obtain ⟨u, hu, rfl⟩ := mem_srt.1 g1
          exact ⟨k, u, hu, g2, by rwa [scalarsOf_sortJson] at g3⟩
        · rintro ⟨k, v, g1, g2, g3⟩
          exact ⟨k, sortJson v, mem_srt.2 ⟨v, g1, rfl⟩, g2, by rwa [scalarsOf_sortJson]⟩
      · have hperm := ((srt_perm fs).filter (fun f => isAttribute f.1)).map (fun f => qualify ns (f.1.drop 1))
        rw [hperm.nodup_iff, List.filter_map, List.map_map]
        exact hn
    · rw [hd.text, texts_srt, show ({ nsmap := ns } : Acc).text = none from rfl, Option.or_none]; rfl
    · rw [kids_srt] at h1
      refine all₂_imp_mem (all₂_map_left' h1) ?_
      rintro kg hkg e ⟨s, hs, rfl⟩
      exact (ih kg hkg hs).2

theorem splitColon_none {s : Str} (h : ':' ∉ s) : splitColon s = none := by
  induction s with
  | nil => rfl
  | cons c r ih =>
    simp only [List.mem_cons, not_or] at h
    rw [splitColon, if_neg (fun e => h.1 e.symm), ih h.2]; rfl

theorem splitColon_some {p l : Str} (h : ':' ∉ p) : splitColon (p ++ s%":" ++ l) = some (p, l) := by
  induction p with
  | nil => rfl
  | cons c r ih =>
    simp only [List.mem_cons, not_or] at h
    rw [List.cons_append, List.cons_append, splitColon, if_neg (fun e => h.1 e.symm), ih h.2]; rfl

theorem colon_split (s : Str) : ':' ∉ s ∨ ∃ p l, ':' ∉ p ∧ s = p ++ s%":" ++ l := by
  induction s with
  | nil => exact .inl (by simp)
  | cons c r ih =>
    by_cases hc : c = ':'
    · subst hc; exact .inr ⟨[], r, by simp, rfl⟩
    · rcases ih with h | ⟨p, l, h, rfl⟩
      · exact .inl (by simp [h, Ne.symm hc])
      · exact .inr ⟨c :: p, l, by simp [h, Ne.symm hc], rfl⟩

theorem qualifies_qualify (ns : List (Str × Str)) : Qualifies ns (qualify ns) where
  plain := fun n h => by rw [qualify, splitColon_none h]
  known := fun p l u h hu => by rw [qualify, splitColon_some h]; simp [hu]
  unknown := fun p l h hu => by rw [qualify, splitColon_some h]; simp [hu]

theorem qualifies_eq {ns : List (Str × Str)} {q : Str → Str} (h : Qualifies ns q) : q = qualify ns := by
  funext n
  have g := qualifies_qualify ns
  rcases colon_split n with hn | ⟨p, l, hp, rfl⟩
  · rw [h.plain n hn, g.plain n hn]
  · cases hg : Dict.get ns p with
    | none => rw [h.unknown p l hp hg, g.unknown p l hp hg]
    | some u => rw [h.known p l u hp hg, g.known p l u hp hg]

theorem element_renders (fs : List (Str × Json)) (tag : Str) (ns : List (Str × Str)) (hp : PlainXml (qualify ns) fs) (r : Option Elem)
    (h : dictToXml valid fs tag ns = .ok r) :
    ∃ e, Renders valid (qualify ns) tag fs e ∧ r = if valid e.tag e.attrib then some e else none := by
  unfold dictToXml at h
  simp only at h
  split at h
  · cases h
  · next a hb =>
    injection h with h
    subst h
    exact ⟨_, (renders_srt valid hp hb).2, rfl⟩

/-! ### When the conversion succeeds -/

theorem entries_ok_mem {L : List (Str × Json)} : ∀ {acc acc' : Acc}, entries valid L acc = .ok acc' → ∀ {k v}, (k, v) ∈ L →
    ∃ a b, listEntry valid k (itemsOf v) a = .ok b := by
  induction L with
  | nil => intro _ _ _ _ _ h; cases h
  | cons f r ih =>
    obtain ⟨k, v⟩ := f
    intro acc acc' h k' v' hm
    rw [entries] at h
    split at h
    · cases h
    · next b hb =>
      rcases List.mem_cons.1 hm with hm | hm
      · cases hm; rw [entry_list] at hb; exact ⟨_, _, hb⟩
      · exact ih h hm

theorem scalarEntry_ok {k a} {acc acc' : Acc} (h : scalarEntry k a acc = .ok acc') : isAttribute k = true ∨ k = s%"text()" := by
  unfold scalarEntry at h
  rw [startsWith_at] at h
  by_cases ha : isAttribute k = true
  · exact Or.inl ha
  · rw [if_neg ha] at h
    split at h
    · next ht => exact Or.inr ht
    · cases h

theorem listEntry_ok {k} : ∀ {l : List Json} {acc acc' : Acc}, listEntry valid k l acc = .ok acc' →
    (∀ m, .arr m ∉ l) ∧ (scalarsOf (.arr l) ≠ [] → isAttribute k = true ∨ k = s%"text()") ∧
    (∀ g ∈ dictsOf (.arr l), ∃ a b, entries valid g a = .ok b)
  | [], _, _, h => by simp [scalarsOf, dictsOf]
  | .arr _ :: _, _, _, h => by rw [listEntry] at h; cases h
  | .leaf a :: r, _, _, h => by
    rw [listEntry] at h
    split at h
    · cases h
    · next b hb =>
      obtain ⟨h1, h2, h3⟩ := listEntry_ok h
      exact ⟨by simpa using h1, fun _ => scalarEntry_ok hb, h3⟩
  | .obj fs :: r, _, _, h => by
    rw [listEntry] at h
    split at h
    · cases h
    · next b hb =>
      obtain ⟨h1, h2, h3⟩ := listEntry_ok h
      refine ⟨by simpa using h1, h2, ?_⟩
      intro g hg
      simp only [dictsOf, List.filterMap_cons, List.mem_cons] at hg
      rcases hg with rfl | hg
      · exact ⟨_, _, hb⟩
      · exact h3 g hg

theorem misplaced_fails {fs : List (Str × Json)} (hm : Misplaced fs) : ∀ acc acc', entries valid (srt fs) acc ≠ .ok acc' := by
  induction hm with
  | @scalar fs k v hm hs ha ht =>
    intro acc acc' h
    obtain ⟨a, b, hl⟩ := entries_ok_mem valid h (mem_srt.2 ⟨v, hm, rfl⟩)
    have := (listEntry_ok valid hl).2.1 (by rw [scalarsOf_items, scalarsOf_sortJson]; exact hs)
    rcases this with h | h
    · rw [ha] at h; cases h
    · exact ht h
  | @nested fs k l m hm hl =>
    intro acc acc' h
    obtain ⟨a, b, hl'⟩ := entries_ok_mem valid h (mem_srt.2 ⟨_, hm, rfl⟩)
    apply (listEntry_ok valid hl').1 (sortItems m)
    rw [sortJson, itemsOf, sortItems_eq, List.mem_map]
    exact ⟨_, hl, by rw [sortJson]⟩
  | @inside fs k v g hm hg _ ih =>
    intro acc acc' h
    obtain ⟨a, b, hl⟩ := entries_ok_mem valid h (mem_srt.2 ⟨v, hm, rfl⟩)
    obtain ⟨a, b, he⟩ := (listEntry_ok valid hl).2.2 (srt g) (by rw [dictsOf_items, dictsOf_sortJson]; exact List.mem_map.2 ⟨g, hg, rfl⟩)
    exact ih _ _ he

theorem listEntry_succeeds {k} (hk : isAttribute k = true → Py.startsWith s%"@xmlns" k = false) : ∀ (l : List Json) (acc : Acc),
    (∀ m, .arr m ∉ l) → (scalarsOf (.arr l) ≠ [] → isAttribute k = true ∨ k = s%"text()") →
    (∀ g ∈ dictsOf (.arr l), ∀ ns, ∃ b, entries valid g { nsmap := ns } = .ok b) → ∃ acc', listEntry valid k l acc = .ok acc'
  | [], acc, _, _, _ => ⟨acc, by rw [listEntry]⟩
  | .arr m :: _, _, h, _, _ => absurd List.mem_cons_self (h m)
  | .leaf a :: r, acc, h1, h2, h3 => by
    obtain ⟨b, hb⟩ : ∃ b, scalarEntry k a acc = .ok b := by
      unfold scalarEntry
      rw [startsWith_at]
      rcases h2 (by simp [scalarsOf]) with h | h
      · rw [if_pos h, hk h]; exact ⟨_, rfl⟩
      · rw [if_neg (by rw [h]; decide), if_pos h]; exact ⟨_, rfl⟩
    rw [listEntry, hb]
    exact listEntry_succeeds hk r b (fun m hm => h1 m (by simp [hm])) (fun _ => h2 (by simp [scalarsOf])) h3
  | .obj fs :: r, acc, h1, h2, h3 => by
    obtain ⟨b, hb⟩ := h3 fs (by simp [dictsOf]) acc.nsmap
    rw [listEntry, hb]
    exact listEntry_succeeds hk r _ (fun m hm => h1 m (by simp [hm])) h2
      (fun g hg => h3 g (by simp only [dictsOf, List.filterMap_cons] at hg ⊢; simp [hg]))

theorem entries_succeeds (L : List (Str × Json)) (h : ∀ f ∈ L, ∀ acc, ∃ acc', listEntry valid f.1 (itemsOf f.2) acc = .ok acc') :
    ∀ acc, ∃ acc', entries valid L acc = .ok acc' := by
  induction L with
  | nil => intro acc; exact ⟨acc, by rw [entries]⟩
  | cons f r ih =>
    obtain ⟨k, v⟩ := f
    intro acc
    obtain ⟨b, hb⟩ := h (k, v) (by simp) acc
    rw [entries, entry_list, hb]
    exact ih (fun f hf => h f (by simp [hf])) b

theorem not_misplaced_succeeds {q : Str → Str} {fs : List (Str × Json)} (hp : PlainXml q fs) : ¬ Misplaced fs → ∀ acc, ∃ acc', entries valid (srt fs) acc = .ok acc' := by
  induction hp with
  | @mk fs hn ha _ ih =>
    intro hm
    apply entries_succeeds
    rintro ⟨k, v⟩ hf acc
    obtain ⟨u, hu, rfl⟩ := mem_srt.1 hf
    apply listEntry_succeeds valid (fun h => (ha _ hu h).1)
    · intro m hmem
      cases u with
      | leaf a => simp [sortJson, itemsOf] at hmem
      | obj g => simp [sortJson, itemsOf] at hmem
      | arr l =>
        rw [sortJson, itemsOf, sortItems_eq, List.mem_map] at hmem
        obtain ⟨j, hj, he⟩ := hmem
        cases j with
        | leaf a => simp [sortJson] at he
        | obj g => simp [sortJson] at he
        | arr m' => exact hm (.nested hu hj)
    · rw [scalarsOf_items, scalarsOf_sortJson]
      intro hs
      by_cases h : isAttribute k = true
      · exact Or.inl h
      · right
        apply Classical.byContradiction
        intro ht
        exact hm (.scalar hu hs (by simpa using h) ht)
    · rw [dictsOf_items, dictsOf_sortJson]
      intro g hg ns
      obtain ⟨g, hg, rfl⟩ := List.mem_map.1 hg
      by_cases h : isAttribute k = true
      · rw [(ha _ hu h).2] at hg; cases hg
      · apply ih (k, g)
        · simp only [kids, List.mem_flatMap]
          exact ⟨(k, u), hu, by rw [if_neg h]; exact List.mem_map.2 ⟨g, by assumption, rfl⟩⟩
        · intro hmg; exact hm (.inside hu (by assumption) hmg)

/-- C46: if the tree is converted at all, the result is the element it describes, unless that is not valid XML. -/
theorem C46_element (fs : List (Str × Json)) (tag : Str) (ns : List (Str × Str)) (q : Str → Str) (hq : Qualifies ns q) (hp : PlainXml q fs) (r : Option Elem)
    (h : dictToXml valid fs tag ns = .ok r) :
    ∃ e, Renders valid q tag fs e ∧ r = if valid e.tag e.attrib then some e else none := by
  rw [qualifies_eq hq] at hp ⊢
  exact element_renders valid fs tag ns hp r h

theorem conversion_succeeds (fs : List (Str × Json)) (tag : Str) (ns : List (Str × Str)) (hp : PlainXml (qualify ns) fs) :
    (∃ r, dictToXml valid fs tag ns = .ok r) ↔ ¬ Misplaced fs := by
  constructor
  · rintro ⟨r, h⟩ hm
    unfold dictToXml at h
    simp only at h
    split at h
    · cases h
    · next a hb => exact misplaced_fails valid hm _ _ hb
  · intro hm
    obtain ⟨a, ha⟩ := not_misplaced_succeeds valid hp hm { nsmap := ns }
    exact ⟨_, by unfold dictToXml; simp only [srt] at ha; rw [ha]⟩

/-! ### The order of attributes does not matter -/

theorem le_total (a b : Str) : insertKey.le a b = true ∨ insertKey.le b a = true := by
  induction a generalizing b with
  | nil => left; rw [insertKey.le]
  | cons x r ih =>
    cases b with
    | nil => right; rw [insertKey.le]
    | cons y s =>
      rw [insertKey.le, insertKey.le]
      by_cases h : x = y
      · subst h; simpa using ih s
      · simp only [h, Ne.symm h, if_false, decide_eq_true_eq]
        have : x.toNat ≠ y.toNat := fun hc => h (Char.toNat_inj.1 hc)
        omega

theorem le_antisymm (a b : Str) (h : insertKey.le a b = true) (g : insertKey.le b a = true) : a = b := by
  induction a generalizing b with
  | nil =>
    cases b with
    | nil => rfl
    | cons y s => rw [insertKey.le] at g; cases g
  | cons x r ih =>
    cases b with
    | nil => rw [insertKey.le] at h; cases h
    | cons y s =>
      rw [insertKey.le] at h g
      by_cases he : x = y
      · subst he; simp only [if_true] at h g; rw [ih s h g]
      · simp only [he, Ne.symm he, if_false, decide_eq_true_eq] at h g; omega

theorem le_trans' (a b c : Str) (h : insertKey.le a b = true) (g : insertKey.le b c = true) : insertKey.le a c = true := by
  induction a generalizing b c with
  | nil => rw [insertKey.le]
  | cons x r ih =>
    cases b with
    | nil => rw [insertKey.le] at h; cases h
    | cons y s =>
      cases c with
      | nil => rw [insertKey.le] at g; cases g
      | cons z t =>
        rw [insertKey.le] at h g ⊢
        by_cases h1 : x = y
        · subst h1
          by_cases h2 : x = z
          · subst h2; simp only [if_true] at h g ⊢; exact ih s t h g
          · simp only [h2, if_false] at g ⊢; exact g
        · by_cases h2 : y = z
          · subst h2; simp only [h1, if_false] at h ⊢; exact h
          · simp only [h1, h2, if_false, decide_eq_true_eq] at h g
            have : x ≠ z := by rintro rfl; omega
            simp only [this, if_false, decide_eq_true_eq]; omega

theorem insertKey_comm {α : Type} (x y : Str × α) (h : x.1 ≠ y.1) (l : List (Str × α)) :
    insertKey x (insertKey y l) = insertKey y (insertKey x l) := by
  induction l with
  | nil =>
    simp only [insertKey]
    rcases le_total x.1 y.1 with h1 | h1
    · have h2 : insertKey.le y.1 x.1 = false := by
        cases hc : insertKey.le y.1 x.1 with
        | false => rfl
        | true => exact absurd (le_antisymm _ _ h1 hc) h
      simp [h1, h2, insertKey]
    · have h2 : insertKey.le x.1 y.1 = false := by
        cases hc : insertKey.le x.1 y.1 with
        | false => rfl
        | true => exact absurd (le_antisymm _ _ hc h1) h
      simp [h1, h2, insertKey]
  | cons z r ih =>
    have t1 := le_total x.1 y.1
    have a1 := fun h1 h2 => h (le_antisymm x.1 y.1 h1 h2)
    have tr1 := le_trans' x.1 y.1 z.1
    have tr2 := le_trans' y.1 x.1 z.1
    by_cases hx : insertKey.le x.1 z.1 = true <;> by_cases hy : insertKey.le y.1 z.1 = true <;>
      by_cases hxy : insertKey.le x.1 y.1 = true <;> by_cases hyx : insertKey.le y.1 x.1 = true <;>
      simp_all [insertKey]

theorem sortKeys_of_perm {α : Type} {l m : List (Str × α)} (h : l.Perm m) : (Dict.keys l).Nodup → sortKeys l = sortKeys m := by
  induction h with
  | nil => intro _; rfl
  | cons x _ ih =>
    intro hn
    rw [sortKeys, sortKeys, ih (List.nodup_cons.1 hn).2]
  | swap x y l =>
    intro hn
    simp only [sortKeys]
    apply insertKey_comm
    intro he
    simp only [Dict.keys, List.map_cons, List.nodup_cons, List.mem_cons, not_or] at hn
    exact hn.1.1 he
  | trans h1 _ ih1 ih2 =>
    intro hn
    rw [ih1 hn, ih2 ((h1.map (fun p : Str × _ => p.1)).nodup_iff.1 hn)]

theorem sortAttributes_of_perm {α : Type} {l m : List (Str × α)} (hn : (Dict.keys l).Nodup)
    (h1 : (l.filter (fun f => isAttribute f.1)).Perm (m.filter (fun f => isAttribute f.1)))
    (h2 : l.filter (fun f => !isAttribute f.1) = m.filter (fun f => !isAttribute f.1)) : sortAttributes l = sortAttributes m := by
  unfold sortAttributes
  simp only [startsWith_at]
  rw [h2, sortKeys_of_perm h1]
  exact (List.filter_sublist.map (fun p : Str × _ => p.1)).nodup hn

theorem keys_reorderedFields {fs hs : List (Str × Json)} (h : ReorderedFields fs hs) : Dict.keys fs = Dict.keys hs := by
  induction fs generalizing hs with
  | nil => cases h; rfl
  | cons f r ih =>
    obtain ⟨k, v⟩ := f
    cases h with
    | cons h1 h2 => simp only [Dict.keys, List.map_cons, List.cons.injEq, true_and]; exact ih h2

theorem reorderedDict_sort {fs gs : List (Str × Json)} (h : ReorderedDict fs gs) : sortAttributes (sortAll fs) = sortAttributes (sortAll gs) := by
  refine ReorderedDict.rec (motive_1 := fun v w _ => sortJson v = sortJson w)
    (motive_2 := fun fs gs _ => sortAttributes (sortAll fs) = sortAttributes (sortAll gs))
    (motive_3 := fun fs hs _ => sortAll fs = sortAll hs) (motive_4 := fun l m _ => sortItems l = sortItems m)
    ?_ ?_ ?_ ?_ ?_ ?_ ?_ ?_ h
  · intro a; rfl
  · intro fs gs _ h; rw [sortJson, sortJson, h]
  · intro l m _ h; rw [sortJson, sortJson, h]
  · intro fs hs gs hn h1 h2 h3 ih
    rw [ih, sortAll_eq, sortAll_eq]
    apply sortAttributes_of_perm
    · rw [keys_reorderedFields h1] at hn
      simpa [Dict.keys, List.map_map, Function.comp_def] using hn
    · rw [List.filter_map, List.filter_map]
      exact h2.map _
    · rw [List.filter_map, List.filter_map]
      exact congrArg _ h3
  · rfl
  · intro k v w fs gs _ _ h1 h2; rw [sortAll, sortAll, h1, h2]
  · rfl
  · intro v w l m _ _ h1 h2; rw [sortItems, sortItems, h1, h2]

/-- C46: the result does not depend on where, at any level, the attributes are among the entries. -/
theorem C46_attribute_order (fs gs : List (Str × Json)) (h : ReorderedDict fs gs) (tag : Str) (ns : List (Str × Str)) :
    dictToXml valid fs tag ns = dictToXml valid gs tag ns := by
  unfold dictToXml
  rw [reorderedDict_sort h]

/-- The namespaces at the start. -/
def startNs : List (Str × Str) := [(s%"xml", s%"http://www.w3.org/XML/1998/namespace")]

theorem all₂_map_self {α : Type} {R : α → α → Prop} {f : α → α} (h : ∀ a, R a (f a)) : ∀ l : List α, All₂ R l (l.map f)
  | [] => .nil
  | a :: r => .cons (h a) (all₂_map_self h r)

/-- C46: the conversion fails exactly if somewhere a scalar is neither an attribute nor a text (or there is a list in a list). -/
theorem C46_succeeds (fs : List (Str × Json)) (tag : Str) (ns : List (Str × Str)) (q : Str → Str) (hq : Qualifies ns q) (hp : PlainXml q fs) :
    (∃ r, dictToXml valid fs tag ns = .ok r) ↔ ¬ Misplaced fs := by
  rw [qualifies_eq hq] at hp
  exact conversion_succeeds valid fs tag ns hp

/-- C46, C44: the XML document is the element described by the tree, with each child of the root sorted by the schema. -/
theorem C46_document (fs : List (Str × Json)) (tag : Str) (o : Order) (q : Str → Str) (hq : Qualifies xmlPrefix q) (hp : PlainXml q fs) (e : Elem)
    (h : toXml valid fs tag (some o) = .ok e) :
    ∃ e0, Renders valid q tag fs e0 ∧ e.tag = e0.tag ∧ e.attrib = e0.attrib ∧ e.text = e0.text ∧
      All₂ (SortedAs o) e0.children e.children := by
  unfold toXml at h
  split at h
  · cases h
  · cases h
  · next e0 he =>
    obtain ⟨e1, h1, h2⟩ := C46_element valid fs tag startNs q hq hp _ he
    have : e1 = e0 := by
      split at h2
      · exact (Option.some.inj h2).symm
      · cases h2
    subst this
    injection h with h
    subst h
    exact ⟨_, h1, rfl, rfl, rfl, all₂_map_self (C44_sorted_by_schema o) _⟩

/-! ### Concrete cases -/

/-- An activity with a qualified attribute, a repeated child with text and attributes, and an attribute after the children. -/
def exampleActivity : List (Str × Json) :=
  [(s%"@xml:lang", .leaf (.str s%"en")),
   (s%"title", .arr [.obj [(s%"text()", .leaf (.str s%"A")), (s%"@b", .leaf (.int 1)), (s%"@a", .leaf (.str s%"x"))], .obj [(s%"text()", .leaf (.str s%"B"))]]),
   (s%"@id", .leaf (.str s%"7"))]

example : PlainXml (qualify startNs) exampleActivity :=
  .mk (by decide +kernel) (by decide +kernel) (by
    intro kg hkg
    have : kids exampleActivity = [(s%"title", [(s%"text()", .leaf (.str s%"A")), (s%"@b", .leaf (.int 1)), (s%"@a", .leaf (.str s%"x"))]),
        (s%"title", [(s%"text()", .leaf (.str s%"B"))])] := by decide +kernel
    rw [this] at hkg
    simp only [List.mem_cons, List.not_mem_nil, or_false] at hkg
    rcases hkg with rfl | rfl
    · exact .mk (by decide +kernel) (by decide +kernel) (by intro kg hkg; revert hkg; simp [kids, dictsOf, isAttribute])
    · exact .mk (by decide +kernel) (by decide +kernel) (by intro kg hkg; revert hkg; simp [kids, dictsOf, isAttribute]))

example : dictToXml (fun _ _ => true) exampleActivity s%"activity" startNs =
    .ok (some (.mk s%"activity" [(s%"id", s%"7"), (s%"{http://www.w3.org/XML/1998/namespace}lang", s%"en")] none
      [.mk s%"title" [(s%"a", s%"x"), (s%"b", s%"1")] (some s%"A") [], .mk s%"title" [] (some s%"B") []])) := by rfl

/-- A scalar that is neither an attribute nor a text makes the conversion fail. -/
example : Misplaced [(s%"a", .obj [(s%"b", .leaf (.int 1))])] :=
  .inside (k := s%"a") (v := .obj [(s%"b", .leaf (.int 1))]) (g := [(s%"b", .leaf (.int 1))]) (by simp) (by simp [dictsOf]) (.scalar (k := s%"b") (v := .leaf (.int 1)) (by simp) (by simp [scalarsOf]) (by decide) (by decide))

/-- Namespace declarations are excluded by `PlainXml` because the dict of prefixes is shared by the whole document: a prefix is only
known after the element that declares it has been processed.  Here the same child is qualified or not depending on its place. -/
example : dictToXml (fun _ _ => true) [(s%"p:a", .obj []), (s%"b", .obj [(s%"@xmlns:p", .leaf (.str s%"u"))]), (s%"p:a", .obj [])] s%"r" startNs =
    .ok (some (.mk s%"r" [] none [.mk s%"{}a" [] none [], .mk s%"b" [] none [], .mk s%"{u}a" [] none []])) := by rfl

end Verif
