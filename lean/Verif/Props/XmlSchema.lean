import Verif.Spec.Xsd
import Verif.Proofs.DecXml
import Verif.Props.XmlSort
import Verif.Props.XmlRender
import Verif.Props.Output
import Verif.Props.Readers
/-! C52: the XML output is in the order of the XML schemas. -/
namespace Verif
open Spec Xsd

theorem xsd_inj {a b : Str} (h : xsd a = xsd b) : a = b := by
  unfold xsd at h; exact List.append_cancel_left h

/-! ### Declarations -/

theorem find?_split {α : Type} {p : α → Bool} {l : List α} {a : α} (h : l.find? p = some a) :
    ∃ left right, l = left ++ a :: right ∧ p a = true ∧ ∀ m ∈ left, p m = false := by
  induction l with
  | nil => cases h
  | cons b r ih =>
    by_cases hb : p b = true
    · rw [List.find?_cons_of_pos hb] at h
      injection h with h; subst h
      exact ⟨[], r, rfl, hb, by simp⟩
    · rw [List.find?_cons_of_neg hb] at h
      obtain ⟨l1, l2, e, h1, h2⟩ := ih h
      refine ⟨b :: l1, l2, by rw [e]; rfl, h1, ?_⟩
      intro m hm
      rcases List.mem_cons.1 hm with rfl | hm
      · simpa using hb
      · exact h2 m hm

theorem find?_of_split {α : Type} {p : α → Bool} {left right : List α} {a : α} (h1 : p a = true)
    (h2 : ∀ m ∈ left, p m = false) : (left ++ a :: right).find? p = some a := by
  induction left with
  | nil => rw [List.nil_append, List.find?_cons_of_pos h1]
  | cons b r ih =>
    rw [List.cons_append, List.find?_cons_of_neg (by simp [h2 b])]
    exact ih (fun m hm => h2 m (by simp [hm]))

theorem getElement_declared {S : List Node} {k n : Str} {d : Node} : getElement S k n = some d ↔ Declared S k n d := by
  constructor
  · intro h
    induction S with
    | nil => cases h
    | cons s r ih =>
      unfold getElement at h ih
      rw [List.findSome?_cons] at h
      split at h
      · next x hx =>
        injection h with h; subst h
        obtain ⟨l, r', e, h1, h2⟩ := find?_split hx
        simp only [Bool.and_eq_true, decide_eq_true_eq] at h1
        refine ⟨[], s, r, l, r', rfl, e, h1.1, h1.2, ?_, by simp⟩
        intro m hm hc
        have := h2 m hm
        simp [hc.1, hc.2] at this
      · next hx =>
        obtain ⟨b, s', a, l, r', e, h1, h2, h3, h4, h5⟩ := ih h
        refine ⟨s :: b, s', a, l, r', by rw [e]; rfl, h1, h2, h3, h4, ?_⟩
        intro s2 hs2 m hm hc
        rcases List.mem_cons.1 hs2 with rfl | hs2
        · have := List.find?_eq_none.1 hx m hm
          simp [hc.1, hc.2] at this
        · exact h5 s2 hs2 m hm hc
  · rintro ⟨b, s, a, l, r, rfl, h1, h2, h3, h4, h5⟩
    unfold getElement
    induction b with
    | nil =>
      rw [List.nil_append, List.findSome?_cons, h1, find?_of_split (by simp [h2, h3])]
      intro m hm
      have := h4 m hm
      simpa using this
    | cons s' b ih =>
      rw [List.cons_append, List.findSome?_cons, List.find?_eq_none.2]
      · exact ih (fun s2 hs2 => h5 s2 (by simp [hs2]))
      · intro m hm
        have := h5 s' (by simp) m hm
        simpa using this

theorem declared_unique {S : List Node} {k n : Str} {d e : Node} (h1 : Declared S k n d) (h2 : Declared S k n e) : d = e := by
  have := getElement_declared.2 h1
  rw [getElement_declared.2 h2] at this
  exact (Option.some.inj this).symm

/-! ### The declarations the code finds -/

theorem findAll_two (a b : Str) (n : Node) : findAll [a, b] n = (n.children.filter (fun c => c.tag = a)).flatMap (fun c => c.children.filter (fun d => d.tag = b)) := by
  simp [findAll]

theorem findAll_cons (a : Str) (ts : List Str) (n : Node) :
    findAll (a :: ts) n = (n.children.filter (fun c => c.tag = a)).flatMap (findAll ts) := rfl

theorem childrenWith_one (k : Str) (n : Node) : childrenWith [k] n = n.children.filter (fun c => c.tag = xsd k) := by
  unfold childrenWith; congr 1; funext c; simp

/-- The children with a tag, if just one child has one of the tags of a list. -/
theorem filter_one_of {ks : List Str} {n g : Node} (h : childrenWith ks n = [g]) {k : Str} (hk : k ∈ ks) :
    n.children.filter (fun c => c.tag = xsd k) = if g.tag = xsd k then [g] else [] := by
  have : n.children.filter (fun c => c.tag = xsd k) = (childrenWith ks n).filter (fun c => c.tag = xsd k) := by
    unfold childrenWith
    rw [List.filter_filter]
    apply List.filter_congr
    intro c _
    by_cases hc : c.tag = xsd k
    · simp only [hc, decide_true, Bool.true_and]
      exact (decide_eq_true (List.mem_map.2 ⟨k, hk, rfl⟩)).symm
    · simp [hc]
  rw [this, h]
  by_cases hg : g.tag = xsd k
  · simp [hg]
  · simp [hg]

theorem tag_of_one {ks : List Str} {n g : Node} (h : childrenWith ks n = [g]) : ∃ k ∈ ks, g.tag = xsd k := by
  have : g ∈ childrenWith ks n := by rw [h]; simp
  unfold childrenWith at this
  have := (List.mem_filter.1 this).2
  simp only [decide_eq_true_eq, List.mem_map] at this
  obtain ⟨k, hk, e⟩ := this
  exact ⟨k, hk, e.symm⟩

theorem groups_inline {ct g : Node} (h : childrenWith [s%"choice", s%"sequence", s%"all"] ct = [g]) :
    findAll [xsd s%"choice", xsd s%"element"] ct ++ findAll [xsd s%"sequence", xsd s%"element"] ct
      ++ findAll [xsd s%"all", xsd s%"element"] ct = childrenWith [s%"element"] g := by
  rw [findAll_two, findAll_two, findAll_two, filter_one_of h (by simp), filter_one_of h (by simp), filter_one_of h (by simp),
    childrenWith_one]
  have d1 : xsd s%"choice" ≠ xsd s%"sequence" := fun e => absurd (xsd_inj e) (by decide)
  have d2 : xsd s%"choice" ≠ xsd s%"all" := fun e => absurd (xsd_inj e) (by decide)
  have d3 : xsd s%"sequence" ≠ xsd s%"all" := fun e => absurd (xsd_inj e) (by decide)
  obtain ⟨k, hk, e⟩ := tag_of_one h
  simp only [List.mem_cons, List.not_mem_nil, or_false] at hk
  rcases hk with rfl | rfl | rfl
  · simp [e, d1, d2]
  · simp [e, d1.symm, d3]
  · simp [e, d2.symm, d3.symm]

theorem groups_named {ct g : Node} (h : childrenWith [s%"choice", s%"sequence"] ct = [g]) :
    typeGroups ct = childrenWith [s%"element"] g := by
  unfold typeGroups
  rw [findAll_two, findAll_two, filter_one_of h (by simp), filter_one_of h (by simp), childrenWith_one]
  have d1 : xsd s%"choice" ≠ xsd s%"sequence" := fun e => absurd (xsd_inj e) (by decide)
  obtain ⟨k, hk, e⟩ := tag_of_one h
  simp only [List.mem_cons, List.not_mem_nil, or_false] at hk
  rcases hk with rfl | rfl
  · simp [e, d1]
  · simp [e, d1.symm]

theorem extensionOf_none {ct : Node} (h : childrenWith [s%"complexContent"] ct = []) : extensionOf ct = none := by
  unfold extensionOf
  rw [childrenWith_one] at h
  rw [findAll_cons, h]; rfl

theorem typeGroups_none {ct : Node} (h : childrenWith [s%"choice", s%"sequence"] ct = []) : typeGroups ct = [] := by
  have : ∀ k, k ∈ [s%"choice", s%"sequence"] → ct.children.filter (fun c => c.tag = xsd k) = [] := by
    intro k hk
    rw [List.filter_eq_nil_iff] at *
    intro c hc
    have := (List.filter_eq_nil_iff.1 (show childrenWith [s%"choice", s%"sequence"] ct = [] from h)) c hc
    simp only [decide_eq_true_eq] at this ⊢
    intro e
    exact this (e ▸ List.mem_map.2 ⟨k, hk, rfl⟩)
  unfold typeGroups
  rw [findAll_two, findAll_two, this _ (by simp), this _ (by simp)]; rfl

theorem extensionOf_some {ct cc ext : Node} (h1 : childrenWith [s%"complexContent"] ct = [cc]) (h2 : childrenWith [s%"extension"] cc = [ext]) :
    extensionOf ct = if ext.children.isEmpty then none else some ext := by
  unfold extensionOf
  rw [childrenWith_one] at h1 h2
  rw [findAll_two, h1]
  simp only [List.flatMap_cons, List.flatMap_nil, List.append_nil, h2]
  rfl

/-- The list may be doubled: the code lists the elements of a base type twice. -/
theorem handleType_contains {S : List Node} {ct : Node} {ds : List Node} (hc : TypeContains S ct ds) : ∀ {fuel : Nat} {ds' : List Node},
    handleType S fuel (some ct) = .ok ds' → (ds' = ds ∧ typeGroups ct = ds) ∨ (ds' = ds ++ ds ∧ typeGroups ct = []) := by
  induction hc with
  | @group ct g h4 h5 =>
    intro fuel ds' h
    cases fuel with
    | zero => simp [handleType] at h
    | succ f =>
      rw [handleType, extensionOf_none h4] at h
      simp only [Except.ok.injEq] at h
      exact .inl ⟨by rw [← h, groups_named h5], groups_named h5⟩
  | @extension ct cc ext b base ds h1 h2 h3 h4 h5 h6 h7 ih =>
    intro fuel ds' h
    cases fuel with
    | zero => simp [handleType] at h
    | succ f =>
      have hne : ext.children.isEmpty = false := by simpa using h4
      rw [handleType, extensionOf_some h2 h3, hne] at h
      simp only [Bool.false_eq_true, if_false, h5, Option.bind_some, getElement_declared.2 h6] at h
      split at h
      · cases h
      · next l hl =>
        injection h with h; subst h
        rcases ih hl with ⟨e1, e2⟩ | ⟨e1, e2⟩
        · exact .inr ⟨by rw [e1, e2], typeGroups_none h1⟩
        · exact .inr ⟨by rw [e1, e2, List.append_nil], typeGroups_none h1⟩
  | @emptyExtension ct cc ext h1 h2 h3 h4 =>
    intro fuel ds' h
    cases fuel with
    | zero => simp [handleType] at h
    | succ f =>
      have hne : ext.children.isEmpty = true := by simpa using h4
      rw [handleType, extensionOf_some h2 h3, hne] at h
      simp only [if_true, Except.ok.injEq, typeGroups_none h1] at h
      exact .inl ⟨h.symm, typeGroups_none h1⟩

theorem childDecls_contains {S : List Node} {fuel : Nat} {el : Node} {ds ds' : List Node} (hc : Contains S el ds)
    (h : childDecls S fuel el = .ok ds') : ds' = ds ∨ ds' = ds ++ ds := by
  unfold childDecls at h
  simp only [findAll_cons (xsd s%"complexType")] at h
  cases hc with
  | @inline ct g h1 h2 h3 =>
    rw [childrenWith_one] at h2
    rw [h1, h2] at h
    simp only [Except.ok.injEq, List.flatMap_cons, List.flatMap_nil, List.append_nil] at h
    rw [groups_inline h3] at h
    exact .inl h.symm
  | @named t ct ds h1 h2 h3 h4 =>
    rw [childrenWith_one] at h2
    rw [h1, h2] at h
    simp only [List.flatMap_nil, List.append_nil, List.nil_append, getElement_declared.2 h3] at h
    split at h
    · cases h
    · next l hl =>
      injection h with h; subst h
      exact (handleType_contains h4 hl).imp And.left And.left
  | simple h1 h2 =>
    rw [childrenWith_one] at h2
    rw [h2] at h
    simp only [List.flatMap_nil, List.append_nil, List.nil_append] at h
    left
    split at h
    · simpa using h.symm
    · next t ht =>
      have : getElement S s%"complexType" t = none := by
        cases hg : getElement S s%"complexType" t with
        | none => rfl
        | some ct => exact absurd (getElement_declared.1 hg) (h1 t ct ht)
      rw [this] at h
      cases fuel <;> · rw [handleType] at h; simpa using h.symm

theorem mapE_all₂ {α β : Type} {f : α → Except Err β} : ∀ {l : List α} {m : List β}, mapE f l = .ok m → All₂ (fun a b => f a = .ok b) l m
  | [], m, h => by rw [mapE] at h; injection h with h; subst h; exact .nil
  | a :: r, m, h => by
    rw [mapE] at h
    split at h
    · cases h
    · next b hb =>
      split at h
      · cases h
      · next bs hbs =>
        injection h with h; subst h
        exact .cons hb (mapE_all₂ hbs)

theorem all₂_mem {α β : Type} {R : α → β → Prop} : ∀ {l : List α} {m : List β}, All₂ R l m → ∀ {a}, a ∈ l → ∃ b ∈ m, R a b
  | _, _, .nil, a, h => by cases h
  | _, _, .cons h1 h2, a, h => by
    rcases List.mem_cons.1 h with rfl | h
    · exact ⟨_, by simp, h1⟩
    · obtain ⟨b, hb, hR⟩ := all₂_mem h2 h
      exact ⟨b, by simp [hb], hR⟩

/-- The names of the children. -/
theorem names_decls {ds : List Node} {cs : List (Str × Option Node)} (h : All₂ (fun a b => childName a = .ok b) ds cs) :
    cs.map (fun c => some c.1) = ds.map declName := by
  induction h with
  | nil => rfl
  | @cons a b l m h1 h2 ih =>
    rw [List.map_cons, List.map_cons, ih]
    congr 1
    unfold childName at h1
    unfold declName
    split at h1
    · next n hn => injection h1 with h1; rw [← h1, hn]; rfl
    · next hn =>
      split at h1
      · next r hr => injection h1 with h1; rw [← h1, hn, hr]; rfl
      · cases h1

theorem keys_of_all₂ {cs : List (Str × Option Node)} {es : List (Str × Xml.Order)} {f : Str × Option Node → Except Err Xml.Order}
    (h : All₂ (fun c e => (f c).map (fun o => (c.1, o)) = .ok e) cs es) : Dict.keys es = cs.map (·.1) := by
  induction h with
  | nil => rfl
  | @cons a b l m h1 h2 ih =>
    simp only [Dict.keys, List.map_cons]
    cases hf : f a with
    | error e => rw [hf] at h1; cases h1
    | ok o =>
      rw [hf] at h1
      injection h1 with h1
      subst h1
      exact congrArg _ ih

theorem all₂_split {α β : Type} {R : α → β → Prop} : ∀ {a b : List α} {m : List β}, All₂ R (a ++ b) m → ∃ m1 m2, m = m1 ++ m2 ∧ All₂ R a m1 ∧ All₂ R b m2
  | [], b, m, h => ⟨[], m, rfl, .nil, h⟩
  | x :: a, b, _, .cons h1 h2 => by
    obtain ⟨m1, m2, rfl, e1, e2⟩ := all₂_split h2
    exact ⟨_ :: m1, m2, rfl, .cons h1 e1, e2⟩

theorem all₂_unique {α β : Type} {f : α → Except Err β} : ∀ {l : List α} {m m' : List β}, All₂ (fun a b => f a = .ok b) l m →
    All₂ (fun a b => f a = .ok b) l m' → m = m'
  | _, _, _, .nil, .nil => rfl
  | _, _, _, .cons h1 h2, .cons g1 g2 => by
    rw [h1] at g1
    injection g1 with g1
    rw [g1, all₂_unique h2 g2]

theorem set_present {κ α : Type} [DecidableEq κ] : ∀ (d : List (κ × α)) (k : κ) (v : α), Dict.get d k = some v → Dict.set d k v = d
  | [], k, v, h => by cases h
  | (k', v') :: r, k, v, h => by
    rw [Dict.get_cons] at h
    by_cases hk : k' = k
    · simp only [hk, if_true, Option.some.injEq] at h
      simp [Dict.set, hk, h]
    · simp only [hk, if_false] at h
      simp [Dict.set, hk, set_present r k v h]

theorem update_present {κ α : Type} [DecidableEq κ] (d : List (κ × α)) : ∀ (e : List (κ × α)), (∀ p ∈ e, Dict.get d p.1 = some p.2) → Dict.update d e = d
  | [], _ => rfl
  | p :: e, h => by
    have hu : Dict.update d (p :: e) = Dict.update (Dict.set d p.1 p.2) e := rfl
    rw [hu, set_present d _ _ (h p (by simp))]
    exact update_present d e (fun q hq => h q (by simp [hq]))

theorem dictOf_double {κ α : Type} [DecidableEq κ] (es : List (κ × α)) (h : (Dict.keys es).Nodup) : dictOf (es ++ es) = es := by
  have h1 : dictOf (es ++ es) = Dict.update (dictOf es) es := by unfold dictOf Dict.update; rw [List.foldl_append]
  rw [h1, dictOf_nodup es h]
  exact update_present es es (fun p hp => Dict.get_of_mem h hp)

/-- What the code computes for an element with declared contents. -/
theorem schemaDict_contains {S : List Node} {fuel : Nat} {el : Node} {ds : List Node} {o : Xml.Order} {name : Str} {e? : Option Node}
    (he : (e? <|> getElement S s%"element" name) = some el)
    (hc : Contains S el ds) (hn : (ds.map declName).Nodup) (h : schemaDict S (fuel + 1) name e? = .ok o) :
    (Dict.keys o.entries).map some = ds.map declName ∧
    ∀ c ∈ ds, ∃ tag e1 o1, childName c = .ok (tag, e1) ∧ Dict.get o.entries tag = some o1 ∧ schemaDict S fuel tag e1 = .ok o1 := by
  rw [schemaDict, he] at h
  simp only at h
  unfold elementLoop at h
  split at h
  · cases h
  · next cs hcs =>
    split at hcs
    · cases hcs
    · next l hl =>
      have e := childDecls_contains hc hl
      have hcs := mapE_all₂ hcs
      split at h
      · cases h
      · next es hes =>
        injection h with h; subst h
        have hes := mapE_all₂ hes
        obtain ⟨cs, es', hcs, hes, hdict⟩ : ∃ cs es', All₂ (fun a b => childName a = .ok b) ds cs ∧
            All₂ (fun (c : Str × Option Node) e => (schemaDict S fuel c.1 c.2).map (fun o => (c.1, o)) = .ok e) cs es' ∧
            ((Dict.keys es').Nodup → dictOf es = es') := by
          rcases e with rfl | rfl
          · exact ⟨cs, es, hcs, hes, dictOf_nodup es⟩
          · obtain ⟨c1, c2, rfl, g1, g2⟩ := all₂_split hcs
            have := all₂_unique g1 g2
            subst this
            obtain ⟨e1, e2, rfl, k1, k2⟩ := all₂_split hes
            have := all₂_unique k1 k2
            subst this
            exact ⟨c1, e1, g1, k1, dictOf_double e1⟩
        have hk := keys_of_all₂ (f := fun c => schemaDict S fuel c.1 c.2) hes
        have hnames : (Dict.keys es').map some = ds.map declName := by
          rw [hk, ← names_decls hcs, List.map_map]; rfl
        have hnd : (Dict.keys es').Nodup := by
          rw [← hnames] at hn
          exact (List.pairwise_map.1 hn).imp (fun h e => h (congrArg some e))
        show ((Dict.keys (dictOf es)).map some = _) ∧ ∀ c ∈ ds, ∃ tag e1 o1, _ ∧ Dict.get (dictOf es) tag = some o1 ∧ _
        rw [hdict hnd]
        refine ⟨hnames, ?_⟩
        intro c hc'
        obtain ⟨p, hp, hcn⟩ := all₂_mem hcs hc'
        obtain ⟨q, hq, hqs⟩ := all₂_mem hes hp
        cases hf : schemaDict S fuel p.1 p.2 with
        | error e => rw [hf] at hqs; cases hqs
        | ok o1 =>
          rw [hf] at hqs
          injection hqs with hqs
          subst hqs
          exact ⟨p.1, p.2, o1, hcn, Dict.get_of_mem hnd hq, hf⟩

/-- The part of the order at a path of tags. -/
def orderAt (o : Xml.Order) : List Str → Xml.Order
  | [] => o
  | t :: p => orderAt ((Dict.get o.entries t).getD (.mk [])) p

/-- Following tags in the schemas is following them in the order the code computes; the depth is enough. -/
theorem schemaDict_leads {S : List Node} {el d : Node} {p : List Str} (hl : Leads S el p d) :
    ∀ {fuel : Nat} {name : Str} {e? : Option Node} {o : Xml.Order}, (e? <|> getElement S s%"element" name) = some el →
      schemaDict S fuel name e? = .ok o →
      ∃ f n e?', p.length + (f + 1) = fuel ∧ (e?' <|> getElement S s%"element" n) = some d ∧ schemaDict S (f + 1) n e?' = .ok (orderAt o p) := by
  induction hl with
  | @here el =>
    intro fuel name e? o he h
    cases fuel with
    | zero => rw [schemaDict] at h; cases h
    | succ f => exact ⟨f, name, e?, by simp, he, h⟩
  | @own el ds c tag p d hc hn hmem hname hl ih =>
    intro fuel name e? o he h
    cases fuel with
    | zero => rw [schemaDict] at h; cases h
    | succ f =>
      obtain ⟨tag', e1, o1, h1, h2, h3⟩ := (schemaDict_contains he hc hn h).2 c hmem
      unfold childName at h1
      rw [hname] at h1
      simp only [Except.ok.injEq, Prod.mk.injEq] at h1
      obtain ⟨rfl, rfl⟩ := h1
      obtain ⟨f', n, e2, g1, g2, g3⟩ := ih (e? := some c) rfl h3
      refine ⟨f', n, e2, by simp only [List.length_cons]; omega, g2, ?_⟩
      rw [orderAt, h2]; exact g3
  | @ref el ds c g tag p d hc hn hmem hname href hdec hl ih =>
    intro fuel name e? o he h
    cases fuel with
    | zero => rw [schemaDict] at h; cases h
    | succ f =>
      obtain ⟨tag', e1, o1, h1, h2, h3⟩ := (schemaDict_contains he hc hn h).2 c hmem
      unfold childName at h1
      rw [hname, href] at h1
      simp only [Except.ok.injEq, Prod.mk.injEq] at h1
      obtain ⟨rfl, rfl⟩ := h1
      obtain ⟨f', n, e2, g1, g2, g3⟩ := ih (e? := none) (getElement_declared.2 hdec) h3
      refine ⟨f', n, e2, by simp only [List.length_cons]; omega, g2, ?_⟩
      rw [orderAt, h2]; exact g3

/-! ### Sorted documents -/

theorem sortedChildren_mem {o : Xml.Order} : ∀ {cs ds : List Xml.Elem}, SortedChildren o cs ds → ∀ {d}, d ∈ ds →
    ∃ c, c.tag = d.tag ∧ SortedAs ((Dict.get o.entries c.tag).getD (.mk [])) c d
  | _, _, .nil, d, h => by cases h
  | _, _, .cons h1 h2, d, h => by
    rcases List.mem_cons.1 h with rfl | h
    · refine ⟨_, ?_, h1⟩
      cases h1; rfl
    · exact sortedChildren_mem h2 h

theorem sortedAs_inside {e d : Xml.Elem} {p : List Str} (h : Inside e p d) : ∀ {o : Xml.Order} {e0 : Xml.Elem}, SortedAs o e0 e →
    ∃ d0, SortedAs (orderAt o p) d0 d := by
  induction h with
  | here => intro o e0 h; exact ⟨e0, h⟩
  | @child e c p d hc hi ih =>
    intro o e0 h
    cases h with
    | @mk _ t a x cs ds cs' h1 h2 h3 h4 h5 =>
      obtain ⟨c0, ht, hs⟩ := sortedChildren_mem h1 (h2.mem_iff.2 hc)
      rw [ht] at hs
      exact ih hs

theorem sortedAs_inOrder {o : Xml.Order} {e0 e : Xml.Elem} (h : SortedAs o e0 e) : InOrder (Dict.keys o.entries) e.children := by
  cases h with
  | mk h1 h2 h3 h4 h5 => exact h3

/-- What is known about the order the code computes. -/
theorem schemaDict_inOrder {S : List Node} {fuel : Nat} {root : Str} {o : Xml.Order} (h : schemaDict S fuel root none = .ok o)
    {el d : Node} {p : List Str} (hd : Declared S s%"element" root el) (hl : Leads S el p d) {ds : List Node} (hc : Contains S d ds)
    (hn : (ds.map declName).Nodup) : (Dict.keys (orderAt o p).entries).map some = ds.map declName := by
  obtain ⟨f, n, e?, _, h2, h3⟩ := schemaDict_leads hl (e? := none) (getElement_declared.2 hd) h
  exact (schemaDict_contains h2 hc hn h3).1

/-! ### The written document -/

/-- What is written in XML mode. -/
theorem run_xml {o : Api.UnOpts} {env : Api.Env} {out : Api.UnOut} {e : Xml.Elem} (h : Api.runUnflatten o env = .ok out)
    (hd : out.document = .xml e) :
    ∃ config doc, Api.render o env config (Api.rootPathOf o config) doc = .ok (.xml e) := by
  unfold Api.runUnflatten at h
  split at h
  · cases h
  · split at h
    · cases h
    · split at h
      · cases h
      · next s hs =>
        split at h
        · split at h
          · cases h
          · next d hr =>
            injection h with h; subst h
            cases hd
            exact ⟨_, _, hr⟩
        · split at h
          · cases h
          · split at h
            · cases h
            · split at h
              · cases h
              · next d hr =>
                injection h with h; subst h
                cases hd
                exact ⟨_, _, hr⟩

/-- C52: in the XML document that `unflatten` writes with XML schemas, the children of every element for which the schemas
declare the contents are in the declared order (children with other names last). -/
theorem C52_schema_order (o : Api.UnOpts) (env : Api.Env) (out : Api.UnOut) (schemas : List Node) (root : Str) (e c d : Xml.Elem)
    (hroot : o.rootListPath = some root) (hs : env.xmlSchemas = some schemas)
    (h : Api.runUnflatten o env = .ok out) (hx : out.document = .xml e)
    (hc : c ∈ e.children) (p : List Str) (hin : Inside c p d)
    (el decl : Node) (hd : Declared schemas s%"element" root el) (hl : Leads schemas el p decl)
    (ds : List Node) (hds : Contains schemas decl ds) (names : List Str) (hn : ds.map declName = names.map some) (hnd : names.Nodup) :
    InOrder names d.children := by
  obtain ⟨config, doc, hr⟩ := run_xml h hx
  unfold Api.render at hr
  split at hr
  · split at hr
    · split at hr
      · cases hr
      · next order ho =>
        split at hr
        · cases hr
        · next el' hel =>
          injection hr with hr
          injection hr with hr
          subst hr
          unfold Api.xmlOrder at ho
          rw [hs] at ho
          simp only at ho
          split at ho
          · cases ho
          · next o1 ho1 =>
            injection ho with ho; subst ho
            unfold Xml.toXml at hel
            split at hel
            · cases hel
            · cases hel
            · next e0 he0 =>
              injection hel with hel
              simp only at hel
              subst hel
              obtain ⟨c0, hc0, rfl⟩ := List.mem_map.1 hc
              obtain ⟨d0, hs0⟩ := sortedAs_inside hin (C44_sorted_by_schema o1 c0)
              have hroot' : Api.rootPathOf o config = root := by unfold Api.rootPathOf; rw [hroot]; rfl
              rw [hroot'] at ho1
              have hnd' : (ds.map declName).Nodup := by
                rw [hn]; exact List.pairwise_map.2 (hnd.imp (fun h e => h (Option.some.inj e)))
              have hk := schemaDict_inOrder ho1 hd hl hds hnd'
              rw [hn] at hk
              have hk' : Dict.keys (orderAt o1 p).entries = names := List.map_inj_right (fun a b e => Option.some.inj e) |>.1 hk
              rw [← hk']
              exact sortedAs_inOrder hs0
    · cases hr
  · cases hr

theorem leads_length {S : List Node} {el d : Node} {p : List Str} (hl : Leads S el p d) {fuel : Nat} {root : Str} {o : Xml.Order}
    (hd : Declared S s%"element" root el) (h : schemaDict S fuel root none = .ok o) : p.length < fuel := by
  obtain ⟨f, n, e?, h1, _⟩ := schemaDict_leads hl (e? := none) (getElement_declared.2 hd) h
  omega

theorem leads_append {S : List Node} {a b c : Node} {p q : List Str} (h1 : Leads S a p b) (h2 : Leads S b q c) : Leads S a (p ++ q) c := by
  induction h1 with
  | here => exact h2
  | own hc hn hm hname hl ih => exact .own hc hn hm hname (ih h2)
  | ref hc hn hm h3 h4 h5 hl ih => exact .ref hc hn hm h3 h4 h5 (ih h2)

/-- C52: with a schema in which some element reached from the root element can contain itself, at whatever depth, there is no
XML output at all, whatever the recursion limit. -/
theorem C52_recursive_schema (schemas : List Node) (root : Str) (el d : Node) (p : List Str) (tag : Str) (q : List Str)
    (hd : Declared schemas s%"element" root el) (h1 : Leads schemas el p d) (h2 : Leads schemas d (tag :: q) d)
    (o : Api.UnOpts) (env : Api.Env) (out : Api.UnOut) (e : Xml.Elem) (hroot : o.rootListPath = some root)
    (hs : env.xmlSchemas = some schemas) (h : Api.runUnflatten o env = .ok out) : out.document ≠ .xml e := by
  intro hx
  obtain ⟨config, doc, hr⟩ := run_xml h hx
  have long : ∀ n : Nat, ∃ r : List Str, n ≤ r.length ∧ Leads schemas el r d := by
    intro n
    induction n with
    | zero => exact ⟨p, by omega, h1⟩
    | succ n ih =>
      obtain ⟨r, hr, hl⟩ := ih
      exact ⟨r ++ tag :: q, by simp only [List.length_append, List.length_cons]; omega, leads_append hl h2⟩
  have hroot' : Api.rootPathOf o config = root := by unfold Api.rootPathOf; rw [hroot]; rfl
  unfold Api.render at hr
  split at hr
  · split at hr
    · split at hr
      · cases hr
      · next order ho =>
        unfold Api.xmlOrder at ho
        rw [hs] at ho
        simp only at ho
        split at ho
        · cases ho
        · next o1 ho1 =>
          rw [hroot'] at ho1
          obtain ⟨r, hr1, hl⟩ := long env.depth
          have := leads_length hl hd ho1
          omega
    · cases hr
  · cases hr

/-! ### A concrete case -/

namespace XsdEx

/-- `<element name=… />`, `<element ref=… />`. -/
def elem (attrs : List (Str × Str)) (cs : List Node) : Node := .mk (xsd s%"element") attrs cs
def named (n : Str) : Node := elem [(s%"name", n)] []
def group (k : Str) (cs : List Node) : Node := .mk (xsd k) [] cs

/-- The type `Budget`: a sequence of `date` and `value`. -/
def budgetType : Node := .mk (xsd s%"complexType") [(s%"name", s%"Budget")] [group s%"sequence" [named s%"date", named s%"value"]]
/-- The element `item`: a choice of a reference to `title` and an own element `budget` of type `Budget`. -/
def budget : Node := elem [(s%"name", s%"budget"), (s%"type", s%"Budget")] []
def item : Node := elem [(s%"name", s%"item")]
  [group s%"complexType" [group s%"choice" [elem [(s%"ref", s%"title")] [], budget]]]
def schema : Node := .mk (xsd s%"schema") [] [item, named s%"title", budgetType]

def opts : Api.UnOpts := { inputFormat := some s%"csv", rootListPath := some s%"item", xml := true }
def env : Api.Env :=
  { input := .csv [(s%"a.csv", [[s%"note", s%"budget/value", s%"budget/date", s%"title"],
                                [s%"n", s%"5", s%"2020", s%"t"]])]
    xmlSchemas := some [schema] }

/-- The document: `title` before `budget`, `date` before `value`, the undeclared `note` last. -/
example : (match Api.runUnflatten opts env with | .ok out => some out.document | .error _ => none) =
    some (.xml (.mk s%"iati-activities" [] none [.mk s%"item" [] none
      [.mk s%"title" [] (some s%"t") [],
       .mk s%"budget" [] none [.mk s%"date" [] (some s%"2020") [], .mk s%"value" [] (some s%"5") []],
       .mk s%"note" [] (some s%"n") []]])) := by
  decide +kernel

/-- The hypotheses about the schema hold for `item` and for the `budget` in it. -/
example : Declared [schema] s%"element" s%"item" item := getElement_declared.1 rfl
example : Contains [schema] item [elem [(s%"ref", s%"title")] [], budget] :=
  .inline (ct := group s%"complexType" [group s%"choice" [elem [(s%"ref", s%"title")] [], budget]])
    (g := group s%"choice" [elem [(s%"ref", s%"title")] [], budget]) rfl rfl rfl
theorem leads_budget : Leads [schema] item [s%"budget"] budget :=
  .own (.inline (ct := group s%"complexType" [group s%"choice" [elem [(s%"ref", s%"title")] [], budget]])
    (g := group s%"choice" [elem [(s%"ref", s%"title")] [], budget]) rfl rfl rfl) (by decide) (List.mem_cons_of_mem _ (List.mem_singleton.2 rfl)) rfl .here
theorem contains_budget : Contains [schema] budget [named s%"date", named s%"value"] :=
  .named (t := s%"Budget") (ct := budgetType) rfl rfl (getElement_declared.1 rfl)
    (.group (g := group s%"sequence" [named s%"date", named s%"value"]) rfl rfl)

/-- A schema in which `item` contains `item`s: the code never gets an order. -/
def loopItem : Node := elem [(s%"name", s%"item")] [group s%"complexType" [group s%"sequence" [elem [(s%"ref", s%"item")] []]]]
def loop : Node := .mk (xsd s%"schema") [] [loopItem]
example : Leads [loop] loopItem [s%"item"] loopItem :=
  .ref (.inline (ct := group s%"complexType" [group s%"sequence" [elem [(s%"ref", s%"item")] []]])
    (g := group s%"sequence" [elem [(s%"ref", s%"item")] []]) rfl rfl rfl) (by decide) (List.mem_singleton.2 rfl) rfl rfl
    (getElement_declared.1 rfl) .here
example : (match Api.runUnflatten opts { env with xmlSchemas := some [loop], depth := 50 } with | .ok _ => none | .error e => some e)
    = some .recursion := by
  decide +kernel

/-- A type that extends `Budget`: the order of `Budget`. -/
def ext : Node := .mk (xsd s%"extension") [(s%"base", s%"Budget")] [group s%"sequence" [named s%"extra"]]
def bigType : Node := .mk (xsd s%"complexType") [(s%"name", s%"Big")] [group s%"complexContent" [ext]]
example : Contains [.mk (xsd s%"schema") [] [bigType, budgetType]] (elem [(s%"name", s%"x"), (s%"type", s%"Big")] []) [named s%"date", named s%"value"] :=
  .named (t := s%"Big") (ct := bigType) rfl rfl (getElement_declared.1 rfl)
    (.extension (cc := group s%"complexContent" [ext]) (ext := ext) (b := s%"Budget") (base := budgetType) rfl rfl rfl (by simp [ext, Node.children]) rfl
      (getElement_declared.1 rfl) (.group (g := group s%"sequence" [named s%"date", named s%"value"]) rfl rfl))

/-- Finding: a type that extends another one is given the elements of the base type (twice) and none of its own. -/
example : childDecls [.mk (xsd s%"schema") []
      [.mk (xsd s%"complexType") [(s%"name", s%"Big")] [group s%"complexContent"
        [.mk (xsd s%"extension") [(s%"base", s%"Budget")] [group s%"sequence" [named s%"extra"]]]], budgetType]] 10
      (elem [(s%"name", s%"x"), (s%"type", s%"Big")] [])
    = .ok [named s%"date", named s%"value", named s%"date", named s%"value"] := rfl

end XsdEx

end Verif
