import Verif.Proofs.Objects
/-! Ids are unique within arrays. -/
namespace Verif
open Spec

mutual
theorem tall_mono {Q : Str → Prop} {P P' : List Str → Cell → Prop} (h : ∀ p c, P p c → P' p c) :
    ∀ (p : List Str) (t : Tree), TAll Q P p t → TAll Q P' p t
  | p, .cell c, ht => by simp only [TAll] at *; exact h p c ht
  | p, .obj fs, ht => by simp only [TAll] at *; exact tallF_mono h p fs ht
  | p, .tmp a b, ht => by simp only [TAll] at *; exact ⟨tallK_mono h p a ht.1, tallI_mono h p b ht.2⟩
theorem tallF_mono {Q : Str → Prop} {P P' : List Str → Cell → Prop} (h : ∀ p c, P p c → P' p c) :
    ∀ (p : List Str) (t : List (Str × Tree)), TAllF Q P p t → TAllF Q P' p t
  | _, [], _ => by simp [TAllF]
  | p, (k, t) :: r, ht => by
    simp only [TAllF] at *; exact ⟨⟨ht.1.1, tall_mono h _ t ht.1.2⟩, tallF_mono h p r ht.2⟩
theorem tallK_mono {Q : Str → Prop} {P P' : List Str → Cell → Prop} (h : ∀ p c, P p c → P' p c) :
    ∀ (p : List Str) (t : List (Val × List (Str × Tree))), TAllK Q P p t → TAllK Q P' p t
  | _, [], _ => by simp [TAllK]
  | p, (k, t) :: r, ht => by simp only [TAllK] at *; exact ⟨tallF_mono h p t ht.1, tallK_mono h p r ht.2⟩
theorem tallI_mono {Q : Str → Prop} {P P' : List Str → Cell → Prop} (h : ∀ p c, P p c → P' p c) :
    ∀ (p : List Str) (t : List (List (Str × Tree))), TAllI Q P p t → TAllI Q P' p t
  | _, [], _ => by simp [TAllI]
  | p, t :: r, ht => by simp only [TAllI] at *; exact ⟨tallF_mono h p t ht.1, tallI_mono h p r ht.2⟩
end

theorem stringArray_ne_geo (s : Str) (g : Json) : stringArray s ≠ .geo g := by
  unfold stringArray; split <;> simp

theorem numberArray_ne_geo (s : Str) (g : Json) : numberArray s ≠ some (.geo g) := by
  unfold numberArray
  split
  · cases (Py.split ';' s).mapM (fun x => (Py.split ',' x).mapM Py.dec?) <;> simp
  · cases (Py.split ';' s).mapM Py.dec? <;> simp

theorem convertType_geo {env : ConvEnv} {ty : CType} {a : Atom} {g : Json} {w : List Warn}
    (h : convertType env ty a = .ok (.geo g, w)) : ∃ s, env.wktLoads s = some g := by
  unfold convertType at h
  split at h
  · simp at h
  · cases ty with
    | geojson =>
      simp only at h
      split at h
      · split at h
        · split at h
          · split at h
            · next g' hg => simp at h; exact ⟨_, by rw [hg, h.1]⟩
            · simp at h
          · cases h
        · simp at h
      · cases h
    | numberArray =>
      simp only at h
      split at h
      · next r hr => simp at h; exact absurd (h.1 ▸ hr) (numberArray_ne_geo _ _)
      · simp at h; exact absurd h.1 (stringArray_ne_geo _ _)
    | array => simp at h; exact absurd h.1 (stringArray_ne_geo _ _)
    | arrayArray => simp at h; exact absurd h.1 (stringArray_ne_geo _ _)
    | stringArray => simp at h; exact absurd h.1 (stringArray_ne_geo _ _)
    | number => simp only at h; split at h <;> simp at h
    | integer => simp only at h; split at h <;> simp at h
    | boolean => simp only at h; split at h <;> (try simp at h) <;> split at h <;> simp at h
    | string => simp only at h; split at h <;> simp at h
    | date => simp only at h; split at h <;> simp at h
    | object => simp at h
    | untyped =>
      simp only at h
      split at h
      · simp at h
      · split at h
        · split at h <;> simp at h
        · cases h
        · cases h
      · simp at h
      · simp at h

theorem convertCell_geo {cfg : RowCfg} {ty : Option CType} {v : Val} {g : Json} {w : List Warn}
    (h : convertCell cfg ty v = .ok (.geo g, w)) : v = .geo g ∨ ∃ s, cfg.conv.wktLoads s = some g := by
  unfold convertCell at h
  split at h
  · exact Or.inr (convertType_geo h)
  · simp at h; exact Or.inl h.1

theorem idsUniqueFields_iff {n : Option Str} {xml : Bool} {fs : List (Str × Json)} :
    IdsUniqueFields n xml fs ↔ ∀ e ∈ fs, IdsUnique n xml e.2 := by
  induction fs with
  | nil => simp [IdsUniqueFields]
  | cons e r ih => obtain ⟨k, v⟩ := e; simp only [IdsUniqueFields, ih, List.mem_cons, forall_eq_or_imp]

theorem idsUniqueList_iff {n : Option Str} {xml : Bool} {is : List Json} :
    IdsUniqueList n xml is ↔ ∀ e ∈ is, IdsUnique n xml e := by
  induction is with
  | nil => simp [IdsUniqueList]
  | cons e r ih => simp only [IdsUniqueList, ih, List.mem_cons, forall_eq_or_imp]

theorem pairwise_true {α : Type} (l : List α) : l.Pairwise (fun _ _ => True) := by
  induction l with
  | nil => simp
  | cons a l ih => exact List.pairwise_cons.2 ⟨fun _ _ => trivial, ih⟩

theorem idsUnique_flat {n : Option Str} {xml : Bool} {is : List Json} (h : ∀ e ∈ is, idOf n xml e = none ∧ IdsUnique n xml e) :
    IdsUnique n xml (.arr is) := by
  simp only [IdsUnique]
  refine ⟨?_, idsUniqueList_iff.2 (fun e he => (h e he).2)⟩
  refine List.Pairwise.imp_of_mem (R := fun _ _ => True) ?_ (pairwise_true _)
  intro a b ha _ _ x y hx
  rw [(h a ha).1] at hx; cases hx

theorem idsUnique_value {n : Option Str} {xml : Bool} {v : Val} (h : ∀ g, v = .geo g → IdsUnique n xml g) :
    IdsUnique n xml v.toJson := by
  cases v with
  | atom a => simp [Val.toJson, IdsUnique]
  | arr l =>
    apply idsUnique_flat
    intro e he
    simp at he; obtain ⟨a, _, rfl⟩ := he
    exact ⟨rfl, by simp [IdsUnique]⟩
  | arr2 l =>
    apply idsUnique_flat
    intro e he
    simp at he; obtain ⟨a, _, rfl⟩ := he
    refine ⟨rfl, idsUnique_flat ?_⟩
    intro e he
    simp at he; obtain ⟨b, _, rfl⟩ := he
    exact ⟨rfl, by simp [IdsUnique]⟩
  | geo g => exact h g rfl

/-- The id of a keyed item, seen in its JSON. -/
theorem idOf_keyed {n : Option Str} {xml : Bool} {k v : Val} {fs : Fields} (h : itemKey n xml fs = .ok (some v))
    (hk : k.hashable = true) (hs : SameKey k v) : ∃ a, v = .atom a ∧ idOf n xml (jobj fs) = some a := by
  have hv : v.hashable = true := by
    rcases hs with rfl | hs
    · exact hk
    · cases k with
      | atom a =>
        unfold Val.pyEq at hs
        cases v with
        | atom b => rfl
        | arr b => 
          simp only [Val.canon] at hs
          cases ha : a.canon <;> cases hb : b.mapM Atom.canon <;> simp [ha, hb] at hs
        | arr2 b =>
          simp only [Val.canon] at hs
          cases ha : a.canon <;> cases hb : b.mapM (fun (r : List Atom) => r.mapM Atom.canon) <;> simp [ha, hb] at hs
        | geo b => simp only [Val.canon] at hs; cases ha : a.canon <;> simp [ha] at hs
      | _ => simp [Val.hashable] at hk
  have := idOf_jobj h (by rintro v' ⟨rfl⟩; exact hv)
  cases hi : idOf n xml (jobj fs) with
  | none => simp [hi] at this
  | some a => simp [hi] at this; exact ⟨a, this.symm, rfl⟩

theorem sameKey_neq {k v k' v' : Val} (h : SameKey k v) (h' : SameKey k' v') (hne : ¬ k.pyEq k' = true) : v.pyEq v' = false := by
  rw [Bool.eq_false_iff]
  intro he
  apply hne
  have h1 : k.pyEq v = true := by
    rcases h with rfl | h
    · exact Val.pyEq_left he
    · exact h
  have h2 : k'.pyEq v' = true := by
    rcases h' with rfl | h'
    · exact Val.pyEq_right he
    · exact h'
  exact Val.pyEq_trans h1 (Val.pyEq_trans he (Val.pyEq_symm h2))

theorem idsUnique_jtd {n : Option Str} {xml : Bool} {keyed : List (Val × Fields)} {rest : List Fields}
    (hd : KeysDistinct keyed) (hk : WFKeyed n xml keyed) (hr : WFItems n xml rest)
    (h1 : ∀ e ∈ keyed, IdsUnique n xml (jobj e.2)) (h2 : ∀ e ∈ rest, IdsUnique n xml (jobj e)) :
    IdsUnique n xml (.arr (jtd keyed rest)) := by
  simp only [IdsUnique, jtd]
  rw [idsUniqueList_iff]
  have hrest : ∀ e ∈ rest.map jobj, idOf n xml e = none := by
    intro e he
    obtain ⟨fs, hfs, rfl⟩ := List.mem_map.1 he
    have := idOf_jobj (wfItems_iff.1 hr fs hfs).1 (by simp)
    simpa using this
  constructor
  · rw [List.pairwise_append]
    refine ⟨?_, ?_, ?_⟩
    · rw [List.pairwise_map]
      refine List.Pairwise.imp_of_mem ?_ hd
      intro a b ha hb hab x y hx hy
      obtain ⟨⟨p1, v1, q1, s1⟩, -⟩ := wfKeyed_iff.1 hk a ha
      obtain ⟨⟨p2, v2, q2, s2⟩, -⟩ := wfKeyed_iff.1 hk b hb
      obtain ⟨a1, rfl, e1⟩ := idOf_keyed q1 p1 s1
      obtain ⟨a2, rfl, e2⟩ := idOf_keyed q2 p2 s2
      rw [e1] at hx; rw [e2] at hy; cases hx; cases hy
      exact sameKey_neq s1 s2 hab
    · refine List.Pairwise.imp_of_mem (R := fun _ _ => True) ?_ (pairwise_true _)
      intro a b ha _ _ x y hx
      rw [hrest a ha] at hx; cases hx
    · intro a _ b hb x y _ hy
      rw [hrest b hb] at hy; cases hy
  · intro e he
    rcases List.mem_append.1 he with he | he
    · obtain ⟨x, hx, rfl⟩ := List.mem_map.1 he; exact h1 x hx
    · obtain ⟨x, hx, rfl⟩ := List.mem_map.1 he; exact h2 x hx

mutual
theorem idsUnique_jv (n : Option Str) (xml : Bool) : ∀ (p : List Str) (t : Tree), WFTree n xml t →
    TAll (fun _ => True) (fun _ c => IdsUnique n xml c.value.toJson) p t → IdsUnique n xml (jv t)
  | p, .cell c, _, ht => by simp only [TAll] at ht; rw [jv_cell]; exact ht
  | p, .obj fs, hw, ht => by
    simp only [TAll, WFTree] at ht hw
    rw [jv_obj]
    exact idsUnique_jobj n xml p fs hw ht
  | p, .tmp keyed rest, hw, ht => by
    simp only [TAll, WFTree] at ht hw
    rw [jv_tmp]
    exact idsUnique_jtd hw.1 hw.2.1 hw.2.2 (idsUnique_keyed n xml p keyed hw.2.1 ht.1) (idsUnique_items n xml p rest hw.2.2 ht.2)
theorem idsUnique_jobj (n : Option Str) (xml : Bool) : ∀ (p : List Str) (fs : List (Str × Tree)), WFFields n xml fs →
    TAllF (fun _ => True) (fun _ c => IdsUnique n xml c.value.toJson) p fs → IdsUnique n xml (.obj (jf fs))
  | _, [], _, _ => by simp [jf, IdsUnique, IdsUniqueFields, Dict.keys]
  | p, (k, t) :: r, hw, ht => by
    simp only [TAllF, WFFields] at ht hw
    have ih := idsUnique_jobj n xml p r hw.2.2 ht.2
    simp only [IdsUnique] at ih
    have hkeys : Dict.keys (jf r) = Dict.keys r := by simp [jf, Dict.keys]
    simp only [jf, List.map_cons, IdsUnique, IdsUniqueFields, Dict.keys, List.nodup_cons]
    refine ⟨⟨?_, ?_⟩, idsUnique_jv n xml _ t hw.2.1 ht.1.2, ih.2⟩
    · have := hw.1; rw [← hkeys] at this; exact this
    · exact ih.1
theorem idsUnique_keyed (n : Option Str) (xml : Bool) : ∀ (p : List Str) (ks : List (Val × List (Str × Tree))), WFKeyed n xml ks →
    TAllK (fun _ => True) (fun _ c => IdsUnique n xml c.value.toJson) p ks → ∀ e ∈ ks, IdsUnique n xml (jobj e.2)
  | _, [], _, _ => by simp
  | p, (k, fs) :: r, hw, ht => by
    simp only [TAllK, WFKeyed] at ht hw
    intro e he
    rcases List.mem_cons.1 he with h | h
    · rw [h]; exact idsUnique_jobj n xml p fs hw.2.1 ht.1
    · exact idsUnique_keyed n xml p r hw.2.2 ht.2 e h
theorem idsUnique_items (n : Option Str) (xml : Bool) : ∀ (p : List Str) (ks : List (List (Str × Tree))), WFItems n xml ks →
    TAllI (fun _ => True) (fun _ c => IdsUnique n xml c.value.toJson) p ks → ∀ e ∈ ks, IdsUnique n xml (jobj e)
  | _, [], _, _ => by simp
  | p, fs :: r, hw, ht => by
    simp only [TAllI, WFItems] at ht hw
    intro e he
    rcases List.mem_cons.1 he with h | h
    · rw [h]; exact idsUnique_jobj n xml p fs hw.2.1 ht.1
    · exact idsUnique_items n xml p r hw.2.2 ht.2 e h
end

/-- A property of cell values that conversion establishes holds of every row. -/
theorem rowAlone_vals {cfg : UnCfg} {r : RowIn} {x : Row} (G : Val → Prop) (hat : ∀ a, G (.atom a))
    (hconv : ∀ ty v v' w, G v → convertCell cfg.row ty v = .ok (v', w) → G v')
    (h : rowAlone cfg r = .ok x) :
    TAllF (fun _ => True) (fun _ c => G c.value) [] x.fields := by
  unfold rowAlone at h
  split at h
  · cases h
  · next fs w hu =>
    cases h
    refine tallF_mono (P := fun _ c => c.sub = [] ∧ G c.value) (fun _ _ h => h.2) [] _ ?_
    refine (unflattenRow_inv (Q := fun _ => True) (fun _ _ h => h.1) _ ?_ hu).2
    intro e he _
    refine ⟨fun _ c => c.sub = [] ∧ G c.value, fun _ _ => True, ?_, trivial, lineCells_sub _ _ _ _ _ e he, ?_⟩
    · constructor
      · intros; trivial
      · intros; trivial
      · intros; trivial
      · intros; trivial
      · intros; trivial
      · intros; assumption
      · intro pre p item rest cell ty v w _ _ _ hpin _ hc
        exact ⟨⟨hpin.1, hconv _ _ _ _ hpin.2 hc⟩, fun _ q _ => ⟨hpin.1, hconv _ _ _ _ hpin.2 hc⟩⟩
    · have : ∀ k, ∀ e ∈ lineCells r.sheet.name r.sheet.headings r.number k r.line, G e.2.value := by
        generalize r.line = l
        induction l with
        | nil => simp [lineCells]
        | cons y t ih =>
          obtain ⟨a, b⟩ := y
          intro k e he
          simp only [lineCells, List.mem_cons] at he
          rcases he with rfl | he
          · exact hat b
          · exact ih _ e he
      exact this 0 e he

end Verif
