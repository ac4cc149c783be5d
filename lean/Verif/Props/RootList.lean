import Verif.Spec.FlattenMain
import Verif.Proofs.Str
import Verif.Proofs.Dict
import Verif.Proofs.DecEq
import Verif.Props.Readers
/-! C56: `flatten` reads the root list and nothing else. -/
namespace Verif
open Spec Api Py

/-! ### Joining with dots -/

theorem join_dot_cons {sep : Str} {x : Str} {r : List Str} (h : r ≠ []) : join sep (x :: r) = x ++ (sep ++ join sep r) := by
  cases r with
  | nil => exact absurd rfl h
  | cons y r => rfl

theorem append_dot_ne {a b x y : Str} (ha : '.' ∉ a) (hb : '.' ∉ b) (h : a ++ '.' :: x = b ++ '.' :: y) : a = b ∧ x = y := by
  induction a generalizing b with
  | nil =>
    cases b with
    | nil => simpa using h
    | cons c b => simp at h; exact absurd h.1.symm (by rintro rfl; exact hb (by simp))
  | cons c a ih =>
    cases b with
    | nil => simp at h; exact absurd h.1 (by rintro rfl; exact ha (by simp))
    | cons d b =>
      simp only [List.cons_append, List.cons.injEq] at h
      obtain ⟨rfl, h⟩ := h
      obtain ⟨h1, h2⟩ := ih (fun hm => ha (List.mem_cons_of_mem _ hm)) (fun hm => hb (List.mem_cons_of_mem _ hm)) h
      exact ⟨by rw [h1], h2⟩

theorem join_dot_pre (pre a b : List Str) (ha : a ≠ []) (hb : b ≠ []) : join s%"." (pre ++ a) = join s%"." (pre ++ b) ↔ join s%"." a = join s%"." b := by
  induction pre with
  | nil => simp
  | cons x pre ih =>
    rw [List.cons_append, List.cons_append, join_dot_cons (by simp [ha]), join_dot_cons (by simp [hb])]
    simp only [List.append_cancel_left_eq]
    exact ih

/-- Two dotted texts that agree agree in their first parts, if these have no dots. -/
theorem join_dot_head {a b : Str} {r s : List Str} (ha : '.' ∉ a) (hb : '.' ∉ b) (hs : s ≠ []) (h : join s%"." (a :: r) = join s%"." (b :: s)) : a = b ∧ r ≠ [] := by
  rw [join_dot_cons hs] at h
  cases r with
  | nil =>
    simp only [join] at h
    exfalso
    apply ha
    rw [h]
    simp
  | cons y r =>
    rw [join_dot_cons (by simp)] at h
    exact ⟨(append_dot_ne ha hb h).1, by simp⟩

/-! ### ijson -/

mutual
/-- Below segments that cannot be continued to the path, nothing is found. -/
theorem ijson_none (path : Str) : ∀ (segs : List Str) (j : Json), (∀ r, ijsonPrefix (segs ++ r) ≠ path) → ijsonValue path segs j = []
  | segs, .leaf a, h => by
    have := h []
    rw [List.append_nil] at this
    simp [ijsonValue, this]
  | segs, .obj fs, h => by
    have := h []
    rw [List.append_nil] at this
    simp only [ijsonValue, if_neg this]
    exact ijson_noneF path segs fs (fun k r => by simpa using h (k :: r))
  | segs, .arr l, h => by
    have := h []
    rw [List.append_nil] at this
    simp only [ijsonValue, if_neg this]
    exact ijson_noneI path segs l (fun r => by simpa using h (s%"item" :: r))
theorem ijson_noneF (path : Str) : ∀ (segs : List Str) (fs : List (Str × Json)), (∀ k r, ijsonPrefix (segs ++ k :: r) ≠ path) → ijsonFields path segs fs = []
  | _, [], _ => rfl
  | segs, (k, v) :: r, h => by
    simp only [ijsonFields]
    rw [ijson_none path (segs ++ [k]) v (fun r => by simpa using h k r), ijson_noneF path segs r h]
    rfl
theorem ijson_noneI (path : Str) : ∀ (segs : List Str) (l : List Json), (∀ r, ijsonPrefix (segs ++ s%"item" :: r) ≠ path) → ijsonItems path segs l = []
  | _, [], _ => rfl
  | segs, j :: r, h => by
    simp only [ijsonItems]
    rw [ijson_none path (segs ++ [s%"item"]) j (fun r => by simpa using h r), ijson_noneI path segs r h]
    rfl
end

theorem ijson_here (path : Str) (segs : List Str) (j : Json) (h : ijsonPrefix segs = path) : ijsonValue path segs j = [j] := by
  cases j <;> simp [ijsonValue, h]

theorem ijson_items_here (path : Str) (segs : List Str) (l : List Json) (h : ijsonPrefix (segs ++ [s%"item"]) = path) : ijsonItems path segs l = l := by
  induction l with
  | nil => rfl
  | cons j r ih => simp [ijsonItems, ijson_here path _ j h, ih]

/-- The fields with other keys do not matter. -/
theorem ijson_fields (path : Str) (segs : List Str) (k : Str) (ks : List Str) (hk : '.' ∉ k) (hp : path = ijsonPrefix (segs ++ k :: (ks ++ [s%"item"]))) :
    ∀ (fs : List (Str × Json)), (Dict.keys fs).Nodup → (∀ k' ∈ Dict.keys fs, '.' ∉ k') →
      ijsonFields path segs fs = (match Dict.get fs k with | some v => ijsonValue path (segs ++ [k]) v | none => [])
  | [], _, _ => rfl
  | (k', v) :: r, hn, hd => by
    have hn' : k' ∉ Dict.keys r ∧ (Dict.keys r).Nodup := List.nodup_cons.1 hn
    have ih := ijson_fields path segs k ks hk hp r hn'.2 (fun x hx => hd x (by simp only [Dict.keys, List.map_cons, List.mem_cons]; exact Or.inr hx))
    simp only [ijsonFields]
    by_cases he : k' = k
    · subst he
      rw [ih, Dict.get_none_iff.2 hn'.1]
      simp [Dict.get_cons]
    · rw [ih, ijson_none path (segs ++ [k']) v]
      · rw [Dict.get_cons, if_neg he]
        rfl
      · intro r' h
        rw [hp, List.append_assoc, List.singleton_append] at h
        exact he (join_dot_head (hd k' (by simp [Dict.keys])) hk (by simp) ((join_dot_pre segs _ _ (by simp) (by simp)).1 h)).1

/-- The items of the list at the end of the keys, and nothing else. -/
theorem ijson_keysTo (path : Str) : ∀ (ks segs : List Str) (j : Json), (∀ k ∈ ks, '.' ∉ k ∧ k ≠ s%"item") → Clear ks j → (segs ++ ks ≠ []) →
    path = ijsonPrefix (segs ++ (ks ++ [s%"item"])) → ijsonValue path segs j = itemsOf (keysTo ks j)
  | [], segs, j, _, hc, hne, hp => by
    simp only [List.nil_append, List.append_nil] at hp hne
    have h0 : ∀ segs' : List Str, ijsonPrefix (segs ++ segs') = path → segs' = [s%"item"] ∨ ∃ a b r, segs' = a :: b :: r := by
      intro segs' h
      cases segs' with
      | nil =>
        exfalso
        rw [hp] at h
        unfold ijsonPrefix at h
        obtain ⟨pre, x, rfl⟩ : ∃ pre x, segs = pre ++ [x] := ⟨segs.dropLast, segs.getLast hne, (List.dropLast_concat_getLast hne).symm⟩
        rw [List.append_nil, List.append_assoc, join_dot_pre pre [x] _ (by simp) (by simp)] at h
        simp only [List.singleton_append, join] at h
        have := congrArg List.length h
        simp at this
      | cons a r =>
        cases r with
        | nil =>
          left
          rw [hp] at h
          have := (join_dot_pre segs [a] [s%"item"] (by simp) (by simp)).1 h
          simp only [join] at this
          rw [this]
        | cons b r => exact Or.inr ⟨a, b, r, rfl⟩
    have hself : ijsonPrefix segs ≠ path := by
      intro h
      rcases h0 [] (by simpa using h) with h | ⟨_, _, _, h⟩ <;> cases h
    cases j with
    | leaf a => simp [ijsonValue, hself, keysTo, itemsOf]
    | arr l => simp only [ijsonValue, if_neg hself, keysTo, itemsOf]; exact ijson_items_here path segs l hp.symm
    | obj fs =>
      simp only [ijsonValue, if_neg hself, keysTo, itemsOf]
      simp only [Clear] at hc
      clear hself h0
      induction fs with
      | nil => rfl
      | cons f r ih =>
        obtain ⟨k, v⟩ := f
        simp only [Dict.keys, List.map_cons, List.mem_cons, not_or] at hc
        simp only [ijsonFields]
        rw [ih hc.2, List.append_nil]
        refine ijson_none path _ v (fun r' h => ?_)
        rw [hp, List.append_assoc, List.singleton_append] at h
        have h := (join_dot_pre segs _ _ (by simp) (by simp)).1 h
        simp only [join] at h
        cases r' with
        | nil => simp only [join] at h; exact hc.1 h.symm
        | cons b r' =>
          rw [join_dot_cons (by simp)] at h
          have : '.' ∈ s%"item" := by rw [← h]; simp
          exact absurd this (by decide)
  | k :: ks, segs, j, hk, hc, hne, hp => by
    have hself : ijsonPrefix segs ≠ path := by
      intro h
      cases segs with
      | nil =>
        rw [hp] at h
        simp only [ijsonPrefix, join, List.nil_append, List.cons_append] at h
        rw [join_dot_cons (by simp)] at h
        have := congrArg List.length h
        simp at this
      | cons s r =>
        rw [hp] at h
        unfold ijsonPrefix at h
        obtain ⟨pre, x, he⟩ : ∃ pre x, s :: r = pre ++ [x] := ⟨(s :: r).dropLast, (s :: r).getLast (by simp), (List.dropLast_concat_getLast (by simp)).symm⟩
        rw [he, List.append_assoc, join_dot_pre pre [x] _ (by simp) (by simp)] at h
        have h' : x = x ++ (s%"." ++ join s%"." (k :: (ks ++ [s%"item"]))) := by
          rw [← join_dot_cons (by simp)]
          exact h
        have := congrArg List.length h'
        simp at this
    have hk' := hk k (by simp)
    cases j with
    | leaf a => simp [ijsonValue, hself, keysTo, itemsOf]
    | arr l =>
      simp only [ijsonValue, if_neg hself, keysTo, itemsOf]
      refine ijson_noneI path segs l (fun r h => ?_)
      rw [hp] at h
      exact hk'.2 (join_dot_head (by decide) hk'.1 (by simp) ((join_dot_pre segs _ _ (by simp) (by simp)).1 h)).1.symm
    | obj fs =>
      simp only [ijsonValue, if_neg hself, keysTo]
      simp only [Clear] at hc
      rw [ijson_fields path segs k ks hk'.1 (by simpa using hp) fs hc.1 hc.2.1]
      cases hg : Dict.get fs k with
      | none => rfl
      | some v =>
        simp only [Option.bind_some]
        exact ijson_keysTo path ks (segs ++ [k]) v (fun x hx => hk x (List.mem_cons_of_mem _ hx)) (hc.2.2 v hg) (by simp) (by simpa using hp)

theorem map_dots : ∀ (ks : List Str), (∀ k ∈ ks, '/' ∉ k) → (join s%"/" ks).map (fun c => if c = '/' then '.' else c) = join s%"." ks := by
  have one : ∀ x : Str, '/' ∉ x → x.map (fun c => if c = '/' then '.' else c) = x := by
    intro x h
    induction x with
    | nil => rfl
    | cons c x ih =>
      simp only [List.mem_cons, not_or] at h
      simp only [List.map_cons, if_neg (Ne.symm h.1)]
      rw [ih h.2]
  intro ks h
  induction ks with
  | nil => rfl
  | cons x r ih =>
    have hx := one x (h x (by simp))
    cases r with
    | nil => simpa only [join] using hx
    | cons y r =>
      have ih := ih (fun k hk => h k (List.mem_cons_of_mem _ hk))
      rw [join_dot_cons (sep := s%"/") (x := x) (r := y :: r) (by simp), join_dot_cons (sep := s%".") (x := x) (r := y :: r) (by simp), List.map_append, List.map_append, hx, ih]
      rfl

/-- C56: the items that are flattened are those of the list at the root list path; if there is no list, nothing is. -/
theorem C56_root_items (path : Str) (content : Json) (hp : ∀ k ∈ Py.split '/' path, '.' ∉ k ∧ k ≠ s%"item") (hc : Clear (Py.split '/' path) content) :
    rootItems false (some path) content = .ok (itemsOf (keysTo (Py.split '/' path) content)) := by
  simp only [rootItems, Bool.false_eq_true, if_false]
  rw [ijson_keysTo (itemPath (some path)) (Py.split '/' path) [] content hp hc (by simpa using split_ne_nil '/' path)]
  simp only [itemPath, ijsonPrefix, List.nil_append]
  have h1 := map_dots (Py.split '/' path) (not_mem_split '/' path)
  rw [join_split] at h1
  rw [h1]
  have : ∀ ks : List Str, ks ≠ [] → join s%"." ks ++ s%".item" = join s%"." (ks ++ [s%"item"]) := by
    intro ks hne
    induction ks with
    | nil => exact absurd rfl hne
    | cons x r ih =>
      cases r with
      | nil => rfl
      | cons y r =>
        have : join s%"." (x :: y :: r ++ [s%"item"]) = x ++ (s%"." ++ join s%"." (y :: r ++ [s%"item"])) := join_dot_cons (by simp)
        rw [this, ← ih (by simp), join_dot_cons (x := x) (r := y :: r) (by simp)]
        simp only [List.append_assoc]
  exact this _ (split_ne_nil '/' path)

/-- C56 if the root is a list. -/
theorem C56_list_items (l : List Json) : rootItems false none (.arr l) = .ok l := by
  simp only [rootItems, Bool.false_eq_true, if_false, itemPath]
  have : ijsonPrefix [] ≠ s%"item" := by decide
  simp only [ijsonValue, if_neg this]
  rw [ijson_items_here s%"item" [] l rfl]

/-- C56: flattening a document with its list at the root list path is the same as flattening the list alone. -/
theorem C56_only_the_root_list (o : FlOpts) (env : FlEnv) (hx : o.xml = false) (hr : o.rootIsList = false)
    (hp : ∀ k ∈ Py.split '/' o.rootListPath, '.' ∉ k ∧ k ≠ s%"item") (hc : Clear (Py.split '/' o.rootListPath) env.content) :
    runFlatten o env =
      runFlatten { o with rootIsList := true } { env with content := .arr (itemsOf (keysTo (Py.split '/' o.rootListPath) env.content)) } := by
  have h : flattenState o env =
      flattenState { o with rootIsList := true } { env with content := .arr (itemsOf (keysTo (Py.split '/' o.rootListPath) env.content)) } := by
    have h1 : rootItems o.xml (if o.rootIsList = true then none else some o.rootListPath) env.content =
        .ok (itemsOf (keysTo (Py.split '/' o.rootListPath) env.content)) := by
      rw [hx, hr]
      exact C56_root_items _ _ hp hc
    have h2 : rootItems o.xml (if true = true then none else some o.rootListPath) (.arr (itemsOf (keysTo (Py.split '/' o.rootListPath) env.content))) =
        .ok (itemsOf (keysTo (Py.split '/' o.rootListPath) env.content)) := by
      rw [hx]
      exact C56_list_items _
    unfold flattenState
    dsimp only
    rw [h1, h2]
    rfl
  unfold runFlatten
  rw [h]
  rfl

theorem pathSearch_keysTo : ∀ (ks : List Str) (j v : Json), (∀ k ∈ ks, Py.endsWith s%"[]" k = false) → keysTo ks j = some v → pathSearch ks j = .ok v
  | [], j, v, _, h => by simp only [keysTo, Option.some.injEq] at h; rw [h]; rfl
  | k :: ks, .obj fs, v, hk, h => by
    simp only [keysTo] at h
    cases hg : Dict.get fs k with
    | none => rw [hg] at h; cases h
    | some w =>
      rw [hg] at h
      simp only [pathSearch, hk k (by simp), Bool.false_eq_true, if_false, hg]
      exact pathSearch_keysTo ks w v (fun x hx => hk x (List.mem_cons_of_mem _ hx)) h
  | _ :: _, .leaf _, _, _, h => by simp [keysTo] at h
  | _ :: _, .arr _, _, _, h => by simp [keysTo] at h

/-- C56 for XML files: the list at the root list path in the data of the file (in which elements that are lists somewhere are lists everywhere, see C45). -/
theorem C56_xml_items (path : Str) (fs : List (Str × Json)) (l : List Json) (hp : ∀ k ∈ Py.split '/' path, ∀ t, k ≠ t ++ s%"[]")
    (hl : keysTo (Py.split '/' path) (.obj (Xml.listDictConsistency fs)) = some (.arr l)) : rootItems true (some path) (.obj fs) = .ok l := by
  simp only [rootItems, if_true]
  rw [pathSearch_keysTo _ _ _ (fun k hk => ?_) hl]
  · rfl
  · cases he : Py.endsWith s%"[]" k with
    | false => rfl
    | true =>
      exfalso
      obtain ⟨t, ht⟩ := (endsWith_iff _ _).1 he
      exact hp k hk t ht

/-- C56, XML: if a key of the path is missing on the way, there is nothing to flatten. -/
theorem C56_xml_no_list (path : Str) (fs : List (Str × Json)) (hp : ∀ k ∈ Py.split '/' path, ∀ t, k ≠ t ++ s%"[]")
    (above : List Str) (k : Str) (below : List Str) (hpath : Py.split '/' path = above ++ k :: below) (gs : List (Str × Json))
    (hgs : keysTo above (.obj (Xml.listDictConsistency fs)) = some (.obj gs)) (hk : k ∉ Dict.keys gs) : rootItems true (some path) (.obj fs) = .ok [] := by
  have hp' : ∀ x ∈ above ++ k :: below, Py.endsWith s%"[]" x = false := by
    intro x hx
    cases he : Py.endsWith s%"[]" x with
    | false => rfl
    | true =>
      exfalso
      obtain ⟨t, ht⟩ := (endsWith_iff _ _).1 he
      exact hp x (by rw [hpath]; exact hx) t ht
  have empty : ∀ ks : List Str, (∀ k ∈ ks, Py.endsWith s%"[]" k = false) → pathSearch ks (.obj []) = .ok (.obj []) := by
    intro ks
    induction ks with
    | nil => intro _; rfl
    | cons x r ih =>
      intro h
      rw [pathSearch, if_neg (by simp [h x (by simp)])]
      exact ih (fun k hk => h k (List.mem_cons_of_mem _ hk))
  have walk : ∀ (above : List Str) (d : Json), (∀ x ∈ above ++ k :: below, Py.endsWith s%"[]" x = false) → keysTo above d = some (.obj gs) →
      pathSearch (above ++ k :: below) d = .ok (.obj []) := by
    intro above
    induction above with
    | nil =>
      intro d h1 h2
      rw [keysTo] at h2
      injection h2 with h2
      subst h2
      have hn : Dict.get gs k = none := by
        cases h : Dict.get gs k with
        | none => rfl
        | some v => exact absurd (Dict.get_isSome_iff.1 (by rw [h]; rfl)) hk
      rw [List.nil_append, pathSearch, if_neg (by simp [h1 k (by simp)]), hn]
      exact empty below (fun k hk => h1 k (by simp [hk]))
    | cons x r ih =>
      intro d h1 h2
      cases d with
      | leaf a => cases h2
      | arr l => cases h2
      | obj ds =>
        rw [keysTo] at h2
        rw [List.cons_append, pathSearch, if_neg (by simp [h1 x (by simp)])]
        cases hg : Dict.get ds x with
        | none => rw [hg] at h2; cases h2
        | some v =>
          rw [hg] at h2
          exact ih v (fun k hk => h1 k (List.mem_cons_of_mem _ hk)) h2
  simp only [rootItems, if_true]
  rw [hpath, walk above _ hp' hgs]
  rfl

namespace RootEx

/-- A document with two lists, one with a field called `item` in its objects. -/
def doc : Json := .obj [(s%"version", .leaf (.str s%"1")), (s%"data", .obj [(s%"other", .arr [.leaf (.int 5)]),
  (s%"rows", .arr [.obj [(s%"item", .leaf (.int 1)), (s%"a.b", .leaf (.int 2))], .leaf .none])])]
example : (∀ k ∈ Py.split '/' s%"data/rows", '.' ∉ k ∧ k ≠ s%"item") ∧ Py.split '/' s%"data/rows" = [s%"data", s%"rows"] := by decide +kernel
example : Clear [s%"data", s%"rows"] doc := by
  refine ⟨by decide +kernel, by decide +kernel, fun v hv => ?_⟩
  have : v = .obj [(s%"other", .arr [.leaf (.int 5)]), (s%"rows", .arr [.obj [(s%"item", .leaf (.int 1)), (s%"a.b", .leaf (.int 2))], .leaf .none])] := by
    have h : Dict.get [(s%"version", Json.leaf (.str s%"1")), (s%"data", .obj [(s%"other", .arr [.leaf (.int 5)]),
      (s%"rows", .arr [.obj [(s%"item", .leaf (.int 1)), (s%"a.b", .leaf (.int 2))], .leaf .none])])] s%"data" = some _ := rfl
    rw [h] at hv
    exact (Option.some.inj hv).symm
  subst this
  refine ⟨by decide +kernel, by decide +kernel, fun v hv => ?_⟩
  have h : Dict.get [(s%"other", Json.arr [.leaf (.int 5)]), (s%"rows", .arr [.obj [(s%"item", .leaf (.int 1)), (s%"a.b", .leaf (.int 2))], .leaf .none])] s%"rows" =
    some _ := rfl
  rw [h] at hv
  rw [← Option.some.inj hv]
  trivial
example : rootItems false (some s%"data/rows") doc = .ok [.obj [(s%"item", .leaf (.int 1)), (s%"a.b", .leaf (.int 2))], .leaf .none] := by decide +kernel
/-- Why keys must be clear: a field called `item` of an object at the root list path is taken for an item of a list, and so is the item of a list under a key
with dots. -/
example : rootItems false (some s%"main") (.obj [(s%"main", .obj [(s%"item", .obj []), (s%"x", .leaf .none)])]) = .ok [.obj []] := by decide +kernel
example : rootItems false (some s%"a/b") (.obj [(s%"a.b", .arr [.obj []])]) = .ok [.obj []] := by decide +kernel
/-- In an XML file with a single element, the other elements of the same name being elsewhere. -/
example : rootItems true (some s%"r/x") (.obj [(s%"r", .obj [(s%"x", .arr [.obj [], .obj []])])]) = .ok [.obj [], .obj []] := by decide +kernel
/-- C56: the path ends early. -/
example : keysTo [s%"r"] (.obj (Xml.listDictConsistency [(s%"r", .obj [(s%"y", .leaf .none)])])) = some (.obj [(s%"y", .leaf .none)]) ∧
    rootItems true (some s%"r/x/z") (.obj [(s%"r", .obj [(s%"y", .leaf .none)])]) = .ok [] := by decide +kernel

end RootEx

end Verif
