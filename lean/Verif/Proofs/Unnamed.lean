import Verif.Proofs.Label
import Verif.Proofs.Num
/-! Rows with items without id: give every such item a label of its own, then the argument for items with ids applies. -/
namespace Verif
open Spec

mutual
/-- All values equal themselves and are no geometries; so do the keys. -/
def SelfT : Tree → Prop
  | .cell c => c.value.pyEq c.value = true ∧ ∀ g, c.value ≠ .geo g
  | .obj fs => SelfF fs
  | .tmp ks rs => SelfK ks ∧ SelfI rs
def SelfF : List (Str × Tree) → Prop
  | [] => True
  | (_, t) :: r => SelfT t ∧ SelfF r
def SelfK : List (Val × List (Str × Tree)) → Prop
  | [] => True
  | (k, fs) :: r => (k.pyEq k = true ∧ SelfF fs) ∧ SelfK r
def SelfI : List (List (Str × Tree)) → Prop
  | [] => True
  | fs :: r => SelfF fs ∧ SelfI r
end

/-- The label of item `j` of row `i`. -/
def mark (i j : Nat) : Val := .arr [.int i, .int j]

mutual
/-- Label all items without id; `i` is the number of the row. -/
def markT (i : Nat) : Tree → Tree
  | .cell c => .cell c
  | .obj fs => .obj (markF i fs)
  | .tmp ks rs => .tmp (markK i ks ++ markI i 0 rs) []
def markF (i : Nat) : List (Str × Tree) → List (Str × Tree)
  | [] => []
  | (k, t) :: r => (k, markT i t) :: markF i r
def markK (i : Nat) : List (Val × List (Str × Tree)) → List (Val × List (Str × Tree))
  | [] => []
  | (k, fs) :: r => (k, markF i fs) :: markK i r
def markI (i : Nat) (j : Nat) : List (List (Str × Tree)) → List (Val × List (Str × Tree))
  | [] => []
  | fs :: r => (mark i j, markF i fs) :: markI i (j + 1) r
end

theorem mark_pyEq {i j i' j' : Nat} : (mark i j).pyEq (mark i' j') = true ↔ i = i' ∧ j = j' := by
  have key : ∀ a b : Nat, canonNum (decide ((a : Int) < 0)) a 0 = canonNum (decide ((b : Int) < 0)) b 0 ↔ a = b := by
    intro a b
    have ha : decide ((a : Int) < 0) = false := by simp
    have hb : decide ((b : Int) < 0) = false := by simp
    rw [ha, hb, canonNum_eq_iff]
    simp only [SameNumber, scaled]
    simp
    omega
  simp [mark, Val.pyEq, Val.canon, Atom.canon, List.mapM_cons, key]

theorem mark_hashable (i j : Nat) : (mark i j).hashable = false := rfl

theorem selfF_iff {fs : Fields} : SelfF fs ↔ ∀ e ∈ fs, SelfT e.2 := by
  induction fs with
  | nil => simp [SelfF]
  | cons e r ih => obtain ⟨k, t⟩ := e; simp [SelfF, ih]

theorem selfK_iff {ks : List (Val × Fields)} : SelfK ks ↔ ∀ e ∈ ks, e.1.pyEq e.1 = true ∧ SelfF e.2 := by
  induction ks with
  | nil => simp [SelfK]
  | cons e r ih => obtain ⟨k, t⟩ := e; simp [SelfK, ih]

theorem selfI_iff {rs : List Fields} : SelfI rs ↔ ∀ e ∈ rs, SelfF e := by
  induction rs with
  | nil => simp [SelfI]
  | cons e r ih => simp [SelfI, ih]

theorem markF_map (i : Nat) (fs : Fields) : markF i fs = fs.map (fun e => (e.1, markT i e.2)) := by
  induction fs with
  | nil => rfl
  | cons e r ih => obtain ⟨k, t⟩ := e; simp [markF, ih]

theorem markK_map (i : Nat) (ks : List (Val × Fields)) : markK i ks = ks.map (fun e => (e.1, markF i e.2)) := by
  induction ks with
  | nil => rfl
  | cons e r ih => obtain ⟨k, t⟩ := e; simp [markK, ih]

theorem keys_markF (i : Nat) (fs : Fields) : Dict.keys (markF i fs) = Dict.keys fs := by
  simp [markF_map, Dict.keys, Function.comp_def]

theorem get_markF (i : Nat) (fs : Fields) (k : Str) : Dict.get (markF i fs) k = (Dict.get fs k).map (markT i) := by
  rw [markF_map, Dict.get_map_snd]

theorem mem_markI {i : Nat} {rs : List Fields} : ∀ {j : Nat} {e : Val × Fields}, e ∈ markI i j rs →
    ∃ l, j ≤ l ∧ e.1 = mark i l ∧ ∃ fs ∈ rs, e.2 = markF i fs := by
  induction rs with
  | nil => intro j e h; simp [markI] at h
  | cons fs r ih =>
    intro j e h
    simp only [markI, List.mem_cons] at h
    rcases h with rfl | h
    · exact ⟨j, Nat.le_refl _, rfl, fs, by simp, rfl⟩
    · obtain ⟨l, h1, h2, gs, h3, h4⟩ := ih h
      exact ⟨l, by omega, h2, gs, by simp [h3], h4⟩

theorem keyGet_markK (i : Nat) (ks : List (Val × Fields)) (v : Val) : keyGet (markK i ks) v = (keyGet ks v).map (markF i) := by
  induction ks with
  | nil => rfl
  | cons e r ih =>
    obtain ⟨k, fs⟩ := e
    rw [markK, keyGet_cons, keyGet_cons, ih]
    split <;> rfl

/-- The items of a labelled list: those with ids, and those with labels. -/
theorem keyGet_mark {n : Option Str} {xml : Bool} {i : Nat} {ks : List (Val × Fields)} {rs : List Fields} (hw : WFKeyed n xml ks) {v : Val} {F : Fields}
    (h : keyGet (markK i ks ++ markI i 0 rs) v = some F) :
    (v.hashable = true ∧ ∃ fs, keyGet ks v = some fs ∧ F = markF i fs) ∨
      (v.hashable = false ∧ (∃ l, (mark i l).pyEq v = true) ∧ ∃ fs ∈ rs, F = markF i fs) := by
  rw [keyGet_append, keyGet_markK] at h
  cases hk : keyGet ks v with
  | some fs =>
    rw [hk] at h
    simp only [Option.map_some, Option.some_or, Option.some.injEq] at h
    obtain ⟨k, hm, hkv⟩ := keyGet_some_mem hk
    exact .inl ⟨by rw [← Val.hashable_congr hkv]; exact (wfKeyed_iff.1 hw _ hm).1.1, fs, rfl, h.symm⟩
  | none =>
    rw [hk] at h
    simp only [Option.map_none, Option.none_or] at h
    obtain ⟨k, hm, hkv⟩ := keyGet_some_mem h
    obtain ⟨l, -, h1, fs, h2, h3⟩ := mem_markI hm
    simp only at h1 h3
    subst h1
    exact .inr ⟨by rw [← Val.hashable_congr hkv]; rfl, ⟨l, hkv⟩, fs, h2, h3⟩

/-! ### Forgetting the labels -/

theorem forget_markI (i : Nat) (rs : List Fields) (h : ∀ fs ∈ rs, forgetF (markF i fs) = fs) :
    ∀ j, forgetK (markI i j rs) = [] ∧ forgetU (markI i j rs) = rs := by
  induction rs with
  | nil => intro j; simp [markI, forgetK, forgetU]
  | cons fs r ih =>
    intro j
    obtain ⟨h1, h2⟩ := ih (fun x hx => h x (by simp [hx])) (j + 1)
    simp [markI, forgetK, forgetU, mark_hashable, h1, h2, h fs (by simp)]

theorem forget_markK {n : Option Str} {xml : Bool} (i : Nat) (ks : List (Val × Fields)) (hw : WFKeyed n xml ks) (h : ∀ e ∈ ks, forgetF (markF i e.2) = e.2) :
    forgetK (markK i ks) = ks ∧ forgetU (markK i ks) = [] := by
  induction ks with
  | nil => simp [markK, forgetK, forgetU]
  | cons e r ih =>
    obtain ⟨k, fs⟩ := e
    simp only [WFKeyed] at hw
    obtain ⟨h1, h2⟩ := ih hw.2.2 (fun x hx => h x (by simp [hx]))
    have h3 := h (k, fs) (by simp)
    simp only at h3
    simp [markK, forgetK, forgetU, hw.1.1, h1, h2, h3]

theorem forget_mark {n : Option Str} {xml : Bool} (i : Nat) (t : Tree) : WFTree n xml t → forget (markT i t) = t := by
  have fields : ∀ fs : Fields, (∀ e ∈ fs, WFTree n xml e.2 → forget (markT i e.2) = e.2) → WFFields n xml fs → forgetF (markF i fs) = fs := by
    intro fs ih hw
    rw [forgetF_map, markF_map, List.map_map]
    refine (List.map_congr_left ?_).trans (List.map_id fs)
    intro e he
    obtain ⟨h1, h2⟩ := wfFields_iff.1 hw
    simp only [Function.comp_apply, ih e he (h2 _ _ (Dict.get_of_mem h1 he)), id]
  induction t using Tree.ind with
  | cell c => intro _; rfl
  | obj fs ih => intro hw; simp only [markT, forget]; rw [fields fs ih (by simpa [WFTree] using hw)]
  | tmp ks rs ih ih' =>
    intro hw
    simp only [WFTree] at hw
    obtain ⟨a1, a2⟩ := forget_markK (n := n) (xml := xml) i ks hw.2.1 (fun e he => fields e.2 (ih e he) (wfKeyed_iff.1 hw.2.1 e he).2)
    obtain ⟨b1, b2⟩ := forget_markI i rs (fun fs hf => fields fs (ih' fs hf) (wfItems_iff.1 hw.2.2 fs hf).2) 0
    obtain ⟨c1, c2⟩ := forget_append (markK i ks) (markI i 0 rs)
    simp only [markT, forget, c1, c2, a1, a2, b1, b2, List.append_nil, List.nil_append]

/-! ### Labelled rows are in order -/

theorem markI_distinct (i : Nat) (rs : List Fields) : ∀ j, KeysDistinct (markI i j rs) := by
  induction rs with
  | nil => intro j; exact List.Pairwise.nil
  | cons fs r ih =>
    intro j
    refine List.pairwise_cons.2 ⟨?_, ih (j + 1)⟩
    intro e he
    obtain ⟨l, h1, h2, -⟩ := mem_markI he
    rw [h2]
    simp only
    intro h
    have := (mark_pyEq.1 h).2
    omega

theorem clean_mark {n : Option Str} {xml : Bool} (i : Nat) (p : List PKey) : ∀ (t u : Tree), WFTree n xml t → SelfT t → (markT i t).sub p = some u → Local u := by
  induction p with
  | nil =>
    intro t u hw hi hu
    simp only [Tree.sub, Option.some.injEq] at hu; subst hu
    cases t with
    | cell c => simpa [SelfT, markT, Local] using hi
    | obj fs =>
      simp only [markT, Local, keys_markF]
      exact wfFields_nodup (by simpa [WFTree] using hw)
    | tmp ks rs =>
      simp only [WFTree] at hw
      simp only [SelfT] at hi
      refine ⟨rfl, ?_, ?_⟩
      · refine List.pairwise_append.2 ⟨?_, markI_distinct i rs 0, ?_⟩
        · rw [markK_map]
          exact List.pairwise_map.2 hw.1
        · intro a ha b hb hab
          obtain ⟨l, -, h2, -⟩ := mem_markI hb
          rw [markK_map] at ha
          obtain ⟨e, he, rfl⟩ := List.mem_map.1 ha
          have h3 := (wfKeyed_iff.1 hw.2.1 e he).1.1
          have h4 := Val.hashable_congr hab
          rw [h2] at h4
          simp only at h4
          rw [h3] at h4; cases h4
      · intro e he
        rcases List.mem_append.1 he with he | he
        · rw [markK_map] at he
          obtain ⟨e', he', rfl⟩ := List.mem_map.1 he
          exact (selfK_iff.1 hi.1 e' he').1
        · obtain ⟨l, -, h2, -⟩ := mem_markI he
          rw [h2]; exact mark_pyEq.2 ⟨rfl, rfl⟩
  | cons s p ih =>
    intro t u hw hi hu
    cases s with
    | field k =>
      cases t with
      | cell c => simp [markT, Tree.sub] at hu
      | tmp ks rs => simp [markT, Tree.sub] at hu
      | obj fs =>
        simp only [markT, Tree.sub, get_markF] at hu
        cases hg : Dict.get fs k with
        | none => rw [hg] at hu; simp at hu
        | some t =>
          rw [hg] at hu
          exact ih t u ((wfFields_iff.1 (by simpa [WFTree] using hw)).2 k t hg) (selfF_iff.1 (by simpa [SelfT] using hi) _ (Dict.get_eq_some_mem hg)) hu
    | item v =>
      cases t with
      | cell c => simp [markT, Tree.sub] at hu
      | obj ks => simp [markT, Tree.sub] at hu
      | tmp ks rs =>
        simp only [WFTree] at hw
        simp only [SelfT] at hi
        simp only [markT, Tree.sub] at hu
        cases hg : keyGet (markK i ks ++ markI i 0 rs) v with
        | none => rw [hg] at hu; simp at hu
        | some F =>
          rw [hg] at hu
          rcases keyGet_mark hw.2.1 hg with ⟨-, fs, h1, rfl⟩ | ⟨-, -, fs, h1, rfl⟩
          · obtain ⟨k', hm, _⟩ := keyGet_some_mem h1
            exact ih (.obj fs) u (by simpa [WFTree] using (wfKeyed_iff.1 hw.2.1 _ hm).2) (by simpa [SelfT] using (selfK_iff.1 hi.1 _ hm).2) (by simpa [markT] using hu)
          · exact ih (.obj fs) u (by simpa [WFTree] using (wfItems_iff.1 hw.2.2 _ h1).2) (by simpa [SelfT] using selfI_iff.1 hi.2 _ h1) (by simpa [markT] using hu)

/-- Labelled rows do not contradict each other, if the rows do not. -/
theorem agr_mark {n : Option Str} {xml : Bool} {i j : Nat} (hij : i ≠ j) (p : List PKey) : ∀ (t u a b : Tree), WFTree n xml t → WFTree n xml u → Agr t u →
    (markT i t).sub p = some a → (markT j u).sub p = some b → NodeEq a b := by
  induction p with
  | nil =>
    intro t u a b _ _ h ha hb
    simp only [Tree.sub, Option.some.injEq] at ha hb; subst ha hb
    have := h.node
    cases t <;> cases u <;> simp_all [markT, NodeEq]
  | cons s p ih =>
    intro t u a b hw hw' h ha hb
    cases s with
    | field k =>
      cases t with
      | cell c => simp [markT, Tree.sub] at ha
      | tmp ks rs => simp [markT, Tree.sub] at ha
      | obj fs =>
      cases u with
      | cell c => simp [markT, Tree.sub] at hb
      | tmp ks rs => simp [markT, Tree.sub] at hb
      | obj gs =>
        simp only [markT, Tree.sub, get_markF] at ha hb
        cases hf : Dict.get fs k with
        | none => rw [hf] at ha; simp at ha
        | some t =>
        cases hg : Dict.get gs k with
        | none => rw [hg] at hb; simp at hb
        | some u =>
          rw [hf] at ha; rw [hg] at hb
          exact ih t u a b ((wfFields_iff.1 (by simpa [WFTree] using hw)).2 k t hf) ((wfFields_iff.1 (by simpa [WFTree] using hw')).2 k u hg) (h.field hf hg) ha hb
    | item v =>
      cases t with
      | cell c => simp [markT, Tree.sub] at ha
      | obj ks => simp [markT, Tree.sub] at ha
      | tmp ks rs =>
      cases u with
      | cell c => simp [markT, Tree.sub] at hb
      | obj ks => simp [markT, Tree.sub] at hb
      | tmp bk br =>
        simp only [WFTree] at hw hw'
        simp only [markT, Tree.sub] at ha hb
        cases hf : keyGet (markK i ks ++ markI i 0 rs) v with
        | none => rw [hf] at ha; simp at ha
        | some F =>
        cases hg : keyGet (markK j bk ++ markI j 0 br) v with
        | none => rw [hg] at hb; simp at hb
        | some G =>
          rw [hf] at ha; rw [hg] at hb
          rcases keyGet_mark hw.2.1 hf with ⟨h0, fs, h1, rfl⟩ | ⟨h0, ⟨l, hl⟩, fs, h1, rfl⟩ <;>
          rcases keyGet_mark hw'.2.1 hg with ⟨g0, gs, g1, rfl⟩ | ⟨g0, ⟨m, hm⟩, gs, g1, rfl⟩
          · obtain ⟨k1, hm1, hv1⟩ := keyGet_some_mem h1
            obtain ⟨k2, hm2, hv2⟩ := keyGet_some_mem g1
            exact ih (.obj fs) (.obj gs) a b (by simpa [WFTree] using (wfKeyed_iff.1 hw.2.1 _ hm1).2)
              (by simpa [WFTree] using (wfKeyed_iff.1 hw'.2.1 _ hm2).2) (h.item h1 g1) (by simpa [markT] using ha) (by simpa [markT] using hb)
          · rw [h0] at g0; cases g0
          · rw [h0] at g0; cases g0
          · exact absurd (mark_pyEq.1 (Val.pyEq_trans hl (Val.pyEq_symm hm))).1 hij

/-- Rows with different numbers have no labelled item in common. -/
theorem apart_mark {n : Option Str} {xml : Bool} {i j : Nat} (hij : i ≠ j) (p : List PKey) : ∀ (t u : Tree), WFTree n xml t → WFTree n xml u →
    ∀ k a b, k.hashable = false → (markT i t).sub (p ++ [.item k]) = some a → (markT j u).sub (p ++ [.item k]) = some b → False := by
  have item : ∀ (ks bk : List (Val × Fields)) (rs br : List Fields), WFKeyed n xml ks → WFKeyed n xml bk → ∀ v F G,
      keyGet (markK i ks ++ markI i 0 rs) v = some F → keyGet (markK j bk ++ markI j 0 br) v = some G →
      ∃ fs gs, keyGet ks v = some fs ∧ F = markF i fs ∧ keyGet bk v = some gs ∧ G = markF j gs ∧ v.hashable = true := by
    intro ks bk rs br w1 w2 v F G hf hg
    rcases keyGet_mark w1 hf with ⟨h0, fs, h1, rfl⟩ | ⟨h0, ⟨l, hl⟩, fs, h1, rfl⟩ <;>
    rcases keyGet_mark w2 hg with ⟨g0, gs, g1, rfl⟩ | ⟨g0, ⟨m, hm⟩, gs, g1, rfl⟩
    · exact ⟨fs, gs, h1, rfl, g1, rfl, h0⟩
    · rw [h0] at g0; cases g0
    · rw [h0] at g0; cases g0
    · exact absurd (mark_pyEq.1 (Val.pyEq_trans hl (Val.pyEq_symm hm))).1 hij
  induction p with
  | nil =>
    intro t u hw hw' k a b hk ha hb
    cases t with
    | cell c => simp [markT, Tree.sub] at ha
    | obj ks => simp [markT, Tree.sub] at ha
    | tmp ks rs =>
    cases u with
    | cell c => simp [markT, Tree.sub] at hb
    | obj ks => simp [markT, Tree.sub] at hb
    | tmp bk br =>
      simp only [WFTree] at hw hw'
      simp only [List.nil_append, markT, Tree.sub] at ha hb
      cases hf : keyGet (markK i ks ++ markI i 0 rs) k with
      | none => rw [hf] at ha; simp at ha
      | some F =>
      cases hg : keyGet (markK j bk ++ markI j 0 br) k with
      | none => rw [hg] at hb; simp at hb
      | some G =>
        obtain ⟨_, _, _, _, _, _, h⟩ := item _ _ _ _ hw.2.1 hw'.2.1 k F G hf hg
        rw [hk] at h; cases h
  | cons s p ih =>
    intro t u hw hw' k a b hk ha hb
    cases s with
    | field k =>
      cases t with
      | cell c => simp [markT, Tree.sub] at ha
      | tmp ks rs => simp [markT, Tree.sub] at ha
      | obj fs =>
      cases u with
      | cell c => simp [markT, Tree.sub] at hb
      | tmp ks rs => simp [markT, Tree.sub] at hb
      | obj gs =>
        simp only [List.cons_append, markT, Tree.sub, get_markF] at ha hb
        cases hf : Dict.get fs k with
        | none => rw [hf] at ha; simp at ha
        | some t =>
        cases hg : Dict.get gs k with
        | none => rw [hg] at hb; simp at hb
        | some u =>
          rw [hf] at ha; rw [hg] at hb
          exact ih t u ((wfFields_iff.1 (by simpa [WFTree] using hw)).2 k t hf) ((wfFields_iff.1 (by simpa [WFTree] using hw')).2 k u hg) _ a b hk ha hb
    | item v =>
      cases t with
      | cell c => simp [markT, Tree.sub] at ha
      | obj ks => simp [markT, Tree.sub] at ha
      | tmp ks rs =>
      cases u with
      | cell c => simp [markT, Tree.sub] at hb
      | obj ks => simp [markT, Tree.sub] at hb
      | tmp bk br =>
        simp only [WFTree] at hw hw'
        simp only [List.cons_append, markT, Tree.sub] at ha hb
        cases hf : keyGet (markK i ks ++ markI i 0 rs) v with
        | none => rw [hf] at ha; simp at ha
        | some F =>
        cases hg : keyGet (markK j bk ++ markI j 0 br) v with
        | none => rw [hg] at hb; simp at hb
        | some G =>
          rw [hf] at ha; rw [hg] at hb
          obtain ⟨fs, gs, h1, rfl, g1, rfl, -⟩ := item _ _ _ _ hw.2.1 hw'.2.1 v F G hf hg
          obtain ⟨k1, hm1, hv1⟩ := keyGet_some_mem h1
          obtain ⟨k2, hm2, hv2⟩ := keyGet_some_mem g1
          exact ih (.obj fs) (.obj gs) (by simpa [WFTree] using (wfKeyed_iff.1 hw.2.1 _ hm1).2)
            (by simpa [WFTree] using (wfKeyed_iff.1 hw'.2.1 _ hm2).2) k a b hk (by simpa [markT] using ha) (by simpa [markT] using hb)

/-! ### Locations -/

theorem tlI_map (g : Loc → Loc) (rs : List Fields) : tlI g rs = rs.map (tlF g) := by
  induction rs with
  | nil => rfl
  | cons e r ih => simp [tlI, ih]

theorem tlK_map' (g : Loc → Loc) (ks : List (Val × Fields)) : tlK g ks = ks.map (fun e => (e.1, tlF g e.2)) := by
  induction ks with
  | nil => rfl
  | cons e r ih => obtain ⟨k, t⟩ := e; simp [tlK, ih]

theorem tlF_map' (g : Loc → Loc) (fs : Fields) : tlF g fs = fs.map (fun e => (e.1, tl g e.2)) := by
  induction fs with
  | nil => rfl
  | cons e r ih => obtain ⟨k, t⟩ := e; simp [tlF, ih]

theorem markI_tl (g : Loc → Loc) (i : Nat) (rs : List Fields) (h : ∀ fs ∈ rs, tlF g (markF i fs) = markF i (tlF g fs)) :
    ∀ j, tlK g (markI i j rs) = markI i j (tlI g rs) := by
  induction rs with
  | nil => intro j; rfl
  | cons fs r ih =>
    intro j
    simp [markI, tlK, tlI, h fs (by simp), ih (fun x hx => h x (by simp [hx]))]

theorem tl_mark (g : Loc → Loc) (i : Nat) (t : Tree) : tl g (markT i t) = markT i (tl g t) := by
  have fields : ∀ fs : Fields, (∀ e ∈ fs, tl g (markT i e.2) = markT i (tl g e.2)) → tlF g (markF i fs) = markF i (tlF g fs) := by
    intro fs ih
    rw [markF_map, markF_map, tlF_map', tlF_map', List.map_map, List.map_map]
    refine List.map_congr_left ?_
    intro e he
    simp only [Function.comp_apply, ih e he]
  induction t using Tree.ind with
  | cell c => rfl
  | obj fs ih => simp only [markT, tl, fields fs ih]
  | tmp ks rs ih ih' =>
    simp only [markT, tl, tlI, Tree.tmp.injEq, and_true]
    rw [← markI_tl g i rs (fun fs hf => fields fs (ih' fs hf)) 0]
    rw [tlK_map', tlK_map', tlK_map', markK_map, markK_map, List.map_append, List.map_map, List.map_map]
    congr 1
    refine List.map_congr_left ?_
    intro e he
    simp only [Function.comp_apply, fields e.2 (ih e he)]

/-! ### The same data, when the labels are forgotten -/

theorem forgetK_filter (ks : List (Val × Fields)) : forgetK ks = (ks.filter (fun e => e.1.hashable)).map (fun e => (e.1, forgetF e.2)) := by
  induction ks with
  | nil => rfl
  | cons e r ih =>
    obtain ⟨k, fs⟩ := e
    cases h : k.hashable <;> simp [forgetK, h, ih]

theorem forgetU_filter (ks : List (Val × Fields)) : forgetU ks = (ks.filter (fun e => !e.1.hashable)).map (fun e => forgetF e.2) := by
  induction ks with
  | nil => rfl
  | cons e r ih =>
    obtain ⟨k, fs⟩ := e
    cases h : k.hashable <;> simp [forgetU, h, ih]

theorem all₂_filter {α β : Type} {R : α → β → Prop} {p : α → Bool} {q : β → Bool} (hpq : ∀ a b, R a b → p a = q b) {l : List α} {m : List β}
    (h : All₂ R l m) : All₂ R (l.filter p) (m.filter q) := by
  induction h with
  | nil => exact .nil
  | @cons a b _ _ hab _ ih =>
    have := hpq a b hab
    cases hp : p a <;> rw [hp] at this <;> simp only [List.filter_cons, hp, ← this] <;> simp only [Bool.false_eq_true, if_false, if_true]
    · exact ih
    · exact .cons hab ih

theorem sameFields_forget {l m : Fields} (h : All₂ (fun a b => a.1 = b.1 ∧ SameData (treeToLists (forget a.2)) (treeToLists (forget b.2))) l m) :
    SameFields (toLists (forgetF l)) (toLists (forgetF m)) := by
  induction h with
  | nil => exact .nil
  | @cons a b _ _ hab _ ih =>
    obtain ⟨k, t⟩ := a
    obtain ⟨k', t'⟩ := b
    obtain ⟨rfl, h2⟩ := hab
    exact .cons h2 ih

theorem sameObjects_forget {l m : List (Val × Fields)}
    (h : All₂ (fun a b => a.1.pyEq b.1 = true ∧ SameData (.obj (toLists (forgetF a.2))) (.obj (toLists (forgetF b.2)))) l m) :
    SameObjects (l.map (fun e => toLists (forgetF e.2))) (m.map (fun e => toLists (forgetF e.2))) := by
  induction h with
  | nil => exact .nil
  | @cons a b _ _ hab _ ih => exact .cons hab.2 ih

theorem forget_list (ks : List (Val × Fields)) (rs : List Fields) : treeToLists (forget (.tmp ks rs)) =
    .list ((ks.filter (fun e => e.1.hashable) ++ ks.filter (fun e => !e.1.hashable)).map (fun e => toLists (forgetF e.2))) := by
  simp only [forget, treeToLists, keyedToLists_eq, itemsToLists_eq, forgetK_filter, forgetU_filter, List.map_map, List.map_append, Function.comp_def]

theorem same_forget (t : Tree) : ∀ u, Clean t → Clean u → Bel t u → Bel u t → SameData (treeToLists (forget t)) (treeToLists (forget u)) := by
  have fields : ∀ fs : Fields, (∀ e ∈ fs, ∀ u, Clean e.2 → Clean u → Bel e.2 u → Bel u e.2 → SameData (treeToLists (forget e.2)) (treeToLists (forget u))) →
      ∀ gs : Fields, Clean (.obj fs) → Clean (.obj gs) → Bel (.obj fs) (.obj gs) → Bel (.obj gs) (.obj fs) →
      SameData (.obj (toLists (forgetF fs))) (.obj (toLists (forgetF gs))) := by
    intro fs ih gs g1 g2 h1 h2
    obtain ⟨m, e1, e2⟩ := match_up (R := fun (a b : Str × Tree) => a.1 = b.1 ∧ SameData (treeToLists (forget a.2)) (treeToLists (forget b.2))) fs gs
      (fun a ha => by
        have hg := Dict.get_of_mem g1.node ha
        obtain ⟨u, hu, hb⟩ := bel_field h1 hg
        obtain ⟨t, ht, hb'⟩ := bel_field h2 hu
        rw [hg] at ht; cases ht
        exact ⟨(a.1, u), Dict.get_eq_some_mem hu, rfl, ih a ha u (g1.field hg) (g2.field hu) hb hb'⟩)
      (fun b hb => by
        have hg := Dict.get_of_mem g2.node hb
        obtain ⟨t, ht, hb'⟩ := bel_field h2 hg
        obtain ⟨u, hu, hb2⟩ := bel_field h1 ht
        rw [hg] at hu; cases hu
        exact ⟨(b.1, t), Dict.get_eq_some_mem ht, rfl, ih _ (Dict.get_eq_some_mem ht) b.2 (g1.field ht) (g2.field hg) hb2 hb'⟩)
      (by
        have := g1.node
        simp only [Local, Dict.keys] at this
        refine (List.pairwise_map.1 (List.nodup_iff_pairwise_ne.1 this)).imp (fun hne y r1 r2 => hne (r1.1.trans r2.1.symm)))
      (by
        have := g2.node
        simp only [Local, Dict.keys] at this
        refine (List.pairwise_map.1 (List.nodup_iff_pairwise_ne.1 this)).imp (fun hne y r1 r2 => hne (r1.1.symm.trans r2.1)))
    refine .obj (sameFields_forget e1) ?_
    rw [toLists_eq, toLists_eq, forgetF_map, forgetF_map]
    exact (e2.map _).map _
  induction t using Tree.ind with
  | cell c =>
    intro u _ _ h _
    obtain ⟨b, hb, e⟩ := h [] (.cell c) rfl
    simp only [Tree.sub, Option.some.injEq] at hb; subst hb
    cases u with
    | cell d => exact .cell e
    | obj fs => exact absurd e id
    | tmp a b => exact absurd e id
  | obj fs ih =>
    intro u g1 g2 h h'
    obtain ⟨b, hb, e⟩ := h [] (.obj fs) rfl
    simp only [Tree.sub, Option.some.injEq] at hb; subst hb
    cases u with
    | obj gs => exact fields fs ih gs g1 g2 h h'
    | cell d => exact absurd e id
    | tmp a b => exact absurd e id
  | tmp ks rs ih _ =>
    intro u g1 g2 h h'
    obtain ⟨b, hb, e⟩ := h [] (.tmp ks rs) rfl
    simp only [Tree.sub, Option.some.injEq] at hb; subst hb
    cases u with
    | obj gs => exact absurd e id
    | cell d => exact absurd e id
    | tmp bk br =>
      obtain ⟨l1, l2, l3⟩ := g1.node
      obtain ⟨m1, m2, m3⟩ := g2.node
      obtain ⟨m, e1, e2⟩ := match_up (R := fun (a b : Val × Fields) => a.1.pyEq b.1 = true ∧
          SameData (.obj (toLists (forgetF a.2))) (.obj (toLists (forgetF b.2)))) ks bk
        (fun a ha => by
          have hg := keyGet_of_mem l2 (k := a.1) (v := a.2) ha (l3 a ha)
          obtain ⟨gs, hu, hb⟩ := bel_item h hg
          obtain ⟨fs, ht, hb'⟩ := bel_item h' hu
          rw [hg] at ht; cases ht
          obtain ⟨k', hm, hk'⟩ := keyGet_some_mem hu
          exact ⟨(k', gs), hm, Val.pyEq_symm hk', fields a.2 (ih a ha) gs (g1.item hg) (g2.item hu) hb hb'⟩)
        (fun b hb => by
          have hg := keyGet_of_mem m2 (k := b.1) (v := b.2) hb (m3 b hb)
          obtain ⟨fs, ht, hb'⟩ := bel_item h' hg
          obtain ⟨gs, hu, hb2⟩ := bel_item h ht
          rw [hg] at hu; cases hu
          obtain ⟨k', hm, hk'⟩ := keyGet_some_mem ht
          exact ⟨(k', fs), hm, hk', fields fs (ih _ hm) b.2 (g1.item ht) (g2.item hg) hb2 hb'⟩)
        (l2.imp (fun hne y r1 r2 => hne (Val.pyEq_trans r1.1 (Val.pyEq_symm r2.1))))
        (m2.imp (fun hne y r1 r2 => hne (Val.pyEq_trans (Val.pyEq_symm r1.1) r2.1)))
      rw [forget_list, forget_list]
      have hcong : ∀ a b : Val × Fields, (a.1.pyEq b.1 = true ∧ SameData (.obj (toLists (forgetF a.2))) (.obj (toLists (forgetF b.2)))) →
          a.1.hashable = b.1.hashable := fun a b hab => Val.hashable_congr hab.1
      have f1 := all₂_filter (p := fun e : Val × Fields => e.1.hashable) (q := fun e : Val × Fields => e.1.hashable) hcong e1
      have f2 := all₂_filter (p := fun e : Val × Fields => !e.1.hashable) (q := fun e : Val × Fields => !e.1.hashable)
        (fun a b hab => by rw [hcong a b hab]) e1
      have o1 := sameObjects_forget f1
      have o2 := sameObjects_forget f2
      rw [List.map_append, List.map_append]
      refine .list (SameObjects.append o1 o2) ?_
      exact ((e2.filter _).map _).append ((e2.filter _).map _)

end Verif
