import Verif.Spec.XmlTrip
import Verif.Proofs.Reloc
/-! The id, a plain value in JSON, is an element with a text in XML: everything `unflatten` does commutes with that. -/
namespace Verif
open Spec Xml

/-! ### Maps that depend on the key -/

theorem getW {κ α β : Type} [DecidableEq κ] (f : κ → α → β) (d : List (κ × α)) (k : κ) :
    Dict.get (d.map (fun e => (e.1, f e.1 e.2))) k = (Dict.get d k).map (f k) := by
  induction d with
  | nil => simp
  | cons e r ih =>
    obtain ⟨j, v⟩ := e
    simp only [List.map_cons, Dict.get_cons, ih]
    split
    · next h => subst h; rfl
    · rfl

theorem setW {κ α β : Type} [DecidableEq κ] (f : κ → α → β) (d : List (κ × α)) (k : κ) (v : α) :
    Dict.set (d.map (fun e => (e.1, f e.1 e.2))) k (f k v) = (Dict.set d k v).map (fun e => (e.1, f e.1 e.2)) := by
  induction d with
  | nil => simp [Dict.set]
  | cons e r ih =>
    obtain ⟨j, w⟩ := e
    simp only [List.map_cons, Dict.set]
    split
    · next h => subst h; simp
    · simp [ih]

/-! ### Values -/

/-- The element of an id. -/
def underJ (b : Bool) (t : Json) : Json := if b then .obj [(s%"text()", t)] else t

mutual
def wJ (n : Str) : Json → Json
  | .leaf a => .leaf a
  | .obj fs => .obj (wJF n fs)
  | .arr l => .arr (wJI n l)
def wJF (n : Str) : List (Str × Json) → List (Str × Json)
  | [] => []
  | (k, v) :: r => (k, underJ (k = n) (wJ n v)) :: wJF n r
def wJI (n : Str) : List Json → List Json
  | [] => []
  | v :: r => wJ n v :: wJI n r
end

/-- Only geometries have keys. -/
def wV (n : Str) : Val → Val
  | .geo g => .geo (wJ n g)
  | v => v

def wC (n : Str) (c : Cell) : Cell := { value := wV n c.value, loc := c.loc, sub := c.sub.map (fun s => (wV n s.1, s.2)) }

theorem wV_canon (n : Str) (v : Val) : (wV n v).canon = v.canon := by cases v <;> rfl
theorem wV_pyEq (n : Str) (v u : Val) : (wV n v).pyEq (wV n u) = v.pyEq u := by simp [Val.pyEq, wV_canon]
theorem wV_hashable (n : Str) (v : Val) : (wV n v).hashable = v.hashable := by cases v <;> rfl
theorem wV_of_hashable {n : Str} {v : Val} (h : v.hashable = true) : wV n v = v := by cases v <;> first | rfl | simp [Val.hashable] at h

theorem wJI_leaves (n : Str) (l : List Atom) : wJI n (l.map .leaf) = l.map .leaf := by
  induction l with
  | nil => simp [wJI]
  | cons a r ih => simp [wJI, wJ, ih]

theorem wV_toJson (n : Str) (v : Val) : (wV n v).toJson = wJ n v.toJson := by
  cases v with
  | atom a => simp [wV, Val.toJson, wJ]
  | arr l => simp [wV, Val.toJson, wJ, wJI_leaves]
  | arr2 l =>
    simp only [wV, Val.toJson, wJ, Json.arr.injEq]
    induction l with
    | nil => simp [wJI]
    | cons r l ih => simp [wJI, wJ, wJI_leaves, ← ih]
  | geo g => simp [wV, Val.toJson]

/-! ### Trees of rows -/

/-- The element of an id (an empty object stays empty). -/
def underR (b : Bool) (t : RTree) : RTree :=
  if b then (match t with | .obj [] => .obj [] | t => .obj [(s%"text()", t)]) else t

mutual
def wR (n : Str) : RTree → RTree
  | .cell c => .cell (wC n c)
  | .obj fs => .obj (wRF n fs)
  | .lad is => .lad (wRI n is)
def wRF (n : Str) : List (Str × RTree) → List (Str × RTree)
  | [] => []
  | (k, t) :: r => (k, underR (k = n) (wR n t)) :: wRF n r
def wRI (n : Str) : List (Int × List (Str × RTree)) → List (Int × List (Str × RTree))
  | [] => []
  | (i, fs) :: r => (i, wRF n fs) :: wRI n r
end

theorem wRF_eq (n : Str) (fs : RFields) : wRF n fs = fs.map (fun e => (e.1, (fun k t => underR (k = n) (wR n t)) e.1 e.2)) := by
  induction fs with
  | nil => simp [wRF]
  | cons e r ih => obtain ⟨k, t⟩ := e; simp [wRF, ih]
theorem wRI_eq (n : Str) (is : List (Int × RFields)) : wRI n is = is.map (fun e => (e.1, wRF n e.2)) := by
  induction is with
  | nil => simp [wRI]
  | cons e r ih => obtain ⟨k, t⟩ := e; simp [wRI, ih]
theorem wRF_get (n : Str) (fs : RFields) (k : Str) : Dict.get (wRF n fs) k = (Dict.get fs k).map (fun t => underR (k = n) (wR n t)) := by
  rw [wRF_eq, getW (fun k t => underR (k = n) (wR n t))]
theorem wRF_set (n : Str) (fs : RFields) (k : Str) (t : RTree) : Dict.set (wRF n fs) k (underR (k = n) (wR n t)) = wRF n (Dict.set fs k t) := by
  rw [wRF_eq, wRF_eq, ← setW (fun k t => underR (k = n) (wR n t))]
theorem wRI_get (n : Str) (fs : List (Int × RFields)) (k : Int) : Dict.get (wRI n fs) k = (Dict.get fs k).map (wRF n) := by
  rw [wRI_eq, Dict.get_map]
theorem wRI_set (n : Str) (fs : List (Int × RFields)) (k : Int) (t : RFields) : Dict.set (wRI n fs) k (wRF n t) = wRI n (Dict.set fs k t) := by
  rw [wRI_eq, wRI_eq, Dict.set_map]

theorem wRF_get_other {n k : Str} (h : k ≠ n) (fs : RFields) : Dict.get (wRF n fs) k = (Dict.get fs k).map (wR n) := by
  rw [wRF_get]; simp [h, underR]
theorem wRF_set_other {n k : Str} (h : k ≠ n) (fs : RFields) (t : RTree) : Dict.set (wRF n fs) k (wR n t) = wRF n (Dict.set fs k t) := by
  rw [← wRF_set]; simp [h, underR]

/-! ### Trees -/

/-- The element of an id. -/
def underT (b : Bool) (t : Tree) : Tree := if b then .obj [(s%"text()", t)] else t

mutual
def wT (n : Str) : Tree → Tree
  | .cell c => .cell (wC n c)
  | .obj fs => .obj (wF n fs)
  | .tmp ks rest => .tmp (wK n ks) (wL n rest)
def wF (n : Str) : List (Str × Tree) → List (Str × Tree)
  | [] => []
  | (k, t) :: r => (k, underT (k = n) (wT n t)) :: wF n r
def wK (n : Str) : List (Val × List (Str × Tree)) → List (Val × List (Str × Tree))
  | [] => []
  | (v, fs) :: r => (v, wF n fs) :: wK n r
def wL (n : Str) : List (List (Str × Tree)) → List (List (Str × Tree))
  | [] => []
  | fs :: r => wF n fs :: wL n r
end

theorem wF_eq (n : Str) (fs : Fields) : wF n fs = fs.map (fun e => (e.1, (fun k t => underT (k = n) (wT n t)) e.1 e.2)) := by
  induction fs with
  | nil => simp [wF]
  | cons e r ih => obtain ⟨k, t⟩ := e; simp [wF, ih]
theorem wK_eq (n : Str) (d : List (Val × Fields)) : wK n d = d.map (fun e => (e.1, wF n e.2)) := by
  induction d with
  | nil => simp [wK]
  | cons e r ih => obtain ⟨k, t⟩ := e; simp [wK, ih]
theorem wL_eq (n : Str) (l : List Fields) : wL n l = l.map (wF n) := by
  induction l with
  | nil => simp [wL]
  | cons e r ih => simp [wL, ih]
theorem wF_get (n : Str) (fs : Fields) (k : Str) : Dict.get (wF n fs) k = (Dict.get fs k).map (fun t => underT (k = n) (wT n t)) := by
  rw [wF_eq, getW (fun k t => underT (k = n) (wT n t))]
theorem wF_set (n : Str) (fs : Fields) (k : Str) (t : Tree) : Dict.set (wF n fs) k (underT (k = n) (wT n t)) = wF n (Dict.set fs k t) := by
  rw [wF_eq, wF_eq, ← setW (fun k t => underT (k = n) (wT n t))]
theorem wF_update (n : Str) (a b : Fields) : Dict.update (wF n a) (wF n b) = wF n (Dict.update a b) := by
  unfold Dict.update
  induction b generalizing a with
  | nil => simp [wF]
  | cons e r ih => obtain ⟨k, t⟩ := e; simp only [wF, List.foldl_cons, wF_set, ih]
theorem wK_get (n : Str) (d : List (Val × Fields)) (k : Val) : keyGet (wK n d) k = (keyGet d k).map (wF n) := by
  rw [wK_eq, keyGet_map]
theorem wK_set (n : Str) (d : List (Val × Fields)) (k : Val) (t : Fields) : keySet (wK n d) k (wF n t) = wK n (keySet d k t) := by
  rw [wK_eq, wK_eq, keySet_map]
theorem wK_append (n : Str) (a b : List (Val × Fields)) : wK n (a ++ b) = wK n a ++ wK n b := by simp [wK_eq]
theorem wL_append (n : Str) (a b : List Fields) : wL n (a ++ b) = wL n a ++ wL n b := by simp [wL_eq]

def wD (n : Str) (td : TDict) : TDict := { keyed := wK n td.keyed, rest := wL n td.rest }

theorem wD_empty (n : Str) : wD n {} = {} := by simp [wD, wK, wL]

theorem itemKey_w {n : Str} {fs : Fields} {k : Option Val} (h : itemKey (some n) false fs = .ok k) : itemKey (some n) true (wF n fs) = .ok (k.map (wV n)) := by
  unfold itemKey at h ⊢
  simp only [wF_get] at h ⊢
  cases hg : Dict.get fs n with
  | none => rw [hg] at h; cases h; rfl
  | some t =>
    rw [hg] at h
    cases t with
    | cell c =>
      simp only [Option.map_some, decide_true, underT, if_true, wT, Dict.get_cons]
      cases h; rfl
    | obj g => simp at h
    | tmp a b => simp at h

theorem append_w {n : Str} {td td' : TDict} {fs : Fields} (h : td.append (some n) false fs = .ok td') :
    (wD n td).append (some n) true (wF n fs) = .ok (wD n td') := by
  unfold TDict.append at h ⊢
  cases hk : itemKey (some n) false fs with
  | error e => rw [hk] at h; cases h
  | ok k =>
    rw [itemKey_w hk]
    rw [hk] at h
    cases k with
    | none =>
      simp only [Except.ok.injEq] at h ⊢
      subst h
      simp [wD, wL_append, wL]
    | some k =>
      simp only [Option.map_some, wV_hashable] at h ⊢
      split at h
      · cases h
      · next hh =>
        rw [if_neg hh, wV_of_hashable (by simpa using hh)]
        simp only [wD, wK_get]
        cases hg : keyGet td.keyed k with
        | none =>
          rw [hg] at h
          simp only [Except.ok.injEq] at h
          subst h
          simp [wK_append, wK]
        | some old =>
          rw [hg] at h
          simp only [Except.ok.injEq] at h
          subst h
          simp [wF_update, wK_set]

theorem appendAll_w {n : Str} (is : List Fields) {td td' : TDict} (h : appendAll (some n) false is td = .ok td') :
    appendAll (some n) true (wL n is) (wD n td) = .ok (wD n td') := by
  induction is generalizing td with
  | nil => simp only [appendAll, Except.ok.injEq] at h; subst h; simp [appendAll, wL]
  | cons i r ih =>
    simp only [wL, appendAll] at h ⊢
    cases hk : td.append (some n) false i with
    | error e => rw [hk] at h; cases h
    | ok td1 =>
      rw [hk] at h
      rw [append_w hk]
      exact ih h

mutual
theorem toTemp_w {n : Str} : ∀ (fs : List (Str × RTree)) {gs : Fields}, toTemp (some n) false fs = .ok gs → toTemp (some n) true (wRF n fs) = .ok (wF n gs)
  | [], gs, h => by
    simp only [toTemp, Except.ok.injEq] at h; subst h; simp [wRF, toTemp, wF]
  | (k, t) :: r, gs, h => by
    by_cases hk : k = n
    · -- the id
      subst hk
      simp only [wRF, decide_true]
      by_cases he : t = .obj []
      · subst he
        simp only [toTemp, List.isEmpty_nil, if_true] at h
        simp only [underR, wR, wRF, if_true, toTemp, List.isEmpty_nil]
        exact toTemp_w r h
      · have hu : underR true (wR k t) = .obj [(s%"text()", wR k t)] := by
          cases t with
          | cell c => simp [underR, wR]
          | lad is => simp [underR, wR]
          | obj fs =>
            cases fs with
            | nil => exact absurd rfl he
            | cons e r => obtain ⟨a, b⟩ := e; simp [underR, wR, wRF]
        rw [hu]
        have hone : ∀ t', t' ≠ RTree.obj [] → ∀ r' gs', toTemp (some k) false ((k, t') :: r') = .ok gs' → ∃ u q, toTemp (some k) false [(k, t')] = .ok [(k, u)] ∧ toTemp (some k) false r' = .ok q ∧ gs' = (k, u) :: q := by
          intro t' ht' r' gs' h'
          cases t' with
          | cell c =>
            simp only [toTemp] at h' ⊢
            cases hr : toTemp (some k) false r' with
            | error e => rw [hr] at h'; cases h'
            | ok q => rw [hr] at h'; cases h'; exact ⟨_, _, rfl, rfl, rfl⟩
          | obj fs =>
            have he' : fs.isEmpty = false := by cases fs with
              | nil => exact absurd rfl ht'
              | cons _ _ => rfl
            simp only [toTemp, he', Bool.false_eq_true, if_false] at h' ⊢
            cases hf : toTemp (some k) false fs with
            | error e => rw [hf] at h'; cases h'
            | ok p =>
              rw [hf] at h'
              simp only at h' ⊢
              cases hr : toTemp (some k) false r' with
              | error e => rw [hr] at h'; cases h'
              | ok q => rw [hr] at h'; cases h'; exact ⟨_, _, rfl, rfl, rfl⟩
          | lad is =>
            simp only [toTemp] at h' ⊢
            cases hf : toTempItems (some k) false is with
            | error e => rw [hf] at h'; cases h'
            | ok p =>
              rw [hf] at h'
              simp only at h' ⊢
              cases ha : appendAll (some k) false ((sortIdx p).map (·.2)) {} with
              | error e => rw [ha] at h'; cases h'
              | ok td =>
                rw [ha] at h'
                simp only at h' ⊢
                cases hr : toTemp (some k) false r' with
                | error e => rw [hr] at h'; cases h'
                | ok q => rw [hr] at h'; cases h'; exact ⟨_, _, rfl, rfl, rfl⟩
        obtain ⟨u, q, h1, h2, rfl⟩ := hone t he r gs h
        have h3 := toTemp_w r h2
        have h4 : toTemp (some k) true [(s%"text()", wR k t)] = .ok [(s%"text()", wT k u)] := toTemp_one t h1 _
        simp only [toTemp, List.isEmpty_cons, Bool.false_eq_true, if_false, h4, h3, wF, decide_true, underT, if_true]
    · simp only [wRF, hk, decide_false, underR, Bool.false_eq_true, if_false]
      cases t with
      | cell c =>
        simp only [toTemp, wR] at h ⊢
        cases hr : toTemp (some n) false r with
        | error e => rw [hr] at h; cases h
        | ok q =>
          rw [hr] at h
          cases h
          simp [toTemp_w r hr, wF, hk, underT, wT]
      | obj fs =>
        have he : (wRF n fs).isEmpty = fs.isEmpty := by cases fs <;> simp [wRF]
        simp only [toTemp, wR, he] at h ⊢
        by_cases hfe : fs.isEmpty = true
        · rw [if_pos hfe] at h ⊢
          exact toTemp_w r h
        · rw [if_neg hfe] at h ⊢
          cases hf : toTemp (some n) false fs with
          | error e => rw [hf] at h; cases h
          | ok p =>
            rw [hf] at h
            simp only at h
            rw [toTemp_w fs hf]
            cases hr : toTemp (some n) false r with
            | error e => rw [hr] at h; cases h
            | ok q =>
              rw [hr] at h
              cases h
              simp [toTemp_w r hr, wF, hk, underT, wT]
      | lad is =>
        simp only [toTemp, wR] at h ⊢
        cases hf : toTempItems (some n) false is with
        | error e => rw [hf] at h; cases h
        | ok p =>
          rw [hf] at h
          simp only at h
          rw [toTempItems_w is hf]
          simp only
          have h1 : (sortIdx (p.map (fun e => (e.1, wF n e.2)))).map (·.2) = wL n ((sortIdx p).map (·.2)) := by
            rw [sortIdx_map, wL_eq]; simp
          rw [h1]
          cases ha : appendAll (some n) false ((sortIdx p).map (·.2)) {} with
          | error e => rw [ha] at h; cases h
          | ok td =>
            rw [ha] at h
            have h2 := appendAll_w _ ha
            rw [wD_empty] at h2
            rw [h2]
            simp only at h ⊢
            cases hr : toTemp (some n) false r with
            | error e => rw [hr] at h; cases h
            | ok q =>
              rw [hr] at h
              cases h
              simp [toTemp_w r hr, wF, hk, underT, wT, wD]
theorem toTemp_one {n : Str} : ∀ (t : RTree) {k : Str} {u : Tree}, toTemp (some n) false [(k, t)] = .ok [(k, u)] →
    ∀ k', toTemp (some n) true [(k', wR n t)] = .ok [(k', wT n u)]
  | .cell c, k, u, h, k' => by
    simp only [toTemp, Except.ok.injEq, List.cons.injEq, Prod.mk.injEq, true_and, and_true] at h
    subst h
    simp [wR, toTemp, wT]
  | .obj fs, k, u, h, k' => by
    have he : (wRF n fs).isEmpty = fs.isEmpty := by cases fs <;> simp [wRF]
    simp only [toTemp] at h
    by_cases hfe : fs.isEmpty = true
    · rw [if_pos hfe] at h
      simp at h
    · rw [if_neg hfe] at h
      simp only [wR, toTemp, he]
      rw [if_neg hfe]
      cases hf : toTemp (some n) false fs with
      | error e => rw [hf] at h; cases h
      | ok p =>
        rw [hf] at h
        simp only [Except.ok.injEq, List.cons.injEq, Prod.mk.injEq, true_and, and_true] at h
        subst h
        rw [toTemp_w fs hf]
        simp [wT]
  | .lad is, k, u, h, k' => by
    simp only [toTemp, wR] at h ⊢
    cases hf : toTempItems (some n) false is with
    | error e => rw [hf] at h; cases h
    | ok p =>
      rw [hf] at h
      simp only at h
      rw [toTempItems_w is hf]
      simp only
      have h1 : (sortIdx (p.map (fun e => (e.1, wF n e.2)))).map (·.2) = wL n ((sortIdx p).map (·.2)) := by
        rw [sortIdx_map, wL_eq]; simp
      rw [h1]
      cases ha : appendAll (some n) false ((sortIdx p).map (·.2)) {} with
      | error e => rw [ha] at h; cases h
      | ok td =>
        rw [ha] at h
        have h2 := appendAll_w _ ha
        rw [wD_empty] at h2
        rw [h2]
        simp only [Except.ok.injEq, List.cons.injEq, Prod.mk.injEq, true_and, and_true] at h ⊢
        subst h
        simp [wT, wD]
theorem toTempItems_w {n : Str} : ∀ (is : List (Int × List (Str × RTree))) {p : List (Int × Fields)}, toTempItems (some n) false is = .ok p →
    toTempItems (some n) true (wRI n is) = .ok (p.map (fun e => (e.1, wF n e.2)))
  | [], p, h => by
    simp only [toTempItems, Except.ok.injEq] at h; subst h; simp [wRI, toTempItems]
  | (i, fs) :: r, p, h => by
    have he : (wRF n fs).isEmpty = fs.isEmpty := by cases fs <;> simp [wRF]
    simp only [wRI, toTempItems, he] at h ⊢
    by_cases hfe : fs.isEmpty = true
    · rw [if_pos hfe] at h ⊢
      exact toTempItems_w r h
    · rw [if_neg hfe] at h ⊢
      cases hf : toTemp (some n) false fs with
      | error e => rw [hf] at h; cases h
      | ok q =>
        rw [hf] at h
        simp only at h
        rw [toTemp_w fs hf]
        cases hr : toTempItems (some n) false r with
        | error e => rw [hr] at h; cases h
        | ok q' =>
          rw [hr] at h
          cases h
          simp [toTempItems_w r hr]
end

/-! ### Merging -/

theorem mergeCell_w (n s key key' : Str) (c : Cell) (bv : Tree) : (mergeCell s key' (wC n c) (wT n bv)).1 = wT n (mergeCell s key c bv).1 := by
  have hne : (∀ g, c.value ≠ .geo g) → (wC n c).value = c.value := by
    intro h
    simp only [wC]
    cases hv : c.value with
    | geo g => exact absurd hv (h g)
    | atom a => rfl
    | arr a => rfl
    | arr2 a => rfl
  have hgen : (∀ g, c.value ≠ .geo g) → (mergeCell s key' (wC n c) (wT n bv)).1 = wT n (mergeCell s key c bv).1 := by
    intro h
    have hv := hne h
    unfold mergeCell
    rw [hv]
    cases bv with
    | cell b =>
      have hp : (wC n b).value.pyEq c.value = b.value.pyEq c.value := by
        simp [wC, Val.pyEq, wV_canon]
      have hs : wV n c.value = c.value := hv
      cases hcv : c.value with
      | geo g => exact absurd hcv (h g)
      | atom a =>
        rw [hcv] at hp hs
        simp only [wT, hp]
        split <;> simp [wT, wC, hs]
      | arr a =>
        rw [hcv] at hp hs
        simp only [wT, hp]
        split <;> simp [wT, wC, hs]
      | arr2 a =>
        rw [hcv] at hp hs
        simp only [wT, hp]
        split <;> simp [wT, wC, hs]
    | obj fs =>
      cases hcv : c.value <;> simp [wT]
    | tmp x y =>
      cases hcv : c.value <;> simp [wT]
  cases hcv : c.value with
  | geo g =>
    unfold mergeCell
    have : (wC n c).value = .geo (wJ n g) := by simp [wC, hcv, wV]
    rw [this, hcv]
  | atom a => exact hgen (by rw [hcv]; simp)
  | arr a => exact hgen (by rw [hcv]; simp)
  | arr2 a => exact hgen (by rw [hcv]; simp)

mutual
theorem mergeFields_w (n s : Str) : ∀ (fs : List (Str × Tree)) (base : Fields), (mergeFields s (wF n fs) (wF n base)).1 = wF n (mergeFields s fs base).1
  | [], base => by simp [wF, mergeFields]
  | (k, v) :: r, base => by
    simp only [wF, mergeFields, wF_get]
    cases hg : Dict.get base k with
    | none =>
      simp only [Option.map_none]
      rw [wF_set]
      exact mergeFields_w n s r _
    | some bv =>
      simp only [Option.map_some]
      have h1 : (mergeTree s k (underT (k = n) (wT n v)) (underT (k = n) (wT n bv))).1 = underT (k = n) (wT n (mergeTree s k v bv).1) := by
        by_cases hk : k = n
        · simp only [hk, decide_true, underT, if_true, mergeTree, mergeFields, Dict.get_cons, Dict.set]
          rw [mergeTree_w n s v bv n s%"text()"]
        · simp only [hk, decide_false, underT, Bool.false_eq_true, if_false]
          exact mergeTree_w n s v bv k k
      rw [h1, wF_set]
      exact mergeFields_w n s r _
theorem mergeTree_w (n s : Str) : ∀ (v bv : Tree) (key key' : Str), (mergeTree s key' (wT n v) (wT n bv)).1 = wT n (mergeTree s key v bv).1
  | .cell c, bv, key, key' => by
    simp only [wT, mergeTree]
    exact mergeCell_w n s key key' c bv
  | .obj fs, bv, key, key' => by
    cases bv with
    | cell b => simp [wT, mergeTree]
    | tmp x y => simp [wT, mergeTree]
    | obj bfs => simp only [wT, mergeTree]; rw [mergeFields_w n s fs bfs]
  | .tmp ks rest, bv, key, key' => by
    cases bv with
    | cell b => simp [wT, mergeTree]
    | obj b => simp [wT, mergeTree]
    | tmp bk br => simp only [wT, mergeTree]; rw [mergeKeyed_w n s ks bk, wL_append]
theorem mergeKeyed_w (n s : Str) : ∀ (ks : List (Val × List (Str × Tree))) (bk : List (Val × Fields)), (mergeKeyed s (wK n ks) (wK n bk)).1 = wK n (mergeKeyed s ks bk).1
  | [], bk => by simp [wK, mergeKeyed]
  | (k, fs) :: r, bk => by
    simp only [wK, mergeKeyed, wK_get]
    cases hg : keyGet bk k with
    | none =>
      simp only [Option.map_none]
      rw [wK_set]
      exact mergeKeyed_w n s r _
    | some bfs =>
      simp only [Option.map_some]
      rw [mergeFields_w n s fs bfs, wK_set]
      exact mergeKeyed_w n s r _
end

/-! ### The run -/

/-- The options of the two runs. -/
structure XRun (n : Str) (cfg cfg' : UnCfg) : Prop where
  xml : cfg.row.xml = true
  json : cfg'.row.xml = false
  types : cfg.row.types = fun _ => none
  types' : cfg'.row.types = fun _ => none
  conv : cfg'.row.conv = cfg.row.conv
  name : cfg.idName = some n
  name' : cfg'.idName = some n
  root : cfg.rootId = none
  root' : cfg'.rootId = none

theorem rowKey_w {n : Str} {fs : Fields} {k : Option Val} (h : rowKey (some n) false fs = .ok k) : rowKey (some n) true (wF n fs) = .ok (k.map (wV n)) := by
  unfold rowKey at h ⊢
  simp only [wF_get] at h ⊢
  cases hg : Dict.get fs n with
  | none => rw [hg] at h; cases h; rfl
  | some t =>
    rw [hg] at h
    cases t with
    | cell c =>
      simp only [Option.map_some, decide_true, underT, if_true, wT, Dict.get_cons]
      cases h; rfl
    | obj g => simp at h
    | tmp a b => simp at h

theorem addToGroup_w {n : Str} {cfg cfg' : UnCfg} (hc : XRun n cfg cfg') {s : Str} {fs : Fields} {td td' : TDict} {w : List Warn}
    (h : addToGroup cfg' s fs td = .ok (td', w)) : ∃ w', addToGroup cfg s (wF n fs) (wD n td) = .ok (wD n td', w') := by
  unfold addToGroup at h ⊢
  rw [hc.name', hc.json] at h
  rw [hc.name, hc.xml]
  cases hk : rowKey (some n) false fs with
  | error e => rw [hk] at h; cases h
  | ok k =>
    rw [hk] at h
    rw [rowKey_w hk]
    have happ : ∀ {td1}, td.append (some n) false fs = .ok td1 → (wD n td).append (some n) true (wF n fs) = .ok (wD n td1) := fun h => append_w h
    cases k with
    | none =>
      simp only at h ⊢
      cases ha : td.append (some n) false fs with
      | error e => rw [ha] at h; cases h
      | ok td1 =>
        rw [ha] at h
        cases h
        rw [happ ha]
        exact ⟨_, rfl⟩
    | some k =>
      simp only [Option.map_some, wV_hashable] at h ⊢
      by_cases hh : (!k.hashable) = true
      · rw [if_pos hh] at h; cases h
      · rw [if_neg hh] at h ⊢
        rw [wV_of_hashable (by simpa using hh)]
        have hg' : keyGet (wD n td).keyed k = (keyGet td.keyed k).map (wF n) := wK_get n td.keyed k
        rw [hg']
        cases hg : keyGet td.keyed k with
        | none =>
          rw [hg] at h
          simp only [Option.map_none] at h ⊢
          cases ha : td.append (some n) false fs with
          | error e => rw [ha] at h; cases h
          | ok td1 =>
            rw [ha] at h
            cases h
            rw [happ ha]
            exact ⟨_, rfl⟩
        | some base =>
          rw [hg] at h
          simp only [Except.ok.injEq, Prod.mk.injEq, Option.map_some] at h ⊢
          obtain ⟨h1, h2⟩ := h
          subst h1
          refine ⟨_, ?_, rfl⟩
          rw [mergeFields_w]
          simp [wD, wK_set]

/-- The groups. -/
def wG (n : Str) (gs : Groups) : Groups := gs.map (fun e => (e.1, wD n e.2))

theorem addRow_w {n : Str} {cfg cfg' : UnCfg} (hc : XRun n cfg cfg') {s : Str} {root : Val} {fs : Fields} {gs gs' : Groups} {w : List Warn}
    (h : addRow cfg' s root fs gs = .ok (gs', w)) : ∃ w', addRow cfg s root (wF n fs) (wG n gs) = .ok (wG n gs', w') := by
  unfold addRow at h ⊢
  have hg : (keyGet (wG n gs) root).getD {} = wD n ((keyGet gs root).getD {}) := by
    unfold wG
    rw [keyGet_map]
    cases keyGet gs root with
    | none => simp [wD_empty]
    | some td => rfl
  rw [hg]
  cases ha : addToGroup cfg' s fs ((keyGet gs root).getD {}) with
  | error e => rw [ha] at h; cases h
  | ok p =>
    obtain ⟨td, w0⟩ := p
    rw [ha] at h
    simp only [Except.ok.injEq, Prod.mk.injEq] at h
    obtain ⟨w', h1⟩ := addToGroup_w hc ha
    rw [h1]
    refine ⟨w', ?_⟩
    simp only [Except.ok.injEq, Prod.mk.injEq, and_true]
    rw [← h.1]
    exact keySet_map (wD n) gs root td

/-- The rows. -/
def wRow (n : Str) (r : Row) : Row := ⟨r.sheet, r.root, wF n r.fields, []⟩

theorem foldRows_w {n : Str} {cfg cfg' : UnCfg} (hc : XRun n cfg cfg') (rs : List Row) {gs gs' : Groups} {w : List Warn}
    (h : foldRows cfg' rs gs = .ok (gs', w)) : ∃ w', foldRows cfg (rs.map (wRow n)) (wG n gs) = .ok (wG n gs', w') := by
  induction rs generalizing gs gs' w with
  | nil =>
    simp only [foldRows, Except.ok.injEq, Prod.mk.injEq] at h
    exact ⟨[], by simp [foldRows, h.1]⟩
  | cons r rs ih =>
    simp only [foldRows, List.map_cons] at h ⊢
    cases ha : addRow cfg' r.sheet r.root r.fields gs with
    | error e => rw [ha] at h; cases h
    | ok p =>
      obtain ⟨g1, w1⟩ := p
      rw [ha] at h
      simp only at h
      obtain ⟨w1', h1⟩ := addRow_w hc ha
      cases hb : foldRows cfg' rs g1 with
      | error e => rw [hb] at h; cases h
      | ok q =>
        obtain ⟨g2, w2⟩ := q
        rw [hb] at h
        simp only [Except.ok.injEq, Prod.mk.injEq] at h
        obtain ⟨w2', h2⟩ := ih hb
        refine ⟨w1' ++ w2', ?_⟩
        simp only [wRow]
        rw [h1]
        simp only
        have h3 : foldRows cfg (rs.map (wRow n)) (wG n g1) = .ok (wG n g2, w2') := h2
        rw [h3, ← h.1]

/-! ### The result -/

theorem wJF_append (n : Str) (a b : List (Str × Json)) : wJF n (a ++ b) = wJF n a ++ wJF n b := by
  induction a with
  | nil => simp [wJF]
  | cons e r ih => obtain ⟨k, v⟩ := e; simp [wJF, ih]

mutual
theorem value_wT (n : Str) : ∀ t : Tree, treeToValue (treeToLists (wT n t)) = wJ n (treeToValue (treeToLists t))
  | .cell c => by simp only [wT, treeToLists, treeToValue, wC]; exact wV_toJson n c.value
  | .obj fs => by simp only [wT, treeToLists, treeToValue, wJ]; rw [value_wF n fs]
  | .tmp ks rest => by
    have h : ∀ a b, listToValue (a ++ b) = listToValue a ++ listToValue b := by
      intro a b
      induction a with
      | nil => simp [listToValue]
      | cons e r ih => simp [listToValue, ih]
    have h' : ∀ a b, wJI n (a ++ b) = wJI n a ++ wJI n b := by
      intro a b
      induction a with
      | nil => simp [wJI]
      | cons e r ih => simp [wJI, ih]
    simp only [wT, treeToLists, treeToValue, wJ, h, h']
    rw [value_wK n ks, value_wL n rest]
theorem value_wF (n : Str) : ∀ fs : List (Str × Tree), toValue (toLists (wF n fs)) = wJF n (toValue (toLists fs))
  | [] => by simp [wF, toLists, toValue, wJF]
  | (k, t) :: r => by
    simp only [wF, toLists, toValue, wJF]
    rw [value_wF n r]
    congr 2
    by_cases hk : k = n
    · simp only [hk, decide_true, underT, underJ, if_true, treeToLists, toLists, treeToValue, toValue]
      rw [value_wT n t]
    · simp only [hk, decide_false, underT, underJ, Bool.false_eq_true, if_false]
      exact value_wT n t
theorem value_wK (n : Str) : ∀ ks : List (Val × List (Str × Tree)), listToValue (keyedToLists (wK n ks)) = wJI n (listToValue (keyedToLists ks))
  | [] => by simp [wK, keyedToLists, listToValue, wJI]
  | (k, fs) :: r => by
    simp only [wK, keyedToLists, listToValue, wJI, wJ]
    rw [value_wK n r, value_wF n fs]
theorem value_wL (n : Str) : ∀ l : List (List (Str × Tree)), listToValue (itemsToLists (wL n l)) = wJI n (listToValue (itemsToLists l))
  | [] => by simp [wL, itemsToLists, listToValue, wJI]
  | fs :: r => by
    simp only [wL, itemsToLists, listToValue, wJI, wJ]
    rw [value_wL n r, value_wF n fs]
end

theorem listToValue_append (a b : List (List (Str × CTree))) : listToValue (a ++ b) = listToValue a ++ listToValue b := by
  induction a with
  | nil => simp [listToValue]
  | cons e r ih => simp [listToValue, ih]

theorem wJI_append (n : Str) (a b : List Json) : wJI n (a ++ b) = wJI n a ++ wJI n b := by
  induction a with
  | nil => simp [wJI]
  | cons e r ih => simp [wJI, ih]

theorem value_wG (n : Str) (gs : Groups) : listToValue (groupsToList (wG n gs)) = wJI n (listToValue (groupsToList gs)) := by
  induction gs with
  | nil => simp [wG, groupsToList, listToValue, wJI]
  | cons g r ih =>
    simp only [wG, groupsToList, List.map_cons, List.flatMap_cons, listToValue_append, wJI_append, wD] at ih ⊢
    rw [value_wK, value_wL, ih]

/-! ### The document -/

theorem wJI_map (n : Str) (l : List Json) : wJI n l = l.map (wJ n) := by
  induction l with
  | nil => simp [wJI]
  | cons e r ih => simp [wJI, ih]

theorem wJF_map (n : Str) (l : List (Str × Json)) : wJF n l = l.map (fun e => (e.1, underJ (e.1 = n) (wJ n e.2))) := by
  induction l with
  | nil => simp [wJF]
  | cons e r ih => obtain ⟨k, v⟩ := e; simp [wJF, ih]

theorem rearranged_under {b : Bool} {x y : Json} (h : Rearranged x y) : Rearranged (underJ b x) (underJ b y) := by
  cases b with
  | false => exact h
  | true => exact .obj (.cons h .nil) (List.Perm.refl _)

mutual
theorem rearranged_w {n : Str} : {x y : Json} → Rearranged x y → Rearranged (wJ n x) (wJ n y)
  | _, _, .leaf => by simp only [wJ]; exact .leaf
  | _, _, .obj h hp => by
    simp only [wJ]
    refine .obj (rearrangedF_w h) ?_
    rw [wJF_map, wJF_map]
    exact hp.map _
  | _, _, .arr h hp ho => by
    simp only [wJ]
    refine .arr (rearrangedI_w h) ?_ ?_
    · rw [wJI_map, wJI_map]
      exact hp.map _
    · rcases ho with ho | rfl
      · left
        intro x hx
        rw [wJI_map] at hx
        obtain ⟨y, hy, rfl⟩ := List.mem_map.1 hx
        obtain ⟨gs, rfl⟩ := ho y hy
        exact ⟨wJF n gs, by simp only [wJ]⟩
      · exact .inr rfl
theorem rearrangedF_w {n : Str} : {x y : List (Str × Json)} → RearrangedFields x y → RearrangedFields (wJF n x) (wJF n y)
  | _, _, .nil => by simp only [wJF]; exact .nil
  | _, _, .cons h hr => by simp only [wJF]; exact .cons (rearranged_under (rearranged_w h)) (rearrangedF_w hr)
theorem rearrangedI_w {n : Str} : {x y : List Json} → RearrangedItems x y → RearrangedItems (wJI n x) (wJI n y)
  | _, _, .nil => by simp only [wJI]; exact .nil
  | _, _, .cons h hr => by simp only [wJI]; exact .cons (rearranged_w h) (rearrangedI_w hr)
end

mutual
theorem withText_fields {n : Str} (hn : isAttribute n = false ∧ n ≠ s%"#text" ∧ n ≠ s%"text()") : {fs gs : List (Str × Json)} → XmlFields n fs gs → withTextF fs = wJF n gs
  | _, _, .nil => by simp [withTextF, wJF]
  | _, _, .attr (k := k) hk _ hr => by
    have h1 : k ≠ n := by rintro rfl; rw [hk] at hn; exact absurd hn.1 (by simp)
    have h2 : k ≠ s%"#text" := by rintro rfl; revert hk; decide
    simp only [withTextF, wJF, h1, decide_false, underJ, if_neg h2, withText, wJ, Bool.false_eq_true, if_false]
    rw [withText_fields hn hr]
  | _, _, .text => by
    have h1 : s%"text()" ≠ n := fun e => hn.2.2 e.symm
    simp only [withTextF, wJF, if_true, withText, wJ, decide_eq_false h1, underJ, Bool.false_eq_true, if_false]
  | _, _, .id hr => by
    simp only [withTextF, wJF, if_neg hn.2.1, withText, wJ, decide_true, underJ, if_true]
    rw [withText_fields hn hr]
  | _, _, .one (k := k) hk hf hr => by
    obtain ⟨-, -, -, h4, -, h6⟩ := hk
    simp only [withTextF, wJF, if_neg h4, withText, wJ, decide_eq_false h6, underJ, Bool.false_eq_true, if_false]
    rw [withText_fields hn hf, withText_fields hn hr]
  | _, _, .many (k := k) hk _ hi hr => by
    obtain ⟨-, -, -, h4, -, h6⟩ := hk
    simp only [withTextF, wJF, if_neg h4, withText, wJ, decide_eq_false h6, underJ, Bool.false_eq_true, if_false]
    rw [withText_items hn hi, withText_fields hn hr]
theorem withText_items {n : Str} (hn : isAttribute n = false ∧ n ≠ s%"#text" ∧ n ≠ s%"text()") : {l m : List Json} → XmlItems n l m → withTextI l = wJI n m
  | _, _, .nil => by simp [withTextI, wJI]
  | _, _, .cons hf hr => by
    simp only [withTextI, wJI, withText, wJ]
    rw [withText_fields hn hf, withText_items hn hr]
end

end Verif
