import Verif.Proofs.Embed
/-! Cell locations only travel along: moving every cell elsewhere (keeping its heading) changes
neither values nor warnings. -/
namespace Verif
open Spec

/-- The cell, found elsewhere. -/
def Cell.reloc (g : Loc → Loc) (c : Cell) : Cell :=
  { value := c.value, loc := g c.loc, sub := c.sub.map (fun s => (s.1, g s.2)) }

@[simp] theorem Cell.reloc_value (g : Loc → Loc) (c : Cell) : (c.reloc g).value = c.value := rfl
@[simp] theorem Cell.reloc_loc (g : Loc → Loc) (c : Cell) : (c.reloc g).loc = g c.loc := rfl

mutual
def rl (g : Loc → Loc) : RTree → RTree
  | .cell c => .cell (c.reloc g)
  | .obj fs => .obj (rlF g fs)
  | .lad is => .lad (rlI g is)
def rlF (g : Loc → Loc) : List (Str × RTree) → List (Str × RTree)
  | [] => []
  | (k, t) :: r => (k, rl g t) :: rlF g r
def rlI (g : Loc → Loc) : List (Int × List (Str × RTree)) → List (Int × List (Str × RTree))
  | [] => []
  | (i, fs) :: r => (i, rlF g fs) :: rlI g r
end

theorem rlF_eq (g : Loc → Loc) (fs : RFields) : rlF g fs = fs.map (fun e => (e.1, rl g e.2)) := by
  induction fs with
  | nil => simp [rlF]
  | cons e r ih => obtain ⟨k, t⟩ := e; simp [rlF, ih]

theorem rlI_eq (g : Loc → Loc) (is : List (Int × RFields)) : rlI g is = is.map (fun e => (e.1, rlF g e.2)) := by
  induction is with
  | nil => simp [rlI]
  | cons e r ih => obtain ⟨k, t⟩ := e; simp [rlI, ih]

theorem Dict.set_map {κ α β : Type} [DecidableEq κ] (f : α → β) (d : List (κ × α)) (k : κ) (v : α) :
    Dict.set (d.map (fun e => (e.1, f e.2))) k (f v) = (Dict.set d k v).map (fun e => (e.1, f e.2)) := by
  induction d with
  | nil => simp [Dict.set]
  | cons e r ih =>
    obtain ⟨j, w⟩ := e
    simp only [List.map_cons, Dict.set]
    split
    · simp
    · simp [ih]

theorem rlF_get (g : Loc → Loc) (fs : RFields) (k : Str) : Dict.get (rlF g fs) k = (Dict.get fs k).map (rl g) := by
  rw [rlF_eq, Dict.get_map]
theorem rlI_get (g : Loc → Loc) (fs : List (Int × RFields)) (k : Int) : Dict.get (rlI g fs) k = (Dict.get fs k).map (rlF g) := by
  rw [rlI_eq, Dict.get_map]
theorem rlF_set (g : Loc → Loc) (fs : RFields) (k : Str) (t : RTree) :
    Dict.set (rlF g fs) k (rl g t) = rlF g (Dict.set fs k t) := by
  rw [rlF_eq, rlF_eq, Dict.set_map]
theorem rlI_set (g : Loc → Loc) (fs : List (Int × RFields)) (k : Int) (t : RFields) :
    Dict.set (rlI g fs) k (rlF g t) = rlI g (Dict.set fs k t) := by
  rw [rlI_eq, rlI_eq, Dict.set_map]

/-- Both sides fail alike or succeed with related results. -/
def Except.Rel {ε α β : Type} (R : α → β → Prop) : Except ε α → Except ε β → Prop
  | .ok a, .ok b => R a b
  | .error e, .error e' => e = e'
  | _, _ => False

theorem putCell_reloc (g : Loc → Loc) (cfg : RowCfg) (ty : Option CType) (item : Str) (cell : Cell) (cur : RFields) :
    putCell cfg ty item (cell.reloc g) (rlF g cur) = (putCell cfg ty item cell cur).map (rlF g) := by
  have hc : ∀ fs, Dict.set (rlF g fs) s%"text()" (RTree.cell (cell.reloc g)) = rlF g (Dict.set fs s%"text()" (.cell cell)) := by
    intro fs; rw [← rlF_set]; simp [rl]
  have hc' : ∀ fs i, Dict.set (rlF g fs) i (RTree.cell (cell.reloc g)) = rlF g (Dict.set fs i (.cell cell)) := by
    intro fs i; rw [← rlF_set]; simp [rl]
  have ho : ∀ fs i x, Dict.set (rlF g fs) i (RTree.obj (rlF g x)) = rlF g (Dict.set fs i (.obj x)) := by
    intro fs i x; rw [← rlF_set]; simp [rl]
  unfold putCell
  by_cases hx : cfg.xml = true
  · simp only [hx, if_true]
    split
    · simp [Except.map, hc']
    · split
      · simp [Except.map, hc']
      · rw [rlF_get]
        cases hg : Dict.get cur item with
        | none => 
          simp only [Option.map_none, Except.map]
          rw [← ho]; simp [rlF, rl]
        | some t =>
          cases t with
          | obj fs => simp [rl, Except.map, hc', ho]
          | cell c => simp [rl, Except.map]
          | lad is => simp [rl, Except.map]
  · simp [hx, Except.map, hc']

theorem leafBlocked_reloc (g : Loc → Loc) (xml : Bool) (t : Option RTree) :
    leafBlocked xml (t.map (rl g)) = leafBlocked xml t := by
  cases t with
  | none => rfl
  | some t => cases t <;> simp [rl, leafBlocked]

theorem placeLeaf_reloc (g : Loc → Loc) (cfg : RowCfg) (ty : Option CType) (till item : Str) (cell : Cell) (cur : RFields) :
    placeLeaf cfg ty till item (cell.reloc g) (rlF g cur) =
      (placeLeaf cfg ty till item cell cur).map (fun r => (rlF g r.1, r.2.1.reloc g, r.2.2)) := by
  unfold placeLeaf
  rw [rlF_get, leafBlocked_reloc]
  split
  · simp [Except.map]
  · simp only [Cell.reloc_value]
    cases hc : convertCell cfg ty cell.value with
    | error e => simp [Except.map]
    | ok vw =>
      obtain ⟨v, w⟩ := vw
      simp only
      split
      · simp [Except.map, Cell.reloc]
      · have := putCell_reloc g cfg ty item { cell with value := v } cur
        simp only [Cell.reloc] at this ⊢
        rw [this]
        cases putCell cfg ty item { cell with value := v } cur <;> simp [Except.map]

theorem mapW_map {m : RFields → RFields} {f f' : RFields → RFields} (w : List Warn)
    (hf : ∀ c, f' (m c) = m (f c)) (r : Except Err (RFields × List Warn)) :
    mapW f' w (r.map (fun r => (m r.1, r.2))) = (mapW f w r).map (fun r => (m r.1, r.2)) := by
  cases r <;> simp [mapW, Except.map, hf]

theorem ladAt_reloc (g : Loc → Loc) (cur : RFields) (item : Str) :
    ladAt (rlF g cur) item = (ladAt cur item).map (rlI g) := by
  unfold ladAt; rw [rlF_get]
  cases Dict.get cur item with
  | none => simp [rlI]
  | some t => cases t <;> simp [rl]

theorem objAt_reloc (g : Loc → Loc) (cur : RFields) (item : Str) :
    objAt (rlF g cur) item = (objAt cur item).map (rlF g) := by
  unfold objAt; rw [rlF_get]
  cases Dict.get cur item with
  | none => simp [rlF]
  | some t => cases t <;> simp [rl]

theorem place_reloc (g : Loc → Loc) (cfg : RowCfg) (path : Str) (comps pre : List Str) (cell : Cell) (cur : RFields) :
    place cfg path pre comps (cell.reloc g) (rlF g cur) =
      (place cfg path pre comps cell cur).map (fun r => (rlF g r.1, r.2)) := by
  induction comps generalizing pre cell cur with
  | nil => simp [place, Except.map]
  | cons item rest ih =>
    have hct : ∀ till next, currentType cfg path till (cell.reloc g) next = currentType cfg path till cell next := by
      intro till next; rfl
    have hset : ∀ x, Dict.set (rlF g cur) item (RTree.obj (rlF g x)) = rlF g (Dict.set cur item (.obj x)) := by
      intro x; rw [← rlF_set]; simp [rl]
    have hsetl : ∀ is i x, Dict.set (rlF g cur) item (RTree.lad (Dict.set (rlI g is) i (rlF g x))) =
        rlF g (Dict.set cur item (.lad (Dict.set is i x))) := by
      intro is i x; rw [rlI_set, ← rlF_set]; simp [rl]
    have hinner : ∀ (is : List (Int × RFields)) i, (Dict.get (rlI g is) i).getD [] = rlF g ((Dict.get is i).getD []) := by
      intro is i; rw [rlI_get]; cases Dict.get is i <;> simp [rlF]
    simp only [place, hct, ladAt_reloc, objAt_reloc]
    split
    · rw [ih, mapW_map (m := rlF g) (f := id) (f' := id) _ (fun c => rfl)]
    · split
      · simp [Except.map]
      · split
        · next idx hidx =>
          cases hla : ladAt cur item with
          | none => simp [Except.map]
          | some is =>
            simp only [Option.map_some, hinner]
            split
            · rw [ih, mapW_map]; intro c; rw [hsetl]
            · rw [placeLeaf_reloc]
              cases placeLeaf cfg (some .array) (pathTillNow (pre ++ [item])) item cell ((Dict.get is idx).getD []) with
              | error e => simp [Except.map]
              | ok r =>
                obtain ⟨i1, c', w1⟩ := r
                simp only [Except.map]
                rw [ih, mapW_map]; rfl; intro c; rw [hsetl]
        · split
          · cases hob : objAt cur item with
            | none => simp [Except.map]
            | some fs =>
              simp only [Option.map_some]
              rw [ih, mapW_map]; intro c; rw [hset]
          · split
            · simp [Except.map]
            · rw [placeLeaf_reloc]
              cases placeLeaf cfg (currentType cfg path (pathTillNow (pre ++ [item])) cell (rest.headD [])) (pathTillNow (pre ++ [item])) item cell cur with
              | error e => simp [Except.map]
              | ok r =>
                obtain ⟨i1, c', w1⟩ := r
                simp only [Except.map]
                rw [ih, mapW_map]; rfl; intro c; rfl

theorem placeAll_reloc (g : Loc → Loc) (cfg : RowCfg) (cells : List (Str × Cell)) (cur : RFields) :
    placeAll cfg (cells.map (fun e => (e.1, e.2.reloc g))) (rlF g cur) =
      (placeAll cfg cells cur).map (fun r => (rlF g r.1, r.2)) := by
  induction cells generalizing cur with
  | nil => simp [placeAll, Except.map]
  | cons e r ih =>
    obtain ⟨path, cell⟩ := e
    simp only [List.map_cons, placeAll, Cell.reloc_value]
    by_cases hb : cell.value.blank = true
    · simp only [hb, if_true]; exact ih cur
    · simp only [hb, Bool.false_eq_true, if_false]
      rw [place_reloc]
      cases place cfg path [] (pathList path) cell cur with
      | error e => simp [Except.map]
      | ok r1 =>
        obtain ⟨c1, w1⟩ := r1
        simp only [Except.map]
        rw [ih]
        cases placeAll cfg r c1 <;> simp [Except.map]

/-! ### Trees -/

mutual
def tl (g : Loc → Loc) : Tree → Tree
  | .cell c => .cell (c.reloc g)
  | .obj fs => .obj (tlF g fs)
  | .tmp keyed rest => .tmp (tlK g keyed) (tlI g rest)
def tlF (g : Loc → Loc) : List (Str × Tree) → List (Str × Tree)
  | [] => []
  | (k, t) :: r => (k, tl g t) :: tlF g r
def tlK (g : Loc → Loc) : List (Val × List (Str × Tree)) → List (Val × List (Str × Tree))
  | [] => []
  | (k, fs) :: r => (k, tlF g fs) :: tlK g r
def tlI (g : Loc → Loc) : List (List (Str × Tree)) → List (List (Str × Tree))
  | [] => []
  | fs :: r => tlF g fs :: tlI g r
end

theorem tlF_eq (g : Loc → Loc) (fs : Fields) : tlF g fs = fs.map (fun e => (e.1, tl g e.2)) := by
  induction fs with
  | nil => simp [tlF]
  | cons e r ih => obtain ⟨k, t⟩ := e; simp [tlF, ih]
theorem tlK_eq (g : Loc → Loc) (fs : List (Val × Fields)) : tlK g fs = fs.map (fun e => (e.1, tlF g e.2)) := by
  induction fs with
  | nil => simp [tlK]
  | cons e r ih => obtain ⟨k, t⟩ := e; simp [tlK, ih]
theorem tlI_eq (g : Loc → Loc) (fs : List Fields) : tlI g fs = fs.map (tlF g) := by
  induction fs with
  | nil => simp [tlI]
  | cons e r ih => simp [tlI, ih]

theorem tlF_get (g : Loc → Loc) (fs : Fields) (k : Str) : Dict.get (tlF g fs) k = (Dict.get fs k).map (tl g) := by
  rw [tlF_eq, Dict.get_map]
theorem tlF_set (g : Loc → Loc) (fs : Fields) (k : Str) (t : Tree) :
    Dict.set (tlF g fs) k (tl g t) = tlF g (Dict.set fs k t) := by
  rw [tlF_eq, tlF_eq, Dict.set_map]

theorem keyGet_map {α β : Type} (f : α → β) (d : List (Val × α)) (k : Val) :
    keyGet (d.map (fun e => (e.1, f e.2))) k = (keyGet d k).map f := by
  induction d with
  | nil => rfl
  | cons e r ih => obtain ⟨j, v⟩ := e; simp only [List.map_cons, keyGet_cons, ih]; split <;> simp

theorem keySet_map {α β : Type} (f : α → β) (d : List (Val × α)) (k : Val) (v : α) :
    keySet (d.map (fun e => (e.1, f e.2))) k (f v) = (keySet d k v).map (fun e => (e.1, f e.2)) := by
  induction d with
  | nil => rfl
  | cons e r ih => obtain ⟨j, w⟩ := e; simp only [List.map_cons, keySet, ih]; split <;> simp

theorem tlK_get (g : Loc → Loc) (d : List (Val × Fields)) (k : Val) : keyGet (tlK g d) k = (keyGet d k).map (tlF g) := by
  rw [tlK_eq, keyGet_map]
theorem tlK_set (g : Loc → Loc) (d : List (Val × Fields)) (k : Val) (t : Fields) :
    keySet (tlK g d) k (tlF g t) = tlK g (keySet d k t) := by
  rw [tlK_eq, tlK_eq, keySet_map]
theorem tlF_update (g : Loc → Loc) (a b : Fields) : Dict.update (tlF g a) (tlF g b) = tlF g (Dict.update a b) := by
  unfold Dict.update
  induction b generalizing a with
  | nil => simp [tlF]
  | cons e r ih => obtain ⟨k, t⟩ := e; simp only [tlF, List.foldl_cons, tlF_set, ih]
theorem tlK_append (g : Loc → Loc) (a b : List (Val × Fields)) : tlK g (a ++ b) = tlK g a ++ tlK g b := by simp [tlK_eq]
theorem tlI_append (g : Loc → Loc) (a b : List Fields) : tlI g (a ++ b) = tlI g a ++ tlI g b := by simp [tlI_eq]

def TDict.reloc (g : Loc → Loc) (td : TDict) : TDict := { keyed := tlK g td.keyed, rest := tlI g td.rest }

theorem itemKey_reloc (g : Loc → Loc) (n : Option Str) (xml : Bool) (fs : Fields) :
    itemKey n xml (tlF g fs) = itemKey n xml fs := by
  unfold itemKey
  cases n with
  | none => rfl
  | some m =>
    simp only [tlF_get]
    cases Dict.get fs m with
    | none => rfl
    | some t =>
      cases t with
      | cell c => simp [tl]
      | tmp a b => simp [tl]
      | obj fs =>
        simp only [Option.map_some, tl, tlF_get]
        cases xml with
        | false => rfl
        | true =>
          simp only [if_true]
          cases Dict.get fs s%"text()" with
          | none => rfl
          | some t => cases t <;> simp [tl]

theorem append_reloc (g : Loc → Loc) (n : Option Str) (xml : Bool) (td : TDict) (fs : Fields) :
    (td.reloc g).append n xml (tlF g fs) = (td.append n xml fs).map (TDict.reloc g) := by
  unfold TDict.append
  rw [itemKey_reloc]
  cases itemKey n xml fs with
  | error e => simp [Except.map]
  | ok k =>
    cases k with
    | none => simp [Except.map, TDict.reloc, tlI_append, tlI]
    | some k =>
      simp only
      split
      · simp [Except.map]
      · simp only [TDict.reloc, tlK_get]
        cases keyGet td.keyed k with
        | none => simp [Except.map, tlK_append, tlK, TDict.reloc]
        | some old => simp [Except.map, tlF_update, tlK_set, TDict.reloc]

theorem appendAll_reloc (g : Loc → Loc) (n : Option Str) (xml : Bool) (is : List Fields) (td : TDict) :
    appendAll n xml (tlI g is) (td.reloc g) = (appendAll n xml is td).map (TDict.reloc g) := by
  induction is generalizing td with
  | nil => simp [appendAll, tlI, Except.map]
  | cons i r ih =>
    simp only [tlI, appendAll]
    rw [append_reloc]
    cases td.append n xml i with
    | error e => simp [Except.map]
    | ok td' => simp only [Except.map]; exact ih td'

theorem insertIdx_map {α β : Type} (f : α → β) (x : Int × α) (l : List (Int × α)) :
    insertIdx (x.1, f x.2) (l.map (fun e => (e.1, f e.2))) = (insertIdx x l).map (fun e => (e.1, f e.2)) := by
  induction l with
  | nil => rfl
  | cons y r ih => simp only [List.map_cons, insertIdx, ih]; split <;> simp

theorem sortIdx_map {α β : Type} (f : α → β) (l : List (Int × α)) :
    sortIdx (l.map (fun e => (e.1, f e.2))) = (sortIdx l).map (fun e => (e.1, f e.2)) := by
  induction l with
  | nil => rfl
  | cons y r ih => simp only [List.map_cons, sortIdx, ih, insertIdx_map]

mutual
theorem toTemp_reloc (g : Loc → Loc) (n : Option Str) (xml : Bool) : ∀ fs : List (Str × RTree),
    toTemp n xml (rlF g fs) = (toTemp n xml fs).map (tlF g)
  | [] => by simp [rlF, toTemp, Except.map, tlF]
  | (k, .cell c) :: r => by
    simp only [rlF, rl, toTemp]
    rw [toTemp_reloc g n xml r]
    cases toTemp n xml r <;> simp [Except.map, tlF, tl]
  | (k, .obj fs) :: r => by
    have he : (rlF g fs).isEmpty = fs.isEmpty := by cases fs <;> simp [rlF]
    simp only [rlF, rl, toTemp, he]
    rw [toTemp_reloc g n xml r, toTemp_reloc g n xml fs]
    split
    · rfl
    · cases toTemp n xml fs with
      | error e => simp [Except.map]
      | ok a =>
        simp only [Except.map]
        cases toTemp n xml r <;> simp [tlF, tl]
  | (k, .lad is) :: r => by
    simp only [rlF, rl, toTemp]
    rw [toTempItems_reloc g n xml is]
    cases toTempItems n xml is with
    | error e => simp [Except.map]
    | ok a =>
      have h1 : (sortIdx (a.map (fun e => (e.1, tlF g e.2)))).map (·.2) = tlI g ((sortIdx a).map (·.2)) := by
        rw [sortIdx_map, tlI_eq]; simp
      have h2 := appendAll_reloc g n xml ((sortIdx a).map (·.2)) {}
      have h3 : TDict.reloc g {} = {} := by simp [TDict.reloc, tlK, tlI]
      rw [h3] at h2
      simp only [Except.map, h1, h2]
      cases appendAll n xml ((sortIdx a).map (·.2)) {} with
      | error e => simp
      | ok td =>
        simp only
        rw [toTemp_reloc g n xml r]
        cases toTemp n xml r <;> simp [Except.map, tlF, tl, TDict.reloc]
theorem toTempItems_reloc (g : Loc → Loc) (n : Option Str) (xml : Bool) : ∀ is : List (Int × List (Str × RTree)),
    toTempItems n xml (rlI g is) = (toTempItems n xml is).map (fun l => l.map (fun e => (e.1, tlF g e.2)))
  | [] => by simp [rlI, toTempItems, Except.map]
  | (i, fs) :: r => by
    have he : (rlF g fs).isEmpty = fs.isEmpty := by cases fs <;> simp [rlF]
    simp only [rlI, toTempItems, he]
    rw [toTempItems_reloc g n xml r, toTemp_reloc g n xml fs]
    split
    · rfl
    · cases toTemp n xml fs with
      | error e => simp [Except.map]
      | ok a =>
        simp only [Except.map]
        cases toTempItems n xml r <;> simp
end

theorem unflattenRow_reloc (g : Loc → Loc) (cfg : RowCfg) (n : Option Str) (cells : List (Str × Cell)) :
    unflattenRow cfg n (cells.map (fun e => (e.1, e.2.reloc g))) =
      (unflattenRow cfg n cells).map (fun r => (tlF g r.1, r.2)) := by
  unfold unflattenRow
  have := placeAll_reloc g cfg cells []
  simp only [rlF] at this
  rw [this]
  cases placeAll cfg cells [] with
  | error e => simp [Except.map]
  | ok r =>
    obtain ⟨c, w⟩ := r
    simp only [Except.map]
    rw [toTemp_reloc]
    cases toTemp n cfg.xml c <;> simp [Except.map]

/-! ### Merging -/

section
variable {g : Loc → Loc} (hg : ∀ l, (g l).heading = l.heading)
include hg

mutual
theorem ignoredWarns_reloc (why : Why) : ∀ t, ignoredWarns why (tl g t) = ignoredWarns why t
  | .cell c => by simp [tl, ignoredWarns, hg]
  | .obj fs => by simp [tl, ignoredWarns, ignoredWarnsFields_reloc why fs]
  | .tmp a b => by simp [tl, ignoredWarns, ignoredWarnsKeyed_reloc why a, ignoredWarnsItems_reloc why b]
theorem ignoredWarnsFields_reloc (why : Why) : ∀ t, ignoredWarnsFields why (tlF g t) = ignoredWarnsFields why t
  | [] => by simp [tlF, ignoredWarnsFields]
  | (_, t) :: r => by simp [tlF, ignoredWarnsFields, ignoredWarns_reloc why t, ignoredWarnsFields_reloc why r]
theorem ignoredWarnsKeyed_reloc (why : Why) : ∀ t, ignoredWarnsKeyed why (tlK g t) = ignoredWarnsKeyed why t
  | [] => by simp [tlK, ignoredWarnsKeyed]
  | (_, t) :: r => by simp [tlK, ignoredWarnsKeyed, ignoredWarnsFields_reloc why t, ignoredWarnsKeyed_reloc why r]
theorem ignoredWarnsItems_reloc (why : Why) : ∀ t, ignoredWarnsItems why (tlI g t) = ignoredWarnsItems why t
  | [] => by simp [tlI, ignoredWarnsItems]
  | t :: r => by simp [tlI, ignoredWarnsItems, ignoredWarnsFields_reloc why t, ignoredWarnsItems_reloc why r]
end

theorem mergeCell_reloc (sheet key : Str) (c : Cell) (bv : Tree) :
    mergeCell sheet key (c.reloc g) (tl g bv) = (tl g (mergeCell sheet key c bv).1, (mergeCell sheet key c bv).2) := by
  unfold mergeCell
  cases hv : c.value with
  | geo x => simp [hg, hv]
  | atom a =>
    cases bv with
    | cell b => simp only [tl, Cell.reloc_value, hv]; by_cases h : b.value.pyEq c.value = true <;> rw [hv] at h <;> simp [tl, Cell.reloc, h]
    | obj fs => simp [tl, hv, hg]
    | tmp a b => simp [tl, hv, hg]
  | arr a =>
    cases bv with
    | cell b => simp only [tl, Cell.reloc_value, hv]; by_cases h : b.value.pyEq c.value = true <;> rw [hv] at h <;> simp [tl, Cell.reloc, h]
    | obj fs => simp [tl, hv, hg]
    | tmp a b => simp [tl, hv, hg]
  | arr2 a =>
    cases bv with
    | cell b => simp only [tl, Cell.reloc_value, hv]; by_cases h : b.value.pyEq c.value = true <;> rw [hv] at h <;> simp [tl, Cell.reloc, h]
    | obj fs => simp [tl, hv, hg]
    | tmp a b => simp [tl, hv, hg]

mutual
theorem mergeFields_reloc (sheet : Str) : ∀ fs base : Fields,
    mergeFields sheet (tlF g fs) (tlF g base) = (tlF g (mergeFields sheet fs base).1, (mergeFields sheet fs base).2)
  | [], base => by simp [tlF, mergeFields]
  | (k, v) :: r, base => by
    simp only [tlF, mergeFields, tlF_get]
    cases hb : Dict.get base k with
    | none => simp only [Option.map_none, tlF_set, mergeFields_reloc sheet r]
    | some bv => simp only [Option.map_some, mergeTree_reloc sheet k v, tlF_set, mergeFields_reloc sheet r]
theorem mergeTree_reloc (sheet key : Str) : ∀ v bv : Tree,
    mergeTree sheet key (tl g v) (tl g bv) = (tl g (mergeTree sheet key v bv).1, (mergeTree sheet key v bv).2)
  | .cell c, bv => by simp only [tl, mergeTree]; exact mergeCell_reloc hg sheet key c bv
  | .obj fs, bv => by
    cases bv with
    | obj bfs => simp only [tl, mergeTree, mergeFields_reloc sheet fs bfs]
    | cell c => simp only [tl, mergeTree, ignoredWarnsFields_reloc hg]
    | tmp a b => simp only [tl, mergeTree, ignoredWarnsFields_reloc hg]
  | .tmp keyed rest, bv => by
    cases bv with
    | tmp a b => simp only [tl, mergeTree, mergeKeyed_reloc sheet keyed a, tlI_append]
    | cell c => simp only [tl, mergeTree, ignoredWarnsKeyed_reloc hg, ignoredWarnsItems_reloc hg]
    | obj b => simp only [tl, mergeTree, ignoredWarnsKeyed_reloc hg, ignoredWarnsItems_reloc hg]
theorem mergeKeyed_reloc (sheet : Str) : ∀ ks base : List (Val × Fields),
    mergeKeyed sheet (tlK g ks) (tlK g base) = (tlK g (mergeKeyed sheet ks base).1, (mergeKeyed sheet ks base).2)
  | [], base => by simp [tlK, mergeKeyed]
  | (k, v) :: r, base => by
    simp only [tlK, mergeKeyed, tlK_get]
    cases hb : keyGet base k with
    | none => simp only [Option.map_none, tlK_set, mergeKeyed_reloc sheet r]
    | some bv => simp only [Option.map_some, mergeFields_reloc sheet v, tlK_set, mergeKeyed_reloc sheet r]
end
end

mutual
theorem jv_tl (g : Loc → Loc) : ∀ t, jv (tl g t) = jv t
  | .cell c => by simp [tl]
  | .obj fs => by simp only [tl, jv_obj, jf_tlF g fs]
  | .tmp a b => by simp only [tl, jv_tmp, jtd, jK_tlK g a, jI_tlI g b]
theorem jf_tlF (g : Loc → Loc) : ∀ fs, jf (tlF g fs) = jf fs
  | [] => by simp [tlF]
  | (k, t) :: r => by
    have := jf_tlF g r
    simp only [jf] at this
    simp only [tlF, jf, List.map_cons, jv_tl g t, this]
theorem jK_tlK (g : Loc → Loc) : ∀ ks : List (Val × List (Str × Tree)), (tlK g ks).map (fun e => jobj e.2) = ks.map (fun e => jobj e.2)
  | [] => by simp [tlK]
  | (k, t) :: r => by simp only [tlK, List.map_cons, jobj, jf_tlF g t, List.cons.injEq, true_and]; simpa [jobj] using jK_tlK g r
theorem jI_tlI (g : Loc → Loc) : ∀ is : List (List (Str × Tree)), (tlI g is).map jobj = is.map jobj
  | [] => by simp [tlI]
  | t :: r => by simp only [tlI, List.map_cons, jobj, jf_tlF g t, List.cons.injEq, true_and]; simpa using jI_tlI g r
end

end Verif
