import Verif.Spec.Paths
import Verif.Proofs.Run
import Verif.Proofs.Induct
import Verif.Proofs.Ids
import Verif.Proofs.Str
/-! Paths of cells: they are pairwise different in a strong sense, so the source maps can be built. -/
namespace Verif
open Spec

/-- Two paths part at some point, into two different keys or two different positions. -/
def Sep : List PStep → List PStep → Prop
  | .key k :: p, .key k' :: q => k ≠ k' ∨ Sep p q
  | .idx i :: p, .idx j :: q => i ≠ j ∨ Sep p q
  | _, _ => False

theorem Sep.symm : ∀ {p q : List PStep}, Sep p q → Sep q p
  | .key _ :: _, .key _ :: _, h => by
    simp only [Sep] at h ⊢
    rcases h with h | h
    · exact Or.inl (Ne.symm h)
    · exact Or.inr h.symm
  | .idx _ :: _, .idx _ :: _, h => by
    simp only [Sep] at h ⊢
    rcases h with h | h
    · exact Or.inl (Ne.symm h)
    · exact Or.inr h.symm
  | [], _, h => by simp [Sep] at h
  | .key _ :: _, [], h => by simp [Sep] at h
  | .idx _ :: _, [], h => by simp [Sep] at h
  | .key _ :: _, .idx _ :: _, h => by simp [Sep] at h
  | .idx _ :: _, .key _ :: _, h => by simp [Sep] at h

theorem Sep.cons (s : PStep) {p q : List PStep} (h : Sep p q) : Sep (s :: p) (s :: q) := by
  cases s <;> simp [Sep, h]

theorem Sep.prefix (r : List PStep) {p q : List PStep} (h : Sep p q) : Sep (r ++ p) (r ++ q) := by
  induction r with
  | nil => exact h
  | cons s r ih => exact ih.cons s

theorem Sep.irrefl : ∀ p : List PStep, ¬ Sep p p
  | [] => by simp [Sep]
  | .key k :: p => by simp [Sep]; exact Sep.irrefl p
  | .idx k :: p => by simp [Sep]; exact Sep.irrefl p

theorem Sep.ne {p q : List PStep} (h : Sep p q) : p ≠ q := by
  rintro rfl; exact Sep.irrefl _ h

/-- Paths that part can be compared. -/
theorem Sep.pathLt : ∀ {p q : List PStep}, Sep p q → ∃ b, pathLt p q = .ok b
  | .key k :: p, .key k' :: q, h => by
    simp only [Sep] at h
    unfold Verif.pathLt
    by_cases he : k = k'
    · subst he; rw [if_pos rfl]; exact Sep.pathLt (by simpa using h)
    · simp [he]
  | .idx k :: p, .idx k' :: q, h => by
    simp only [Sep] at h
    unfold Verif.pathLt
    by_cases he : k = k'
    · subst he; rw [if_pos rfl]; exact Sep.pathLt (by simpa using h)
    · simp [he]
  | [], _, h => by simp [Sep] at h
  | .key _ :: _, [], h => by simp [Sep] at h
  | .idx _ :: _, [], h => by simp [Sep] at h
  | .key _ :: _, .idx _ :: _, h => by simp [Sep] at h
  | .idx _ :: _, .key _ :: _, h => by simp [Sep] at h

/-! #### Trees of cells -/

mutual
/-- The keys of each dict are different and satisfy `Q`, the cell at key path `p` satisfies `P p` and equals its
sub cells. -/
def CGood (Q : Str → Prop) (P : List Str → Cell → Prop) (p : List Str) : CTree → Prop
  | .cell c => P p c ∧ ∀ s ∈ c.sub, s.1.pyEq c.value = true
  | .obj fs => CGoodF Q P p fs
  | .list is => CGoodI Q P p is
def CGoodF (Q : Str → Prop) (P : List Str → Cell → Prop) (p : List Str) : List (Str × CTree) → Prop
  | [] => True
  | (k, t) :: r => (k ∉ Dict.keys r ∧ Q k ∧ CGood Q P (p ++ [k]) t) ∧ CGoodF Q P p r
def CGoodI (Q : Str → Prop) (P : List Str → Cell → Prop) (p : List Str) : List (List (Str × CTree)) → Prop
  | [] => True
  | fs :: r => CGoodF Q P p fs ∧ CGoodI Q P p r
end

theorem cgoodI_append {Q : Str → Prop} {P : List Str → Cell → Prop} {p : List Str} {a b : List (List (Str × CTree))} :
    CGoodI Q P p (a ++ b) ↔ CGoodI Q P p a ∧ CGoodI Q P p b := by
  induction a with
  | nil => simp [CGoodI]
  | cons x r ih => simp [CGoodI, ih, and_assoc]

theorem keys_toLists (fs : Fields) : Dict.keys (toLists fs) = Dict.keys fs := by
  induction fs with
  | nil => rfl
  | cons e r ih => obtain ⟨k, t⟩ := e; simp only [toLists, Dict.keys, List.map_cons] at ih ⊢; rw [ih]

section
variable {n : Option Str} {xml : Bool} {Q : Str → Prop} {P : List Str → Cell → Prop}

mutual
theorem cgood_tree : ∀ (p : List Str) (t : Tree), WFTree n xml t → TAll Q P p t → CGood Q P p (treeToLists t)
  | p, .cell c, hw, ht => by
    simp only [WFTree] at hw
    simp only [TAll] at ht
    simp only [treeToLists, CGood]
    exact ⟨ht, hw⟩
  | p, .obj fs, hw, ht => by
    simp only [WFTree] at hw
    simp only [TAll] at ht
    simp only [treeToLists, CGood]
    exact cgood_fields p fs hw ht
  | p, .tmp keyed rest, hw, ht => by
    simp only [WFTree] at hw
    simp only [TAll] at ht
    simp only [treeToLists, CGood]
    exact cgoodI_append.2 ⟨cgood_keyed p keyed hw.2.1 ht.1, cgood_items p rest hw.2.2 ht.2⟩
theorem cgood_fields : ∀ (p : List Str) (fs : List (Str × Tree)), WFFields n xml fs → TAllF Q P p fs →
    CGoodF Q P p (toLists fs)
  | _, [], _, _ => by simp [toLists, CGoodF]
  | p, (k, t) :: r, hw, ht => by
    simp only [WFFields] at hw
    simp only [TAllF] at ht
    simp only [toLists, CGoodF]
    refine ⟨⟨?_, ht.1.1, cgood_tree _ t hw.2.1 ht.1.2⟩, cgood_fields p r hw.2.2 ht.2⟩
    rw [keys_toLists]; exact hw.1
theorem cgood_keyed : ∀ (p : List Str) (ks : List (Val × List (Str × Tree))), WFKeyed n xml ks → TAllK Q P p ks →
    CGoodI Q P p (keyedToLists ks)
  | _, [], _, _ => by simp [keyedToLists, CGoodI]
  | p, (k, fs) :: r, hw, ht => by
    simp only [WFKeyed] at hw
    simp only [TAllK] at ht
    simp only [keyedToLists, CGoodI]
    exact ⟨cgood_fields p fs hw.2.1 ht.1, cgood_keyed p r hw.2.2 ht.2⟩
theorem cgood_items : ∀ (p : List Str) (is : List (List (Str × Tree))), WFItems n xml is → TAllI Q P p is →
    CGoodI Q P p (itemsToLists is)
  | _, [], _, _ => by simp [itemsToLists, CGoodI]
  | p, fs :: r, hw, ht => by
    simp only [WFItems] at hw
    simp only [TAllI] at ht
    simp only [itemsToLists, CGoodI]
    exact ⟨cgood_fields p fs hw.2.1 ht.1, cgood_items p r hw.2.2 ht.2⟩
end
end

theorem cgood_groups {cfg : UnCfg} {Q : Str → Prop} {P : List Str → Cell → Prop} {gs : Groups}
    (hw : GWF cfg gs) (ha : ∀ g ∈ gs, TDAll Q P [] g.2) : CGoodI Q P [] (groupsToList gs) := by
  have hg := hw.groups
  clear hw
  unfold groupsToList
  induction gs with
  | nil => simp [CGoodI]
  | cons g r ih =>
    simp only [List.flatMap_cons]
    refine cgoodI_append.2 ⟨cgoodI_append.2 ⟨?_, ?_⟩, ih (fun x hx => ha x (List.mem_cons_of_mem _ hx)) (fun x hx => hg x (List.mem_cons_of_mem _ hx))⟩
    · exact cgood_keyed _ _ (hg g (List.mem_cons_self ..)).keyed (ha g (List.mem_cons_self ..)).1
    · exact cgood_items _ _ (hg g (List.mem_cons_self ..)).rest (ha g (List.mem_cons_self ..)).2

/-! #### The paths of a good tree -/

/-- The keys of a path. -/
def stepKeys (p : List PStep) : List Str := p.filterMap (fun s => match s with | .key k => some k | .idx _ => none)

/-- What is known about the cells of a good tree. -/
def CellOk (Q : Str → Prop) (P : List Str → Cell → Prop) (p : List Str) (e : List PStep × Cell) : Prop :=
  P (p ++ stepKeys e.1) e.2 ∧ (∀ s ∈ e.2.sub, s.1.pyEq e.2.value = true) ∧ ∀ k, .key k ∈ e.1 → Q k

/-- Pairwise parting paths. -/
def AllSep {α : Type} (l : List (List PStep × α)) : Prop := l.Pairwise (fun a b => Sep a.1 b.1)

theorem allSep_under {α : Type} (s : PStep) {l : List (List PStep × α)} (h : AllSep l) : AllSep (l.map (under s)) := by
  unfold AllSep at h ⊢
  rw [List.pairwise_map]
  exact h.imp (fun h => h.cons s)

theorem cellsInFields_head {fs : List (Str × CTree)} {e : List PStep × Cell} (h : e ∈ cellsInFields fs) :
    ∃ k p, e.1 = .key k :: p ∧ k ∈ Dict.keys fs := by
  induction fs with
  | nil => simp [cellsInFields] at h
  | cons x r ih =>
    obtain ⟨k, t⟩ := x
    simp only [cellsInFields, List.mem_append, List.mem_map] at h
    rcases h with ⟨d, _, rfl⟩ | h
    · exact ⟨k, d.1, rfl, by simp [Dict.keys]⟩
    · obtain ⟨k', p, h1, h2⟩ := ih h
      exact ⟨k', p, h1, by simp only [Dict.keys, List.map_cons, List.mem_cons] at h2 ⊢; exact Or.inr h2⟩

theorem cellsInItems_head {i : Nat} {is : List (List (Str × CTree))} {e : List PStep × Cell} (h : e ∈ cellsInItems i is) :
    ∃ j k p, e.1 = .idx j :: .key k :: p ∧ i ≤ j := by
  induction is generalizing i with
  | nil => simp [cellsInItems] at h
  | cons x r ih =>
    simp only [cellsInItems, List.mem_append, List.mem_map] at h
    rcases h with ⟨d, hd, rfl⟩ | h
    · obtain ⟨k, p, h1, _⟩ := cellsInFields_head hd
      exact ⟨i, k, p, by simp [under, h1], Nat.le_refl _⟩
    · obtain ⟨j, k, p, h1, h2⟩ := ih h
      exact ⟨j, k, p, h1, by omega⟩

section
variable {Q : Str → Prop} {P : List Str → Cell → Prop}

mutual
theorem cells_good : ∀ (p : List Str) (t : CTree), CGood Q P p t → (∀ e ∈ cellsIn t, CellOk Q P p e) ∧ AllSep (cellsIn t)
  | p, .cell c, h => by
    simp only [CGood] at h
    simp only [cellsIn, AllSep]
    constructor
    · intro e he
      cases List.mem_singleton.1 he
      exact ⟨by simpa [stepKeys] using h.1, h.2, by simp⟩
    · exact List.pairwise_singleton _ _
  | p, .obj fs, h => by
    simp only [CGood] at h
    simp only [cellsIn]
    exact cells_goodF p fs h
  | p, .list is, h => by
    simp only [CGood] at h
    simp only [cellsIn]
    exact cells_goodI p 0 is h
theorem cells_goodF : ∀ (p : List Str) (fs : List (Str × CTree)), CGoodF Q P p fs →
    (∀ e ∈ cellsInFields fs, CellOk Q P p e) ∧ AllSep (cellsInFields fs)
  | _, [], _ => by simp [cellsInFields, AllSep]
  | p, (k, t) :: r, h => by
    simp only [CGoodF] at h
    obtain ⟨⟨hk, hq, ht⟩, hr⟩ := h
    obtain ⟨h1, h2⟩ := cells_good _ t ht
    obtain ⟨h3, h4⟩ := cells_goodF p r hr
    simp only [cellsInFields]
    constructor
    · intro e he
      rcases List.mem_append.1 he with he | he
      · obtain ⟨d, hd, rfl⟩ := List.mem_map.1 he
        obtain ⟨a, b, c⟩ := h1 d hd
        refine ⟨?_, b, ?_⟩
        · simpa [stepKeys, under] using a
        · intro k' hk'
          rcases List.mem_cons.1 hk' with h | h
          · cases h; exact hq
          · exact c k' h
      · exact h3 e he
    · refine List.pairwise_append.2 ⟨allSep_under _ h2, h4, ?_⟩
      intro a ha b hb
      obtain ⟨d, hd, rfl⟩ := List.mem_map.1 ha
      obtain ⟨k', q, hb1, hb2⟩ := cellsInFields_head hb
      rw [hb1]
      simp only [under, Sep]
      left; rintro rfl; exact hk hb2
theorem cells_goodI : ∀ (p : List Str) (i : Nat) (is : List (List (Str × CTree))), CGoodI Q P p is →
    (∀ e ∈ cellsInItems i is, CellOk Q P p e) ∧ AllSep (cellsInItems i is)
  | _, _, [], _ => by simp [cellsInItems, AllSep]
  | p, i, fs :: r, h => by
    simp only [CGoodI] at h
    obtain ⟨h1, h2⟩ := cells_goodF p fs h.1
    obtain ⟨h3, h4⟩ := cells_goodI p (i + 1) r h.2
    simp only [cellsInItems]
    constructor
    · intro e he
      rcases List.mem_append.1 he with he | he
      · obtain ⟨d, hd, rfl⟩ := List.mem_map.1 he
        obtain ⟨a, b, c⟩ := h1 d hd
        refine ⟨?_, b, ?_⟩
        · simpa [stepKeys, under] using a
        · intro k' hk'
          rcases List.mem_cons.1 hk' with h | h
          · cases h
          · exact c k' h
      · exact h3 e he
    · refine List.pairwise_append.2 ⟨allSep_under _ h2, h4, ?_⟩
      intro a ha b hb
      obtain ⟨d, hd, rfl⟩ := List.mem_map.1 ha
      obtain ⟨j, k, q, hb1, hb2⟩ := cellsInItems_head hb
      rw [hb1]
      simp only [under, Sep]
      left; omega
end
end

/-! #### Collecting the paths -/

/-- What the source map records for a cell under a prefix. -/
def entryOf (pre : List PStep) (e : List PStep × Cell) : List PStep × List Loc := (pre ++ e.1, locations e.2)

theorem addPaths_ok {m out : PMap} (h : AllSep (out ++ m)) : addPaths m out = .ok (out ++ m) := by
  induction m generalizing out with
  | nil => simp [addPaths]
  | cons e r ih =>
    obtain ⟨p, l⟩ := e
    have hno : Dict.has out p = false := by
      cases hh : Dict.has out p with
      | false => rfl
      | true =>
        rw [Dict.has_iff] at hh
        obtain ⟨x, hx, hxp⟩ := List.mem_map.1 hh
        have := (List.pairwise_append.1 h).2.2 x hx (p, l) (by simp)
        exact absurd hxp this.ne
    simp only [addPaths, hno, Bool.false_eq_true, if_false]
    rw [ih (by simpa using h)]
    simp

theorem allSep_entryOf (pre : List PStep) {l : List (List PStep × Cell)} (h : AllSep l) :
    AllSep (l.map (entryOf pre)) := by
  unfold AllSep at h ⊢
  rw [List.pairwise_map]
  exact h.imp (fun h => h.prefix pre)

theorem entryOf_under (pre : List PStep) (s : PStep) (l : List (List PStep × Cell)) :
    (l.map (under s)).map (entryOf pre) = l.map (entryOf (pre ++ [s])) := by
  rw [List.map_map]
  apply List.map_congr_left
  intro e _
  simp [entryOf, under]

theorem allSep_left {α : Type} {a b : List (List PStep × α)} (h : AllSep (a ++ b)) : AllSep a :=
  (List.pairwise_append.1 h).1

theorem allSep_right {α : Type} {a b : List (List PStep × α)} (h : AllSep (a ++ b)) : AllSep b :=
  (List.pairwise_append.1 h).2.1

section
variable {Q : Str → Prop} {P : List Str → Cell → Prop}

mutual
theorem listErrorPath_ok : ∀ (p : List Str) (path : List PStep) (i : Nat) (is : List (List (Str × CTree))) (out : PMap),
    CGoodI Q P p is → AllSep (out ++ (cellsInItems i is).map (entryOf path)) →
    listErrorPath path i is out = .ok (out ++ (cellsInItems i is).map (entryOf path))
  | _, _, _, [], out, _, _ => by simp [listErrorPath, cellsInItems]
  | p, path, i, fs :: r, out, hg, hs => by
    simp only [CGoodI] at hg
    simp only [cellsInItems, List.map_append, entryOf_under] at hs ⊢
    have h1 := allSep_left (allSep_right hs)
    have e1 := dictErrorPath_ok p (path ++ [.idx i]) fs [] hg.1 (by simpa using h1)
    rw [← List.append_assoc] at hs
    simp only [listErrorPath, e1, List.nil_append, addPaths_ok (allSep_left hs)]
    rw [listErrorPath_ok p path (i + 1) r _ hg.2 hs, List.append_assoc]
theorem dictErrorPath_ok : ∀ (p : List Str) (path : List PStep) (fs : List (Str × CTree)) (out : PMap),
    CGoodF Q P p fs → AllSep (out ++ (cellsInFields fs).map (entryOf path)) →
    dictErrorPath path fs out = .ok (out ++ (cellsInFields fs).map (entryOf path))
  | _, _, [], out, _, _ => by simp [dictErrorPath, cellsInFields]
  | p, path, (k, .list is) :: r, out, hg, hs => by
    simp only [CGoodF, CGood] at hg
    simp only [cellsInFields, cellsIn, List.map_append, entryOf_under] at hs ⊢
    have h1 := allSep_left (allSep_right hs)
    have e1 := listErrorPath_ok _ (path ++ [.key k]) 0 is [] hg.1.2.2 (by simpa using h1)
    rw [← List.append_assoc] at hs
    simp only [dictErrorPath, e1, List.nil_append, addPaths_ok (allSep_left hs)]
    rw [dictErrorPath_ok p path r _ hg.2 hs, List.append_assoc]
  | p, path, (k, .obj gs) :: r, out, hg, hs => by
    simp only [CGoodF, CGood] at hg
    simp only [cellsInFields, cellsIn, List.map_append, entryOf_under] at hs ⊢
    have h1 := allSep_left (allSep_right hs)
    have e1 := dictErrorPath_ok _ (path ++ [.key k]) gs [] hg.1.2.2 (by simpa using h1)
    rw [← List.append_assoc] at hs
    simp only [dictErrorPath, e1, List.nil_append, addPaths_ok (allSep_left hs)]
    rw [dictErrorPath_ok p path r _ hg.2 hs, List.append_assoc]
  | p, path, (k, .cell c) :: r, out, hg, hs => by
    simp only [CGoodF, CGood] at hg
    simp only [cellsInFields, cellsIn, List.map_append, entryOf_under] at hs ⊢
    have e : List.map (entryOf (path ++ [PStep.key k])) [([], c)] = [(path ++ [.key k], locations c)] := by
      simp [entryOf]
    rw [e] at hs ⊢
    have hno : Dict.has out (path ++ [.key k]) = false := by
      cases hh : Dict.has out (path ++ [.key k]) with
      | false => rfl
      | true =>
        rw [Dict.has_iff] at hh
        obtain ⟨x, hx, hxp⟩ := List.mem_map.1 hh
        have := (List.pairwise_append.1 hs).2.2 x hx (path ++ [.key k], locations c) (by simp)
        exact absurd hxp this.ne
    have hall : c.sub.all (fun s => s.1.pyEq c.value) = true := by
      rw [List.all_eq_true]; exact hg.1.2.2.2
    simp only [dictErrorPath, hno, Bool.false_eq_true, if_false, hall, if_true]
    rw [← List.append_assoc] at hs
    have := dictErrorPath_ok p path r _ hg.2 hs
    simp only [locations] at this ⊢
    rw [this, List.append_assoc]
end
end

/-! #### Sorting -/

theorem insertPath_ok {x : List PStep × List Loc} {l : PMap} (h : ∀ y ∈ l, Sep y.1 x.1) :
    ∃ l', insertPath x l = .ok l' ∧ l'.Perm (x :: l) := by
  induction l with
  | nil => exact ⟨[x], rfl, List.Perm.refl _⟩
  | cons y r ih =>
    obtain ⟨b, hb⟩ := (h y (List.mem_cons_self ..)).pathLt
    obtain ⟨r', h1, h2⟩ := ih (fun z hz => h z (List.mem_cons_of_mem _ hz))
    cases b with
    | false => exact ⟨x :: y :: r, by simp [insertPath, hb], List.Perm.refl _⟩
    | true => exact ⟨y :: r', by simp [insertPath, hb, h1], (h2.cons y).trans (List.Perm.swap ..)⟩

theorem sortPaths_ok {l : PMap} (h : AllSep l) : ∃ l', sortPaths l = .ok l' ∧ l'.Perm l := by
  induction l with
  | nil => exact ⟨[], rfl, List.Perm.refl _⟩
  | cons x r ih =>
    obtain ⟨h1, h2⟩ := List.pairwise_cons.1 h
    obtain ⟨r', e1, e2⟩ := ih h2
    obtain ⟨l', e3, e4⟩ := insertPath_ok (x := x) (l := r') (fun y hy => (h1 y (e2.subset hy)).symm)
    exact ⟨l', by simp [sortPaths, e1, e3], e4.trans (e2.cons x)⟩

theorem AllSep.perm {α : Type} {a b : List (List PStep × α)} (h : AllSep a) (hp : b.Perm a) : AllSep b :=
  hp.symm.pairwise h (fun h => h.symm)

/-! #### Paths as text -/

theorem natStr_inj {i j : Nat} (h : Py.natStr i = Py.natStr j) : i = j := by
  rw [← Py.natStr_val i, ← Py.natStr_val j, h]

theorem slash_natStr (i : Nat) : '/' ∉ Py.natStr i := by
  intro h
  have := Py.isDigit_toNat (Py.natStr_isDigit i _ h)
  revert this; decide

/-- The keys have no slash. -/
def NoSlash (p : List PStep) : Prop := ∀ k, .key k ∈ p → '/' ∉ k

theorem noSlash_str {p : List PStep} (h : NoSlash p) : ∀ s ∈ p.map PStep.str, '/' ∉ s := by
  intro s hs
  obtain ⟨x, hx, rfl⟩ := List.mem_map.1 hs
  cases x with
  | key k => exact h k hx
  | idx i => exact slash_natStr i

/-- Parting paths have different texts, also when one is extended. -/
theorem Sep.str : ∀ {p q : List PStep}, Sep p q → ∀ x y, (p ++ x).map PStep.str ≠ (q ++ y).map PStep.str
  | .key k :: p, .key k' :: q, h, x, y => by
    simp only [Sep] at h
    intro he
    simp only [List.cons_append, List.map_cons, List.cons.injEq, PStep.str] at he
    rcases h with h | h
    · exact h he.1
    · exact Sep.str h x y he.2
  | .idx k :: p, .idx k' :: q, h, x, y => by
    simp only [Sep] at h
    intro he
    simp only [List.cons_append, List.map_cons, List.cons.injEq, PStep.str] at he
    rcases h with h | h
    · exact h (natStr_inj he.1)
    · exact Sep.str h x y he.2
  | [], _, h, _, _ => by simp [Sep] at h
  | .key _ :: _, [], h, _, _ => by simp [Sep] at h
  | .idx _ :: _, [], h, _, _ => by simp [Sep] at h
  | .key _ :: _, .idx _ :: _, h, _, _ => by simp [Sep] at h
  | .idx _ :: _, .key _ :: _, h, _, _ => by simp [Sep] at h

theorem join_cons_ne {s x : Str} {r : List Str} (h : r ≠ []) : Py.join s (x :: r) = x ++ s ++ Py.join s r := by
  cases r with
  | nil => exact absurd rfl h
  | cons y r => simp [Py.join]

theorem pathStr_root (root : Option Str) : ∃ pre, ∀ q : List PStep, q ≠ [] →
    pathStr (rootSteps root ++ q) = pre ++ pathStr q := by
  cases root with
  | none => exact ⟨[], fun q _ => by simp [rootSteps]⟩
  | some r =>
    refine ⟨r ++ s%"/", fun q hq => ?_⟩
    simp only [pathStr, rootSteps, List.map_append, List.map_cons, List.map_nil, PStep.str, List.singleton_append]
    rw [join_cons_ne (by simpa using hq)]

/-- Equal texts of non-empty paths under the same root: equal components. -/
theorem pathStr_inj {root : Option Str} {p q : List PStep} (hp : p ≠ []) (hq : q ≠ []) (h1 : NoSlash p) (h2 : NoSlash q)
    (h : pathStr (rootSteps root ++ p) = pathStr (rootSteps root ++ q)) : p.map PStep.str = q.map PStep.str := by
  obtain ⟨pre, hpre⟩ := pathStr_root root
  rw [hpre p hp, hpre q hq] at h
  have h := List.append_cancel_left h
  exact Py.join_inj (by simpa using hp) (by simpa using hq) (noSlash_str h1) (noSlash_str h2) h

end Verif
