import Verif.Proofs.Address
import Verif.Proofs.AtRun
import Verif.Proofs.Blank
import Verif.Spec.Renumber
/-! Other numbers in the headings. -/
namespace Verif
open Spec

/-! ### Placing by position -/

/-- `place` for a heading that names a position. -/
def placeAddr (cfg : RowCfg) (path : Str) (above : List Str) : Addr → Cell → RFields → Except Err (RFields × List Warn)
  | [], _, cur => .ok (cur, [])
  | (key, some i) :: rest, cell, cur =>
    match ladAt cur key with
    | none => .ok (cur, [.notArray path (Py.join s%"/" (above ++ [key]))])
    | some is =>
      mapW (fun inner' => Dict.set cur key (.lad (Dict.set is i inner'))) []
        (placeAddr cfg path (above ++ [key]) rest cell ((Dict.get is i).getD []))
  | (key, none) :: [], cell, cur =>
    match placeLeaf cfg (cfg.types (Py.join s%"/" (above ++ [key]))) (Py.join s%"/" (above ++ [key])) key cell cur with
    | .error e => .error e
    | .ok (cur1, _, w) => .ok (cur1, w)
  | (key, none) :: s :: rest, cell, cur =>
    match objAt cur key with
    | none => .ok (cur, [.notObject path (Py.join s%"/" (above ++ [key]))])
    | some fs =>
      mapW (fun fs' => Dict.set cur key (.obj fs')) [] (placeAddr cfg path (above ++ [key]) (s :: rest) cell fs)

theorem place_addr {cfg : RowCfg} (hx : cfg.xml = false) {path : Str} (a : Addr) : ∀ {pre comps : List Str} (cell : Cell) (cur : RFields),
    address cfg.types (keysOf pre) comps = some a →
    place cfg path pre comps cell cur = placeAddr cfg path (keysOf pre) a cell cur := by
  induction a with
  | nil => intro pre comps cell cur ha; exact (good_of_address _ _ _ ha).elim
  | cons s a ih =>
    intro pre comps cell cur ha
    obtain ⟨key, rest, rfl, hkey, hcase⟩ := address_some ha
    have hct : ∀ till next, currentType cfg path till cell next = cfg.types till := by
      intro till next; unfold currentType; split <;> simp [hx]
    have hkp : keysOf (pre ++ [key]) = keysOf pre ++ [key] := by rw [keysOf_append, keysOf_single (by simp [hkey])]
    rw [place]
    simp only [hkey, Bool.false_eq_true, if_false, hct, pathTillNow_keys, hkp, hx, Bool.not_false, Bool.true_or, if_true]
    rcases hcase with ⟨rfl, hna, hno, hs⟩ | ⟨next, rest', i, a', rfl, hi, hty, ha', hs⟩ | ⟨a', hi, hne, hty, ha', hs⟩ | ⟨a', hi, hne, hty, ha', hs⟩
    · injection hs with hs1 hs2
      subst hs1 hs2
      have hint : Py.int? ([] : Str) = none := by decide
      simp only [List.headD_nil, hint, Option.isSome_none, Bool.false_and, Bool.false_eq_true, if_false, arrayIndex, hna, hno, ne_eq,
        not_true, and_false, or_false, if_false, placeAddr]
      cases hp : placeLeaf cfg (cfg.types (Py.join s%"/" (keysOf pre ++ [key]))) (Py.join s%"/" (keysOf pre ++ [key])) key cell cur with
      | error e => rfl
      | ok r =>
        obtain ⟨cur1, cell', w1⟩ := r
        simp [place, mapW]
    · injection hs with hs1 hs2
      subst hs1 hs2
      have hty' : ((Py.int? ((next :: rest').headD [])).isSome && !(cfg.types (Py.join s%"/" (keysOf pre ++ [key])) == none || cfg.types (Py.join s%"/" (keysOf pre ++ [key])) == some .array)) = false := by
        rcases hty with e | e <;> simp [e]
      have hai : arrayIndex ((next :: rest').headD []) (cfg.types (Py.join s%"/" (keysOf pre ++ [key]))) = some i := by simp [arrayIndex, hi]
      rw [hty', hai]
      simp only [Bool.false_eq_true, if_false, placeAddr]
      cases hl : ladAt cur key with
      | none => rfl
      | some is =>
        simp only
        have hnint : isint next = true := by simp [isint, hi]
        rw [place]
        have hpe : (pre ++ [key]).isEmpty = false := by cases pre <;> rfl
        simp only [hnint, if_true, hpe, Bool.false_eq_true, if_false]
        have hk3 : keysOf (pre ++ [key] ++ [next]) = keysOf pre ++ [key] := by rw [keysOf_append, hkp, keysOf_single_int hnint]; simp
        rw [ih (pre := pre ++ [key] ++ [next]) _ _ (by rw [hk3]; exact ha'), hk3]
        congr 1
        cases placeAddr cfg path (keysOf pre ++ [key]) a cell ((Dict.get is i).getD []) <;> simp [mapW]
    · injection hs with hs1 hs2
      subst hs1 hs2
      have hai : arrayIndex (rest.headD []) (cfg.types (Py.join s%"/" (keysOf pre ++ [key]))) = some (-1) := by simp only [arrayIndex, hi, hty]; rfl
      rw [hai]
      simp only [hi, Option.isSome_none, Bool.false_and, Bool.false_eq_true, if_false, placeAddr]
      cases hl : ladAt cur key with
      | none => rfl
      | some is =>
        simp only
        rw [ih (pre := pre ++ [key]) _ _ (by rw [hkp]; exact ha'), hkp]
    · injection hs with hs1 hs2
      subst hs1 hs2
      have hna : cfg.types (Py.join s%"/" (keysOf pre ++ [key])) ≠ some .array := by rcases hty with e | e <;> simp [e]
      have hai : arrayIndex (rest.headD []) (cfg.types (Py.join s%"/" (keysOf pre ++ [key]))) = none := by simp only [arrayIndex, hi, if_neg hna]
      have hcond : cfg.types (Py.join s%"/" (keysOf pre ++ [key])) = some .object ∨ (cfg.types (Py.join s%"/" (keysOf pre ++ [key])) = none ∧ rest.headD [] ≠ []) := by
        rcases hty with e | e
        · exact Or.inr ⟨e, hne⟩
        · exact Or.inl e
      rw [hai]
      simp only [hi, Option.isSome_none, Bool.false_and, Bool.false_eq_true, if_false, if_pos hcond]
      cases a with
      | nil => exact (good_of_address _ _ _ ha').elim
      | cons s2 a2 =>
        rw [placeAddr]
        cases hl : objAt cur key with
        | none => rfl
        | some fs =>
          simp only
          rw [ih (pre := pre ++ [key]) _ _ (by rw [hkp]; exact ha'), hkp]

/-! ### Renumbering trees -/

mutual
/-- The tree with other numbers (`ks`: the keys that lead to it). -/
def ren (f : Numbering) (ks : List Str) : RTree → RTree
  | .cell c => .cell c
  | .obj fs => .obj (renF f ks fs)
  | .lad is => .lad (renI f ks is)
def renF (f : Numbering) (ks : List Str) : List (Str × RTree) → List (Str × RTree)
  | [] => []
  | (k, t) :: r => (k, ren f (ks ++ [k]) t) :: renF f ks r
def renI (f : Numbering) (ks : List Str) : List (Int × List (Str × RTree)) → List (Int × List (Str × RTree))
  | [] => []
  | (i, fs) :: r => (f ks i, renF f ks fs) :: renI f ks r
end

theorem renF_get (f : Numbering) (ks : List Str) (fs : RFields) (k : Str) :
    Dict.get (renF f ks fs) k = (Dict.get fs k).map (ren f (ks ++ [k])) := by
  induction fs with
  | nil => rfl
  | cons e r ih =>
    obtain ⟨j, t⟩ := e
    simp only [renF, Dict.get_cons, ih]
    split
    · next h => subst h; rfl
    · rfl

theorem renF_set (f : Numbering) (ks : List Str) (fs : RFields) (k : Str) (t : RTree) :
    Dict.set (renF f ks fs) k (ren f (ks ++ [k]) t) = renF f ks (Dict.set fs k t) := by
  induction fs with
  | nil => simp [renF, Dict.set]
  | cons e r ih =>
    obtain ⟨j, u⟩ := e
    simp only [renF, Dict.set]
    split
    · next h => subst h; simp [renF]
    · simp [renF, ih]

theorem numbering_inj {f : Numbering} (hf : KeepsOrder f) {ks : List Str} {i j : Int} (h : f ks i = f ks j) : i = j := by
  rcases Int.lt_trichotomy i j with h1 | h1 | h1
  · have := hf ks _ _ h1; omega
  · exact h1
  · have := hf ks _ _ h1; omega

theorem renI_get {f : Numbering} (hf : KeepsOrder f) (ks : List Str) (is : List (Int × RFields)) (i : Int) :
    Dict.get (renI f ks is) (f ks i) = (Dict.get is i).map (renF f ks) := by
  induction is with
  | nil => rfl
  | cons e r ih =>
    obtain ⟨j, t⟩ := e
    simp only [renI, Dict.get_cons, ih]
    by_cases h : j = i
    · simp [h]
    · have : ¬ f ks j = f ks i := fun e => h (numbering_inj hf e)
      simp [h, this]

theorem renI_set {f : Numbering} (hf : KeepsOrder f) (ks : List Str) (is : List (Int × RFields)) (i : Int) (fs : RFields) :
    Dict.set (renI f ks is) (f ks i) (renF f ks fs) = renI f ks (Dict.set is i fs) := by
  induction is with
  | nil => simp [renI, Dict.set]
  | cons e r ih =>
    obtain ⟨j, t⟩ := e
    simp only [renI, Dict.set]
    by_cases h : j = i
    · simp [h, renI]
    · have : ¬ f ks j = f ks i := fun e => h (numbering_inj hf e)
      simp [h, this, renI, ih]

theorem ladAt_ren (f : Numbering) (ks : List Str) (cur : RFields) (key : Str) :
    ladAt (renF f ks cur) key = (ladAt cur key).map (renI f (ks ++ [key])) := by
  unfold ladAt; rw [renF_get]
  cases Dict.get cur key with
  | none => simp [renI]
  | some t => cases t <;> simp [ren]

theorem objAt_ren (f : Numbering) (ks : List Str) (cur : RFields) (key : Str) :
    objAt (renF f ks cur) key = (objAt cur key).map (renF f (ks ++ [key])) := by
  unfold objAt; rw [renF_get]
  cases Dict.get cur key with
  | none => simp [renF]
  | some t => cases t <;> simp [ren]

theorem placeLeaf_ren (f : Numbering) (ks : List Str) {cfg : RowCfg} (hx : cfg.xml = false) (ty : Option CType) (till item : Str) (cell : Cell)
    (cur : RFields) :
    placeLeaf cfg ty till item cell (renF f ks cur) = (placeLeaf cfg ty till item cell cur).map (fun r => (renF f ks r.1, r.2.1, r.2.2)) := by
  unfold placeLeaf
  rw [renF_get]
  have hb : leafBlocked cfg.xml ((Dict.get cur item).map (ren f (ks ++ [item]))) = leafBlocked cfg.xml (Dict.get cur item) := by
    cases Dict.get cur item with
    | none => rfl
    | some t => cases t <;> rfl
  rw [hb]
  split
  · rfl
  · cases convertCell cfg ty cell.value with
    | error e => rfl
    | ok vw =>
      obtain ⟨v, w⟩ := vw
      simp only
      split
      · rfl
      · simp only [putCell, hx, Bool.false_eq_true, if_false, Except.map]
        have := renF_set f ks cur item (.cell { cell with value := v })
        simp only [ren] at this
        rw [this]

/-- The results are the same up to numbers and headings. -/
def RenRes (f : Numbering) (ks : List Str) (r : RFields × List Warn) (r' : RFields × List Warn) : Prop :=
  r'.1 = renF f ks r.1 ∧ r'.2.map withoutHeading = r.2.map withoutHeading

theorem mapW_renRes {f : Numbering} {ks ks' : List Str} {m m' : RFields → RFields} (hm : ∀ x, m' (renF f ks x) = renF f ks' (m x))
    {r r' : Except Err (RFields × List Warn)} (h : Except.Rel (RenRes f ks) r r') : Except.Rel (RenRes f ks') (mapW m [] r) (mapW m' [] r') := by
  cases r with
  | error e => cases r' with
    | error e' => exact h
    | ok b => exact h.elim
  | ok a => cases r' with
    | error e' => exact h.elim
    | ok b =>
      obtain ⟨a1, a2⟩ := a; obtain ⟨b1, b2⟩ := b
      obtain ⟨h1, h2⟩ := h
      simp only at h1 h2
      subst h1
      exact ⟨hm _, by simpa using h2⟩

theorem placeAddr_ren {f : Numbering} (hf : KeepsOrder f) {cfg : RowCfg} (hx : cfg.xml = false) (path path' : Str) (cell : Cell) (a : Addr) :
    ∀ (ks : List Str) (cur : RFields),
    Except.Rel (RenRes f ks) (placeAddr cfg path ks a cell cur) (placeAddr cfg path' ks (renumber f ks a) cell (renF f ks cur)) := by
  induction a with
  | nil => intro ks cur; exact ⟨rfl, rfl⟩
  | cons s a ih =>
    intro ks cur
    obtain ⟨key, ix⟩ := s
    cases ix with
    | some i =>
      simp only [renumber, Option.map_some, placeAddr, ladAt_ren]
      cases ladAt cur key with
      | none => exact ⟨rfl, rfl⟩
      | some is =>
        simp only [Option.map_some]
        have hin : (Dict.get (renI f (ks ++ [key]) is) (f (ks ++ [key]) i)).getD [] = renF f (ks ++ [key]) ((Dict.get is i).getD []) := by
          rw [renI_get hf]; cases Dict.get is i <;> simp [renF]
        rw [hin]
        apply mapW_renRes _ (ih (ks ++ [key]) _)
        intro x
        rw [renI_set hf, ← renF_set]; simp [ren]
    | none =>
      cases a with
      | nil =>
        simp only [renumber, Option.map_none, placeAddr]
        rw [placeLeaf_ren f ks hx]
        cases placeLeaf cfg (cfg.types (Py.join s%"/" (ks ++ [key]))) (Py.join s%"/" (ks ++ [key])) key cell cur with
        | error e => rfl
        | ok r => exact ⟨rfl, rfl⟩
      | cons s2 a2 =>
        have ih' := ih (ks ++ [key])
        obtain ⟨k2, ix2⟩ := s2
        simp only [renumber, Option.map_none] at ih' ⊢
        rw [placeAddr, placeAddr, objAt_ren]
        cases objAt cur key with
        | none => exact ⟨rfl, rfl⟩
        | some fs =>
          simp only [Option.map_some]
          apply mapW_renRes _ (ih' fs)
          intro x
          rw [← renF_set]; simp [ren]

/-- Cells under headings that name the same positions up to numbers. -/
def SameCell (cfg : RowCfg) (f : Numbering) (e e' : Str × Cell) : Prop :=
  e.2 = e'.2 ∧ (e.2.value.blank = false → ∃ a, address cfg.types [] (pathList e.1) = some a ∧
    address cfg.types [] (pathList e'.1) = some (renumber f [] a))

theorem placeAll_ren {f : Numbering} (hf : KeepsOrder f) {cfg : RowCfg} (hx : cfg.xml = false) {cells cells' : List (Str × Cell)}
    (h : All₂ (SameCell cfg f) cells cells') : ∀ cur, Except.Rel (RenRes f []) (placeAll cfg cells cur) (placeAll cfg cells' (renF f [] cur)) := by
  induction h with
  | nil => intro cur; exact ⟨rfl, rfl⟩
  | @cons e e' r r' h1 _ ih =>
    intro cur
    obtain ⟨p, c⟩ := e
    obtain ⟨p', c'⟩ := e'
    obtain ⟨h1, h2⟩ := h1
    simp only at h1 h2
    subst h1
    simp only [placeAll]
    by_cases hb : c.value.blank = true
    · simp only [hb, if_true]; exact ih cur
    · simp only [hb, Bool.false_eq_true, if_false]
      obtain ⟨a, ha, ha'⟩ := h2 (by simpa using hb)
      rw [place_addr hx a (pre := []) c cur ha, place_addr hx (renumber f [] a) (pre := []) c (renF f [] cur) ha']
      have hk : keysOf ([] : List Str) = [] := rfl
      have := placeAddr_ren hf hx p p' c a [] cur
      rw [hk]
      cases h1 : placeAddr cfg p [] a c cur with
      | error e =>
        rw [h1] at this
        cases h2 : placeAddr cfg p' [] (renumber f [] a) c (renF f [] cur) with
        | error e' => rw [h2] at this; exact this
        | ok b => rw [h2] at this; exact this.elim
      | ok x =>
        rw [h1] at this
        cases h2 : placeAddr cfg p' [] (renumber f [] a) c (renF f [] cur) with
        | error e' => rw [h2] at this; exact this.elim
        | ok y =>
          rw [h2] at this
          obtain ⟨x1, x2⟩ := x; obtain ⟨y1, y2⟩ := y
          obtain ⟨e1, e2⟩ := this
          simp only at e1 e2
          subst e1
          simp only
          have ih2 := ih x1
          cases h3 : placeAll cfg r x1 with
          | error e =>
            rw [h3] at ih2
            cases h4 : placeAll cfg r' (renF f [] x1) with
            | error e' => rw [h4] at ih2; exact ih2
            | ok b => rw [h4] at ih2; exact ih2.elim
          | ok u =>
            rw [h3] at ih2
            cases h4 : placeAll cfg r' (renF f [] x1) with
            | error e' => rw [h4] at ih2; exact ih2.elim
            | ok v =>
              rw [h4] at ih2
              exact ⟨ih2.1, by simp [e2, ih2.2]⟩

/-! ### The order of the items -/

theorem insertIdx_ren {α : Type} {g : Int → Int} (hg : ∀ i j, i < j → g i < g j) (x : Int × α) (l : List (Int × α)) :
    insertIdx (g x.1, x.2) (l.map (fun e => (g e.1, e.2))) = (insertIdx x l).map (fun e => (g e.1, e.2)) := by
  induction l with
  | nil => rfl
  | cons y r ih =>
    simp only [List.map_cons, insertIdx, ih]
    have : g x.1 ≤ g y.1 ↔ x.1 ≤ y.1 := by
      constructor
      · intro h
        rcases Int.lt_or_le y.1 x.1 with h1 | h1
        · have := hg _ _ h1; omega
        · exact h1
      · intro h
        rcases Int.lt_or_eq_of_le h with h1 | h1
        · have := hg _ _ h1; omega
        · rw [h1]; exact Int.le_refl _
    by_cases h : x.1 ≤ y.1 <;> simp [h, this]

theorem sortIdx_ren {α : Type} {g : Int → Int} (hg : ∀ i j, i < j → g i < g j) (l : List (Int × α)) :
    sortIdx (l.map (fun e => (g e.1, e.2))) = (sortIdx l).map (fun e => (g e.1, e.2)) := by
  induction l with
  | nil => rfl
  | cons y r ih => simp only [List.map_cons, sortIdx, ih, insertIdx_ren hg]

mutual
theorem toTemp_ren {f : Numbering} (hf : KeepsOrder f) (n : Option Str) (xml : Bool) (ks : List Str) : ∀ fs : List (Str × RTree),
    toTemp n xml (renF f ks fs) = toTemp n xml fs
  | [] => by simp [renF, toTemp]
  | (k, .cell c) :: r => by simp only [renF, ren, toTemp, toTemp_ren hf n xml ks r]
  | (k, .obj fs) :: r => by
    have he : (renF f (ks ++ [k]) fs).isEmpty = fs.isEmpty := by cases fs <;> simp [renF]
    simp only [renF, ren, toTemp, he, toTemp_ren hf n xml ks r, toTemp_ren hf n xml (ks ++ [k]) fs]
  | (k, .lad is) :: r => by
    simp only [renF, ren, toTemp, toTemp_ren hf n xml ks r]
    rw [toTempItems_ren hf n xml (ks ++ [k]) is]
    cases toTempItems n xml is with
    | error e => rfl
    | ok a =>
      have h1 : (sortIdx (a.map (fun e => (f (ks ++ [k]) e.1, e.2)))).map (·.2) = (sortIdx a).map (·.2) := by
        rw [sortIdx_ren (fun i j h => hf (ks ++ [k]) i j h)]; simp
      simp only [Except.map, h1]
theorem toTempItems_ren {f : Numbering} (hf : KeepsOrder f) (n : Option Str) (xml : Bool) (ks : List Str) :
    ∀ is : List (Int × List (Str × RTree)),
    toTempItems n xml (renI f ks is) = (toTempItems n xml is).map (fun l => l.map (fun e => (f ks e.1, e.2)))
  | [] => by simp [renI, toTempItems, Except.map]
  | (i, fs) :: r => by
    have he : (renF f ks fs).isEmpty = fs.isEmpty := by cases fs <;> simp [renF]
    simp only [renI, toTempItems, he, toTemp_ren hf n xml ks fs]
    rw [toTempItems_ren hf n xml ks r]
    split
    · rfl
    · cases toTemp n xml fs with
      | error e => rfl
      | ok a =>
        simp only
        cases toTempItems n xml r <;> simp [Except.map]
end

/-- A row's result: the object without locations, the warnings without headings. -/
def bareRow (r : Except Err (Fields × List Warn)) : Except Err (Fields × List Warn) :=
  r.map (fun r => (tlF noLoc r.1, r.2.map withoutHeading))

theorem unflattenRow_ren {f : Numbering} (hf : KeepsOrder f) {cfg : RowCfg} (hx : cfg.xml = false) (n : Option Str) {cells cells' : List (Str × Cell)}
    (h : All₂ (SameCell cfg f) cells cells') :
    (unflattenRow cfg n cells).map (fun r => (r.1, r.2.map withoutHeading)) = (unflattenRow cfg n cells').map (fun r => (r.1, r.2.map withoutHeading)) := by
  unfold unflattenRow
  have := placeAll_ren hf hx h []
  simp only [renF] at this
  cases h1 : placeAll cfg cells [] with
  | error e =>
    rw [h1] at this
    cases h2 : placeAll cfg cells' [] with
    | error e' => rw [h2] at this; simp only [Except.Rel] at this; subst this; rfl
    | ok b => rw [h2] at this; exact this.elim
  | ok x =>
    rw [h1] at this
    cases h2 : placeAll cfg cells' [] with
    | error e' => rw [h2] at this; exact this.elim
    | ok y =>
      rw [h2] at this
      obtain ⟨x1, x2⟩ := x; obtain ⟨y1, y2⟩ := y
      obtain ⟨e1, e2⟩ := this
      simp only at e1 e2
      subst e1
      simp only [toTemp_ren hf]
      cases toTemp n cfg.xml x1 <;> simp [Except.map, e2]

theorem lineCells_same {cfg : UnCfg} {f : Numbering} {l l' : Line} (h : All₂ (SameColumn cfg f) l l') (s s' : Str)
    (hs hs' : Option (List (Option Str))) (j j' k k' : Nat) :
    All₂ (SameCell cfg.row f) ((lineCells s hs j k l).map (fun e => (e.1, e.2.reloc noLoc))) ((lineCells s' hs' j' k' l').map (fun e => (e.1, e.2.reloc noLoc))) := by
  induction h generalizing k k' with
  | nil => exact .nil
  | @cons c c' r r' h1 _ ih =>
    obtain ⟨h, v⟩ := c; obtain ⟨h', v'⟩ := c'
    have hv := h1.value
    simp only at hv
    subst hv
    simp only [lineCells, List.map_cons]
    refine .cons ⟨by simp [Cell.reloc, noLoc], fun hb => h1.position hb⟩ (ih (k + 1) (k' + 1))

theorem bareRow_line {cfg : UnCfg} (hx : cfg.row.xml = false) {l l' : Line} (h : Renumbered cfg l l') (s s' : Str)
    (hs hs' : Option (List (Option Str))) (j j' : Nat) :
    bareRow (unflattenRow cfg.row cfg.idName (lineCells s hs j 0 l)) = bareRow (unflattenRow cfg.row cfg.idName (lineCells s' hs' j' 0 l')) := by
  obtain ⟨f, hf, h⟩ := h
  have h1 := unflattenRow_ren hf hx cfg.idName (lineCells_same h s s' hs hs' j j' 0 0)
  rw [unflattenRow_reloc, unflattenRow_reloc] at h1
  unfold bareRow
  generalize unflattenRow cfg.row cfg.idName (lineCells s hs j 0 l) = a at h1 ⊢
  generalize unflattenRow cfg.row cfg.idName (lineCells s' hs' j' 0 l') = b at h1 ⊢
  cases a <;> cases b <;> simpa [Except.map] using h1

/-! ### Merging -/

section
variable (g : Loc → Loc)

mutual
theorem ignoredWarns_plain (why : Why) : ∀ t, (ignoredWarns why (tl g t)).map withoutHeading = (ignoredWarns why t).map withoutHeading
  | .cell c => by simp [tl, ignoredWarns, withoutHeading]
  | .obj fs => by simp [tl, ignoredWarns, ignoredWarnsFields_plain why fs]
  | .tmp a b => by simp [tl, ignoredWarns, ignoredWarnsKeyed_plain why a, ignoredWarnsItems_plain why b]
theorem ignoredWarnsFields_plain (why : Why) : ∀ t, (ignoredWarnsFields why (tlF g t)).map withoutHeading = (ignoredWarnsFields why t).map withoutHeading
  | [] => by simp [tlF, ignoredWarnsFields]
  | (_, t) :: r => by simp [tlF, ignoredWarnsFields, ignoredWarns_plain why t, ignoredWarnsFields_plain why r]
theorem ignoredWarnsKeyed_plain (why : Why) : ∀ t, (ignoredWarnsKeyed why (tlK g t)).map withoutHeading = (ignoredWarnsKeyed why t).map withoutHeading
  | [] => by simp [tlK, ignoredWarnsKeyed]
  | (_, t) :: r => by simp [tlK, ignoredWarnsKeyed, ignoredWarnsFields_plain why t, ignoredWarnsKeyed_plain why r]
theorem ignoredWarnsItems_plain (why : Why) : ∀ t, (ignoredWarnsItems why (tlI g t)).map withoutHeading = (ignoredWarnsItems why t).map withoutHeading
  | [] => by simp [tlI, ignoredWarnsItems]
  | t :: r => by simp [tlI, ignoredWarnsItems, ignoredWarnsFields_plain why t, ignoredWarnsItems_plain why r]
end

/-- A result of merging: the tree without locations, the warnings without headings. -/
def SameMerge {α : Type} (m : α → α) (r r' : α × List Warn) : Prop := r.1 = m r'.1 ∧ r.2.map withoutHeading = r'.2.map withoutHeading

theorem mergeCell_plain (sheet key : Str) (c : Cell) (bv : Tree) :
    SameMerge (tl g) (mergeCell sheet key (c.reloc g) (tl g bv)) (mergeCell sheet key c bv) := by
  unfold mergeCell SameMerge
  cases hv : c.value with
  | geo x => simp [hv, withoutHeading]
  | atom a =>
    cases bv with
    | cell b => simp only [tl, Cell.reloc_value, hv]; by_cases h : b.value.pyEq c.value = true <;> rw [hv] at h <;> simp [tl, Cell.reloc, h]
    | obj fs => simp [tl, hv, withoutHeading]
    | tmp a b => simp [tl, hv, withoutHeading]
  | arr a =>
    cases bv with
    | cell b => simp only [tl, Cell.reloc_value, hv]; by_cases h : b.value.pyEq c.value = true <;> rw [hv] at h <;> simp [tl, Cell.reloc, h]
    | obj fs => simp [tl, hv, withoutHeading]
    | tmp a b => simp [tl, hv, withoutHeading]
  | arr2 a =>
    cases bv with
    | cell b => simp only [tl, Cell.reloc_value, hv]; by_cases h : b.value.pyEq c.value = true <;> rw [hv] at h <;> simp [tl, Cell.reloc, h]
    | obj fs => simp [tl, hv, withoutHeading]
    | tmp a b => simp [tl, hv, withoutHeading]

mutual
theorem mergeFields_plain (sheet : Str) : ∀ fs base : Fields,
    SameMerge (tlF g) (mergeFields sheet (tlF g fs) (tlF g base)) (mergeFields sheet fs base)
  | [], base => by simp [tlF, mergeFields, SameMerge]
  | (k, v) :: r, base => by
    simp only [tlF, mergeFields, tlF_get]
    cases hb : Dict.get base k with
    | none =>
      simp only [Option.map_none, tlF_set]
      exact mergeFields_plain sheet r _
    | some bv =>
      simp only [Option.map_some]
      obtain ⟨h1, h2⟩ := mergeTree_plain sheet k v bv
      rw [h1, tlF_set]
      obtain ⟨h3, h4⟩ := mergeFields_plain sheet r (Dict.set base k (mergeTree sheet k v bv).1)
      exact ⟨h3, by simp [h2, h4]⟩
theorem mergeTree_plain (sheet key : Str) : ∀ v bv : Tree,
    SameMerge (tl g) (mergeTree sheet key (tl g v) (tl g bv)) (mergeTree sheet key v bv)
  | .cell c, bv => by simp only [tl, mergeTree]; exact mergeCell_plain g sheet key c bv
  | .obj fs, bv => by
    cases bv with
    | obj bfs =>
      simp only [tl, mergeTree]
      obtain ⟨h1, h2⟩ := mergeFields_plain sheet fs bfs
      exact ⟨by simp only [tl, h1], h2⟩
    | cell c => simp only [tl, mergeTree]; exact ⟨by simp [tl], ignoredWarnsFields_plain g _ fs⟩
    | tmp a b => simp only [tl, mergeTree]; exact ⟨by simp [tl], ignoredWarnsFields_plain g _ fs⟩
  | .tmp keyed rest, bv => by
    cases bv with
    | tmp a b =>
      simp only [tl, mergeTree]
      obtain ⟨h1, h2⟩ := mergeKeyed_plain sheet keyed a
      exact ⟨by simp only [tl, h1, tlI_append], h2⟩
    | cell c => simp only [tl, mergeTree]; exact ⟨by simp [tl], by simp [ignoredWarnsKeyed_plain g, ignoredWarnsItems_plain g]⟩
    | obj b => simp only [tl, mergeTree]; exact ⟨by simp [tl], by simp [ignoredWarnsKeyed_plain g, ignoredWarnsItems_plain g]⟩
theorem mergeKeyed_plain (sheet : Str) : ∀ ks base : List (Val × Fields),
    SameMerge (tlK g) (mergeKeyed sheet (tlK g ks) (tlK g base)) (mergeKeyed sheet ks base)
  | [], base => by simp [tlK, mergeKeyed, SameMerge]
  | (k, v) :: r, base => by
    simp only [tlK, mergeKeyed, tlK_get]
    cases hb : keyGet base k with
    | none =>
      simp only [Option.map_none, tlK_set]
      exact mergeKeyed_plain sheet r _
    | some bv =>
      simp only [Option.map_some]
      obtain ⟨h1, h2⟩ := mergeFields_plain sheet v bv
      rw [h1, tlK_set]
      obtain ⟨h3, h4⟩ := mergeKeyed_plain sheet r (keySet base k (mergeFields sheet v bv).1)
      exact ⟨h3, by simp [h2, h4]⟩
end
end

theorem addToGroup_plain (g : Loc → Loc) (cfg : UnCfg) (sheet : Str) (fs : Fields) (td : TDict) :
    (addToGroup cfg sheet (tlF g fs) (td.reloc g)).map (fun r => (r.1, r.2.map withoutHeading)) =
      (addToGroup cfg sheet fs td).map (fun r => (r.1.reloc g, r.2.map withoutHeading)) := by
  unfold addToGroup
  rw [rowKey_reloc, append_reloc]
  cases rowKey cfg.idName cfg.row.xml fs with
  | error e => simp [Except.map]
  | ok k =>
    cases k with
    | none => cases td.append cfg.idName cfg.row.xml fs <;> simp [Except.map]
    | some k =>
      simp only
      split
      · simp [Except.map]
      · simp only [TDict.reloc, tlK_get]
        cases hk : keyGet td.keyed k with
        | some base =>
          obtain ⟨h1, h2⟩ := mergeFields_plain g sheet fs base
          simp [Except.map, h1, h2, tlK_set]
        | none =>
          simp only [Option.map_none]
          cases td.append cfg.idName cfg.row.xml fs <;> simp [Except.map, TDict.reloc]

theorem addRow_plain (g : Loc → Loc) (cfg : UnCfg) (sheet : Str) (root : Val) (fs : Fields) (gs : Groups) :
    (addRow cfg sheet root (tlF g fs) (gsl g gs)).map (fun r => (r.1, r.2.map withoutHeading)) =
      (addRow cfg sheet root fs gs).map (fun r => (gsl g r.1, r.2.map withoutHeading)) := by
  unfold addRow
  have h1 : (keyGet (gsl g gs) root).getD {} = ((keyGet gs root).getD {}).reloc g := by
    unfold gsl; rw [keyGet_map]
    cases keyGet gs root <;> simp [TDict.reloc, tlK, tlI]
  have h2 := addToGroup_plain g cfg sheet fs ((keyGet gs root).getD {})
  rw [h1]
  cases h3 : addToGroup cfg sheet fs ((keyGet gs root).getD {}) with
  | error e =>
    rw [h3] at h2
    cases h4 : addToGroup cfg sheet (tlF g fs) (((keyGet gs root).getD {}).reloc g) with
    | error e' => rw [h4] at h2; simpa [Except.map] using h2
    | ok r => rw [h4] at h2; simp [Except.map] at h2
  | ok x =>
    rw [h3] at h2
    cases h4 : addToGroup cfg sheet (tlF g fs) (((keyGet gs root).getD {}).reloc g) with
    | error e' => rw [h4] at h2; simp [Except.map] at h2
    | ok y =>
      rw [h4] at h2
      simp only [Except.map, Except.ok.injEq, Prod.mk.injEq] at h2
      simp only [Except.map, gsl, h2.1, h2.2]
      rw [keySet_map]

/-! ### The run -/

/-- The state of a run without locations, and its warnings without headings. -/
def bareRun (r : Except Err (Groups × List Warn)) : Except Err (Groups × List Warn) :=
  r.map (fun r => (gsl noLoc r.1, plainWarnings r.2))

theorem plain_append (a b : List Warn) : plainWarnings (a ++ b) = plainWarnings a ++ plainWarnings b := by simp [plainWarnings]

theorem withoutHeading_dup (w : Warn) : aboutDuplicates (withoutHeading w) = aboutDuplicates w := by cases w <;> rfl

theorem plain_eq (w : List Warn) : plainWarnings w = (w.map withoutHeading).filter (fun w => !aboutDuplicates w) := by
  unfold plainWarnings
  induction w with
  | nil => rfl
  | cons x r ih =>
    simp only [List.filter_cons, List.map_cons, withoutHeading_dup]
    split <;> simp [ih]

theorem rootKey_same {cfg : UnCfg} {f : Numbering} {l l' : Line} (h : All₂ (SameColumn cfg f) l l') : rootKey cfg l = rootKey cfg l' := by
  unfold rootKey
  cases hr : cfg.rootId with
  | none => rfl
  | some r =>
    simp only
    congr 2
    induction h with
    | nil => rfl
    | @cons c c' t t' h1 _ ih =>
      obtain ⟨k, v⟩ := c; obtain ⟨k', v'⟩ := c'
      have := h1.rootId r hr
      have hv := h1.value
      simp only at this hv
      simp only [Dict.get_cons, hv]
      by_cases hk : k = some r
      · simp [hk, this.1 hk]
      · have hk' : ¬ k' = some r := fun e => hk (this.2 e)
        simp only [hk, hk', if_false]; exact ih

theorem blankLine_same {cfg : UnCfg} {f : Numbering} {l l' : Line} (h : All₂ (SameColumn cfg f) l l') : blankLine l = blankLine l' := by
  unfold blankLine
  induction h with
  | nil => rfl
  | cons h1 _ ih => simp only [List.all_cons, ih, h1.value]

theorem addRow_same {cfg : UnCfg} {sheet : Str} {root : Val} {fs fs' : Fields} {gs gs' : Groups} (hf : tlF noLoc fs = tlF noLoc fs')
    (hg : gsl noLoc gs = gsl noLoc gs') : bareRun (addRow cfg sheet root fs gs) = bareRun (addRow cfg sheet root fs' gs') := by
  have h1 := addRow_plain noLoc cfg sheet root fs gs
  have h2 := addRow_plain noLoc cfg sheet root fs' gs'
  rw [hf, hg, h2] at h1
  unfold bareRun
  generalize addRow cfg sheet root fs gs = a at h1 ⊢
  generalize addRow cfg sheet root fs' gs' = b at h1 ⊢
  cases a <;> cases b <;> simp_all [Except.map, plain_eq]

/-- Two lines that are alike but for the places of their cells. -/
structure AlikeLine (cfg : UnCfg) (l l' : Line) : Prop where
  blank : blankLine l = blankLine l'
  root : rootKey cfg l = rootKey cfg l'
  row : ∀ (s s' : Str) (hs hs' : Option (List (Option Str))) (j j' : Nat),
    bareRow (unflattenRow cfg.row cfg.idName (lineCells s hs j 0 l)) = bareRow (unflattenRow cfg.row cfg.idName (lineCells s' hs' j' 0 l'))

structure AlikeSheet (cfg : UnCfg) (s s' : SheetIn) : Prop where
  name : s.name = s'.name
  headed : s.headings = some [] ↔ s'.headings = some []
  lines : All₂ (AlikeLine cfg) s.lines s'.lines

theorem alike_renumbered {cfg : UnCfg} (hx : cfg.row.xml = false) {l l' : Line} (h : Renumbered cfg l l') : AlikeLine cfg l l' := by
  obtain ⟨f, hf, h'⟩ := h
  exact ⟨blankLine_same h', rootKey_same h', bareRow_line hx ⟨f, hf, h'⟩⟩

theorem alike_lines {cfg : UnCfg} (hx : cfg.row.xml = false) {a b : List Line} (h : All₂ (Renumbered cfg) a b) : All₂ (AlikeLine cfg) a b := by
  induction h with
  | nil => exact .nil
  | cons h1 _ ih => exact .cons (alike_renumbered hx h1) ih

theorem lineCells_away (s s' : Str) (hs hs' : Option (List (Option Str))) (j j' : Nat) : ∀ (l : Line) (k k' : Nat),
    (lineCells s hs j k l).map (fun e => (e.1, e.2.reloc noLoc)) = (lineCells s' hs' j' k' l).map (fun e => (e.1, e.2.reloc noLoc))
  | [], _, _ => rfl
  | (h, v) :: r, k, k' => by
    simp only [lineCells, List.map_cons]
    rw [lineCells_away s s' hs hs' j j' r (k + 1) (k' + 1)]
    simp [Cell.reloc, noLoc]

theorem alike_refl (cfg : UnCfg) (l : Line) : AlikeLine cfg l l := by
  refine ⟨rfl, rfl, ?_⟩
  intro s s' hs hs' j j'
  have h1 := unflattenRow_reloc noLoc cfg.row cfg.idName (lineCells s hs j 0 l)
  have h2 := unflattenRow_reloc noLoc cfg.row cfg.idName (lineCells s' hs' j' 0 l)
  rw [lineCells_away s s' hs hs' j j' l 0 0, h2] at h1
  unfold bareRow
  generalize unflattenRow cfg.row cfg.idName (lineCells s hs j 0 l) = a at h1 ⊢
  generalize unflattenRow cfg.row cfg.idName (lineCells s' hs' j' 0 l) = b at h1 ⊢
  cases a <;> cases b <;> simp_all [Except.map]

theorem addLine_same {cfg : UnCfg} {l l' : Line} (h : AlikeLine cfg l l') (sheet : Str)
    (hs hs' : Option (List (Option Str))) (j j' : Nat) {gs gs' : Groups} (hg : gsl noLoc gs = gsl noLoc gs') :
    bareRun (addLine cfg sheet hs j l gs) = bareRun (addLine cfg sheet hs' j' l' gs') := by
  unfold addLine
  rw [h.blank]
  split
  · simp [bareRun, Except.map, hg]
  · have h1 := h.row sheet sheet hs hs' j j'
    rw [h.root]
    unfold bareRow at h1
    cases ha : unflattenRow cfg.row cfg.idName (lineCells sheet hs j 0 l) with
    | error e =>
      rw [ha] at h1
      cases hb : unflattenRow cfg.row cfg.idName (lineCells sheet hs' j' 0 l') with
      | error e' => rw [hb] at h1; simp only [Except.map, Except.error.injEq] at h1; subst h1; rfl
      | ok y => rw [hb] at h1; simp [Except.map] at h1
    | ok x =>
      rw [ha] at h1
      cases hb : unflattenRow cfg.row cfg.idName (lineCells sheet hs' j' 0 l') with
      | error e' => rw [hb] at h1; simp [Except.map] at h1
      | ok y =>
        rw [hb] at h1
        obtain ⟨x1, x2⟩ := x; obtain ⟨y1, y2⟩ := y
        simp only [Except.map, Except.ok.injEq, Prod.mk.injEq] at h1
        simp only
        have h2 := addRow_same (cfg := cfg) (sheet := sheet) (root := rootKey cfg l') h1.1 hg
        generalize addRow cfg sheet (rootKey cfg l') x1 gs = a at h2 ⊢
        generalize addRow cfg sheet (rootKey cfg l') y1 gs' = b at h2 ⊢
        have hw : plainWarnings x2 = plainWarnings y2 := by rw [plain_eq, plain_eq, h1.2]
        cases a <;> cases b <;> simp_all [bareRun, Except.map, plain_append]

/-- Two steps one after the other. -/
def thenRun (a : Except Err (Groups × List Warn)) (k : Groups → Except Err (Groups × List Warn)) : Except Err (Groups × List Warn) :=
  match a with
  | .error e => .error e
  | .ok (gs1, w1) =>
    match k gs1 with
    | .error e => .error e
    | .ok (gs2, w2) => .ok (gs2, w1 ++ w2)

theorem thenRun_same {a a' : Except Err (Groups × List Warn)} {k k' : Groups → Except Err (Groups × List Warn)} (h : bareRun a = bareRun a')
    (hk : ∀ gs gs', gsl noLoc gs = gsl noLoc gs' → bareRun (k gs) = bareRun (k' gs')) : bareRun (thenRun a k) = bareRun (thenRun a' k') := by
  cases a with
  | error e => cases a' with
    | error e' => simpa [bareRun, Except.map, thenRun] using h
    | ok y => simp [bareRun, Except.map] at h
  | ok x => cases a' with
    | error e' => simp [bareRun, Except.map] at h
    | ok y =>
      obtain ⟨x1, x2⟩ := x; obtain ⟨y1, y2⟩ := y
      simp only [bareRun, Except.map, Except.ok.injEq, Prod.mk.injEq] at h
      have h2 := hk x1 y1 h.1
      simp only [thenRun]
      generalize k x1 = a at h2 ⊢
      generalize k' y1 = b at h2 ⊢
      cases a <;> cases b <;> simp_all [bareRun, Except.map, plain_append]

theorem addLines_same {cfg : UnCfg} {ls ls' : List Line} (h : All₂ (AlikeLine cfg) ls ls') (sheet : Str)
    (hs hs' : Option (List (Option Str))) : ∀ (j j' : Nat) {gs gs' : Groups}, gsl noLoc gs = gsl noLoc gs' →
    bareRun (addLines cfg sheet hs j ls gs) = bareRun (addLines cfg sheet hs' j' ls' gs') := by
  induction h with
  | nil => intro j j' gs gs' hg; simp [addLines, bareRun, Except.map, hg]
  | @cons l l' r r' h1 _ ih =>
    intro j j' gs gs' hg
    exact thenRun_same (addLine_same h1 sheet hs hs' j j' hg) (fun g g' hgg => ih (j + 1) (j' + 1) hgg)

theorem plain_dupOf (s : SheetIn) : plainWarnings (dupOf s) = [] := by
  unfold dupOf plainWarnings
  cases s.headings with
  | none => rfl
  | some hs =>
    simp only [headingWarns, List.map_eq_nil_iff, List.filter_eq_nil_iff, List.mem_filterMap]
    rintro w ⟨e, _, h⟩
    split at h
    · cases h; simp [aboutDuplicates]
    · cases h

theorem addSheets_same {cfg : UnCfg} {ss ss' : List SheetIn} (h : All₂ (AlikeSheet cfg) ss ss') :
    ∀ {gs gs' : Groups}, gsl noLoc gs = gsl noLoc gs' → bareRun (addSheets cfg ss gs) = bareRun (addSheets cfg ss' gs') := by
  induction h with
  | nil => intro gs gs' hg; simp [addSheets, bareRun, Except.map, hg]
  | @cons s s' r r' h1 _ ih =>
    intro gs gs' hg
    simp only [addSheets]
    by_cases he : s.headings = some []
    · rw [if_pos he, if_pos (h1.headed.1 he)]; exact ih hg
    · rw [if_neg he, if_neg (fun h => he (h1.headed.2 h))]
      have h2 := thenRun_same (k := addSheets cfg r) (k' := addSheets cfg r')
        (addLines_same h1.lines s.name s.headings s'.headings 0 0 hg) (fun g g' hgg => ih hgg)
      have d1 := plain_dupOf s
      have d2 := plain_dupOf s'
      unfold dupOf at d1 d2
      rw [← h1.name] at d2 ⊢
      generalize addLines cfg s.name s.headings 0 s.lines gs = a at h2 ⊢
      generalize addLines cfg s.name s'.headings 0 s'.lines gs' = b at h2 ⊢
      cases a with
      | error e => cases b with
        | error e' => simpa [bareRun, Except.map, thenRun] using h2
        | ok y =>
          obtain ⟨y1, y2⟩ := y
          simp only [thenRun] at h2 ⊢
          generalize addSheets cfg r' y1 = b' at h2 ⊢
          cases b' <;> simp_all [bareRun, Except.map]
      | ok x =>
        obtain ⟨x1, x2⟩ := x
        simp only [thenRun] at h2 ⊢
        generalize addSheets cfg r x1 = a' at h2 ⊢
        cases b with
        | error e' => cases a' <;> simp_all [bareRun, Except.map]
        | ok y =>
          obtain ⟨y1, y2⟩ := y
          simp only at h2 ⊢
          generalize addSheets cfg r' y1 = b' at h2 ⊢
          cases a' <;> cases b' <;> simp_all [bareRun, Except.map, plain_append]
          clear h1 he
          revert d1 d2
          cases s.headings <;> cases s'.headings <;> intro d1 d2 <;> simp_all

/-- Both runs give the same document. -/
theorem unflatten_alike {cfg : UnCfg} {ss ss' : List SheetIn} (h : All₂ (AlikeSheet cfg) ss ss') :
    (unflatten cfg ss).map (fun r => (r.1, plainWarnings r.2)) = (unflatten cfg ss').map (fun r => (r.1, plainWarnings r.2)) := by
  have h1 := addSheets_same h (gs := []) (gs' := []) rfl
  unfold unflatten doUnflatten
  cases ha : addSheets cfg ss [] with
  | error e =>
    rw [ha] at h1
    cases hb : addSheets cfg ss' [] with
    | error e' => rw [hb] at h1; simpa [bareRun, Except.map] using h1
    | ok y => rw [hb] at h1; simp [bareRun, Except.map] at h1
  | ok x =>
    rw [ha] at h1
    cases hb : addSheets cfg ss' [] with
    | error e' => rw [hb] at h1; simp [bareRun, Except.map] at h1
    | ok y =>
      rw [hb] at h1
      simp only [bareRun, Except.map, Except.ok.injEq, Prod.mk.injEq] at h1
      simp only [Except.map, jgs_eq]
      rw [← jgs_gsl noLoc x.1, ← jgs_gsl noLoc y.1, h1.1, h1.2]

theorem unflatten_same {cfg : UnCfg} (hx : cfg.row.xml = false) {ss ss' : List SheetIn} (h : All₂ (RenumberedSheet cfg) ss ss') :
    (unflatten cfg ss).map (fun r => (r.1, plainWarnings r.2)) = (unflatten cfg ss').map (fun r => (r.1, plainWarnings r.2)) := by
  apply unflatten_alike
  induction h with
  | nil => exact .nil
  | cons h _ ih =>
    refine .cons ⟨h.name, h.headed, ?_⟩ ih
    exact alike_lines hx h.lines

end Verif
