import Verif.Spec.RoundTrip
import Verif.Proofs.RowFlat
import Verif.Proofs.FlatItems
/-! The document as a labelled tree, and its objects with their positions. -/
namespace Verif
open Spec

/-! ### Unfolding what fits -/

theorem fitsFields_iff {T : Trip} {ks : List Str} {fs : List (Str × Json)} : T.FitsFields ks fs ↔ ∀ e ∈ fs, T.Fits (ks ++ [e.1]) e.2 := by
  induction fs with
  | nil => simp [Trip.FitsFields]
  | cons e r ih => obtain ⟨k, v⟩ := e; simp [Trip.FitsFields, ih]

theorem fitsItems_iff {T : Trip} {ks : List Str} {l : List Json} : T.FitsItems ks l ↔
    ∀ x ∈ l, ∃ fs, x = .obj fs ∧ T.Object fs ∧ T.NoRoot fs ∧ T.Named fs ∧ T.FitsFields ks fs := by
  induction l with
  | nil => simp [Trip.FitsItems]
  | cons x r ih =>
    cases x with
    | leaf a => simp [Trip.FitsItems]
    | arr a => simp [Trip.FitsItems]
    | obj fs => simp [Trip.FitsItems, ih]

/-! ### The value read back -/

/-- The value that a scalar is read back as. -/
def back (T : Trip) (ks : List Str) (b : Atom) : Val :=
  match convertType T.conv ((T.types (pathText ks)).getD .untyped) (T.write b) with
  | .ok (v, _) => v
  | .error _ => .atom .none

theorem Spec.Trip.Returns.back {T : Trip} {ks : List Str} {b : Atom} {j : Json} (h : T.Returns ks b j) :
    (∃ w, convertType T.conv ((T.types (pathText ks)).getD .untyped) (T.write b) = .ok (Verif.back T ks b, w)) ∧
    (Verif.back T ks b).blank = false ∧ (Verif.back T ks b).pyEq (Verif.back T ks b) = true ∧ (∀ g, Verif.back T ks b ≠ .geo g) ∧
    (Verif.back T ks b).toJson = j := by
  obtain ⟨_, _, _, v, w, h1, h2, h3, h4, h5⟩ := h
  have : Verif.back T ks b = v := by simp [Verif.back, h1]
  rw [this]; exact ⟨⟨w, h1⟩, h2, h3, h4, h5⟩

theorem Spec.Trip.Returns.leaf {T : Trip} {ks : List Str} {b a : Atom} (h : T.Returns ks b (.leaf a)) : Verif.back T ks b = .atom a := by
  obtain ⟨_, _, _, h4, h5⟩ := h.back
  revert h4 h5
  cases Verif.back T ks b <;> simp [Val.toJson]

/-! ### The tree of a document -/

/-- The label of an item: its id, or else its number (as a value that is no id). -/
def labelOf (T : Trip) (i : Nat) (fs : List (Str × Json)) : Val :=
  match T.idOf fs with
  | some a => .atom a
  | none => .arr [.str (List.replicate i 'x')]

/-- A cell that comes from nowhere. -/
def docCell (v : Val) : Cell := { value := v, loc := ⟨[], 0, 0, []⟩ }

mutual
/-- The tree of a value below the keys `ks`. -/
def docT (T : Trip) (ks : List Str) : Json → Tree
  | .leaf a => .cell (docCell (back T ks a))
  | .obj fs => .obj (docF T ks fs)
  | .arr l =>
    match joinArray l with
    | some t => .cell (docCell (back T ks (.str t)))
    | none => .tmp (docI T ks 0 l) []
/-- The fields. -/
def docF (T : Trip) (ks : List Str) : List (Str × Json) → List (Str × Tree)
  | [] => []
  | (k, v) :: r => (k, docT T (ks ++ [k]) v) :: docF T ks r
/-- The items, numbered from `i`. -/
def docI (T : Trip) (ks : List Str) (i : Nat) : List Json → List (Val × List (Str × Tree))
  | [] => []
  | .obj fs :: r => (labelOf T i fs, docF T ks fs) :: docI T ks (i + 1) r
  | .leaf _ :: r => docI T ks (i + 1) r
  | .arr _ :: r => docI T ks (i + 1) r
end

theorem docF_map (T : Trip) (ks : List Str) (fs : List (Str × Json)) : docF T ks fs = fs.map (fun e => (e.1, docT T (ks ++ [e.1]) e.2)) := by
  induction fs with
  | nil => rfl
  | cons e r ih => obtain ⟨k, v⟩ := e; simp [docF, ih]

theorem keys_docF (T : Trip) (ks : List Str) (fs : List (Str × Json)) : Dict.keys (docF T ks fs) = Dict.keys fs := by
  rw [docF_map]; simp [Dict.keys, List.map_map, Function.comp_def]

theorem get_docF (T : Trip) (ks : List Str) (fs : List (Str × Json)) (k : Str) :
    Dict.get (docF T ks fs) k = (Dict.get fs k).map (docT T (ks ++ [k])) := by
  induction fs with
  | nil => rfl
  | cons e r ih =>
    obtain ⟨k', v⟩ := e
    simp only [docF, Dict.get_cons, ih]
    split
    · next h => subst h; rfl
    · rfl

/-- The objects among the items, with their numbers. -/
theorem mem_docI {T : Trip} {ks : List Str} {l : List Json} : ∀ {i : Nat} {e : Val × Fields},
    e ∈ docI T ks i l ↔ ∃ j fs, l[j]? = some (.obj fs) ∧ e = (labelOf T (i + j) fs, docF T ks fs) := by
  induction l with
  | nil => intro i e; simp [docI]
  | cons x r ih =>
    intro i e
    have step : (∃ j fs, r[j]? = some (.obj fs) ∧ e = (labelOf T (i + 1 + j) fs, docF T ks fs)) ↔
        ∃ j fs, (x :: r)[j + 1]? = some (.obj fs) ∧ e = (labelOf T (i + (j + 1)) fs, docF T ks fs) := by
      simp only [List.getElem?_cons_succ, Nat.add_assoc, Nat.add_comm 1]
    have all : (∃ j fs, (x :: r)[j]? = some (.obj fs) ∧ e = (labelOf T (i + j) fs, docF T ks fs)) ↔
        (∃ fs, x = .obj fs ∧ e = (labelOf T i fs, docF T ks fs)) ∨
          ∃ j fs, (x :: r)[j + 1]? = some (.obj fs) ∧ e = (labelOf T (i + (j + 1)) fs, docF T ks fs) := by
      constructor
      · rintro ⟨j, fs, h1, h2⟩
        cases j with
        | zero => left; simp only [List.getElem?_cons_zero, Option.some.injEq] at h1; exact ⟨fs, h1, h2⟩
        | succ j => right; exact ⟨j, fs, h1, h2⟩
      · rintro (⟨fs, h1, h2⟩ | ⟨j, fs, h1, h2⟩)
        · exact ⟨0, fs, by simp [h1], h2⟩
        · exact ⟨j + 1, fs, h1, h2⟩
    rw [all, ← step, ← ih]
    cases x with
    | leaf a => simp [docI]
    | arr a => simp [docI]
    | obj fs => simp [docI]

/-- The ids of items, or their numbers, are different. -/
theorem labels_differ {T : Trip} {i j : Nat} {fs gs : List (Str × Json)} (hij : i ≠ j) (h : DifferentIds (T.idOf fs) (T.idOf gs)) :
    (labelOf T i fs).pyEq (labelOf T j gs) = false := by
  unfold labelOf
  cases hf : T.idOf fs with
  | none =>
    cases hg : T.idOf gs with
    | none =>
      simp only [Val.pyEq, Val.canon, List.mapM_cons, List.mapM_nil, Atom.canon, Option.pure_def, Option.bind_eq_bind, Option.bind_some, Option.map_some]
      simp only [beq_eq_false_iff_ne, ne_eq, VCanon.arr.injEq, List.cons.injEq, Canon.str.injEq, and_true]
      intro h
      exact hij (by have := congrArg List.length h; simpa using this)
    | some b =>
      cases hp : (Val.arr [Atom.str (List.replicate i 'x')]).pyEq (.atom b) with
      | false => rfl
      | true => have := Val.hashable_congr hp; simp [Val.hashable] at this
  | some a =>
    cases hg : T.idOf gs with
    | none =>
      cases hp : (Val.atom a).pyEq (Val.arr [Atom.str (List.replicate j 'x')]) with
      | false => rfl
      | true => have := Val.hashable_congr hp; simp [Val.hashable] at this
    | some b => exact h a b hf hg

theorem labelOf_hashable (T : Trip) (i : Nat) (fs : List (Str × Json)) : (labelOf T i fs).hashable = (T.idOf fs).isSome := by
  unfold labelOf; cases T.idOf fs <;> rfl

theorem idOf_get {T : Trip} {fs : List (Str × Json)} {a : Atom} (h : T.idOf fs = some a) : Dict.get fs T.idName = some (.leaf a) := by
  unfold Trip.idOf at h
  split at h
  · next hh => cases h; exact hh
  · cases h

theorem id_none {T : Trip} {fs : List (Str × Json)} (ho : T.Object fs) (h : T.idOf fs = none) : Dict.get fs T.idName = none := by
  cases hg : Dict.get fs T.idName with
  | none => rfl
  | some v => exact absurd h (ho.2.2.2 v hg)

theorem fits_id {T : Trip} {ks : List Str} {fs : List (Str × Json)} {a : Atom} (hf : T.FitsFields ks fs) (h : T.idOf fs = some a) :
    T.Returns (ks ++ [T.idName]) a (.leaf a) := by
  have := fitsFields_iff.1 hf _ (Dict.get_eq_some_mem (idOf_get h))
  simp only [Trip.Fits] at this
  exact this.2

theorem labelOf_self {T : Trip} {ks : List Str} {i : Nat} {fs : List (Str × Json)} (hf : T.FitsFields ks fs) :
    (labelOf T i fs).pyEq (labelOf T i fs) = true := by
  unfold labelOf
  cases h : T.idOf fs with
  | none => simp [Val.pyEq, Val.canon, Atom.canon]
  | some a =>
    have h1 := fits_id hf h
    have := h1.back.2.2.1
    rw [h1.leaf] at this
    exact this

/-- The item that a label names. -/
theorem docI_distinct {T : Trip} {ks : List Str} {l : List Json} : ∀ {i : Nat}, l.Pairwise (fun x y => DifferentIds (T.idOfValue x) (T.idOfValue y)) →
    KeysDistinct (docI T ks i l) := by
  induction l with
  | nil => intro i _; exact List.Pairwise.nil
  | cons x r ih =>
    intro i h
    obtain ⟨h1, h2⟩ := List.pairwise_cons.1 h
    cases x with
    | leaf a => simp only [docI]; exact ih h2
    | arr a => simp only [docI]; exact ih h2
    | obj fs =>
      simp only [docI]
      refine List.pairwise_cons.2 ⟨?_, ih h2⟩
      intro e he
      obtain ⟨j, gs, hj, rfl⟩ := mem_docI.1 he
      rw [labels_differ (by omega) (h1 _ (List.mem_of_getElem? hj))]; simp

/-! ### The objects of a document with their positions -/

/-- An object in an array: its position, the objects around it with their positions, and its fields. -/
structure Place where
  path : List PKey
  around : List (List PKey × List (Str × Json))
  fields : List (Str × Json)

/-- A step of a position, in a heading. -/
def strP : PKey → Str
  | .field k => k
  | .item _ => s%"0"

/-- A position as the parts of a heading. -/
def strs (P : List PKey) : List Str := P.map strP

/-- The keys of a position. -/
def keysP : List PKey → List Str
  | [] => []
  | .field k :: r => k :: keysP r
  | .item _ :: r => keysP r

theorem keysP_append (P Q : List PKey) : keysP (P ++ Q) = keysP P ++ keysP Q := by
  induction P with
  | nil => rfl
  | cons s P ih => cases s <;> simp [keysP, ih]

/-- Only keys. -/
def flds (ks : List Str) : List PKey := ks.map .field

theorem keysP_flds (ks : List Str) : keysP (flds ks) = ks := by
  induction ks with
  | nil => rfl
  | cons k r ih => simp only [flds, List.map_cons, keysP]; rw [← flds, ih]

theorem strs_flds (ks : List Str) : strs (flds ks) = ks := by
  simp [strs, flds, Function.comp_def, strP]

theorem strs_append (P Q : List PKey) : strs (P ++ Q) = strs P ++ strs Q := by simp [strs]

mutual
/-- The objects in arrays below fields. -/
def lf (T : Trip) (P : List PKey) (ar : List (List PKey × List (Str × Json))) : List (Str × Json) → List Place
  | [] => []
  | (k, v) :: r => lv T (P ++ [.field k]) ar v ++ lf T P ar r
/-- The objects in arrays below a value. -/
def lv (T : Trip) (P : List PKey) (ar : List (List PKey × List (Str × Json))) : Json → List Place
  | .leaf _ => []
  | .obj fs => lf T P (ar ++ [(P, fs)]) fs
  | .arr l =>
    match joinArray l with
    | some _ => []
    | none => la T P ar 0 l
/-- The objects in an array (numbered from `i`) and below. -/
def la (T : Trip) (P : List PKey) (ar : List (List PKey × List (Str × Json))) (i : Nat) : List Json → List Place
  | [] => []
  | .obj fs :: r =>
    lf T (P ++ [.item (labelOf T i fs)]) (ar ++ [(P ++ [.item (labelOf T i fs)], fs)]) fs ++
      ⟨P ++ [.item (labelOf T i fs)], ar, fs⟩ :: la T P ar (i + 1) r
  | .leaf _ :: r => la T P ar (i + 1) r
  | .arr _ :: r => la T P ar (i + 1) r
end

theorem lf_flatMap (T : Trip) (P : List PKey) (ar : List (List PKey × List (Str × Json))) (fs : List (Str × Json)) :
    lf T P ar fs = fs.flatMap (fun e => lv T (P ++ [.field e.1]) ar e.2) := by
  induction fs with
  | nil => rfl
  | cons e r ih => obtain ⟨k, v⟩ := e; simp [lf, ih]

theorem mem_la {T : Trip} {P : List PKey} {ar : List (List PKey × List (Str × Json))} {l : List Json} : ∀ {i : Nat} {pl : Place},
    pl ∈ la T P ar i l ↔ ∃ j fs, l[j]? = some (.obj fs) ∧
      (pl = ⟨P ++ [.item (labelOf T (i + j) fs)], ar, fs⟩ ∨ pl ∈ lv T (P ++ [.item (labelOf T (i + j) fs)]) ar (.obj fs)) := by
  induction l with
  | nil => intro i e; simp [la]
  | cons x r ih =>
    intro i pl
    have all : ∀ Q : Nat → List (Str × Json) → Prop, (∃ j fs, (x :: r)[j]? = some (.obj fs) ∧ Q (i + j) fs) ↔
        (∃ fs, x = .obj fs ∧ Q i fs) ∨ ∃ j fs, r[j]? = some (.obj fs) ∧ Q (i + 1 + j) fs := by
      intro Q
      constructor
      · rintro ⟨j, fs, h1, h2⟩
        cases j with
        | zero => left; simp only [List.getElem?_cons_zero, Option.some.injEq] at h1; exact ⟨fs, h1, h2⟩
        | succ j => right; exact ⟨j, fs, by simpa using h1, by rw [Nat.add_assoc, Nat.add_comm 1]; exact h2⟩
      · rintro (⟨fs, h1, h2⟩ | ⟨j, fs, h1, h2⟩)
        · exact ⟨0, fs, by simp [h1], h2⟩
        · exact ⟨j + 1, fs, by simpa using h1, by rw [Nat.add_assoc, Nat.add_comm 1] at h2; exact h2⟩
    rw [all (fun n fs => pl = ⟨P ++ [PKey.item (labelOf T n fs)], ar, fs⟩ ∨ pl ∈ lv T (P ++ [PKey.item (labelOf T n fs)]) ar (.obj fs)), ← ih]
    cases x with
    | leaf a => simp [la]
    | arr a => simp [la]
    | obj fs => simp [la, lv]; grind

/-- The place as the specification of flattening has it. -/
def Place.item (pl : Place) : Item := ⟨strs pl.path.dropLast, pl.around.map (fun a => (strs a.1, a.2)), pl.fields⟩

mutual
theorem items_lf (T : Trip) (P : List PKey) (ar : List (List PKey × List (Str × Json))) : (fs : List (Str × Json)) →
    items everything (strs P) (ar.map (fun a => (strs a.1, a.2))) fs = (lf T P ar fs).map Place.item
  | [] => by simp [items, lf]
  | (k, v) :: r => by
    have h1 := items_lv T (P ++ [.field k]) ar v
    have h2 := items_lf T P ar r
    rw [strs_append] at h1
    simp only [items, everything, if_true, lf, List.map_append, ← h2, ← h1]
    rfl
theorem items_lv (T : Trip) (P : List PKey) (ar : List (List PKey × List (Str × Json))) : (v : Json) →
    valueItems everything (strs P) (ar.map (fun a => (strs a.1, a.2))) v = (lv T P ar v).map Place.item
  | .leaf a => by simp [valueItems, lv]
  | .obj fs => by
    have h := items_lf T P (ar ++ [(P, fs)]) fs
    simp only [valueItems, lv, ← h, List.map_append, List.map_cons, List.map_nil]
  | .arr l => by
    have h := items_la T P ar 0 l
    simp only [valueItems, lv]
    cases joinArray l with
    | some t => simp
    | none => simpa using h
theorem items_la (T : Trip) (P : List PKey) (ar : List (List PKey × List (Str × Json))) (i : Nat) : (l : List Json) →
    arrayItems everything (strs P) (ar.map (fun a => (strs a.1, a.2))) l = (la T P ar i l).map Place.item
  | [] => by simp [arrayItems, la]
  | .obj fs :: r => by
    have h1 := items_lf T (P ++ [.item (labelOf T i fs)]) (ar ++ [(P ++ [.item (labelOf T i fs)], fs)]) fs
    have h2 := items_la T P ar (i + 1) r
    have hs : strs (P ++ [PKey.item (labelOf T i fs)]) = strs P ++ [s%"0"] := by simp [strs, strP]
    rw [hs] at h1
    simp only [arrayItems, la, List.map_append, List.map_cons, ← h1, ← h2, List.map_nil, hs, Place.item, List.dropLast_concat]
  | .leaf a :: r => by
    have h2 := items_la T P ar (i + 1) r
    simp only [arrayItems, la, ← h2]
  | .arr a :: r => by
    have h2 := items_la T P ar (i + 1) r
    simp only [arrayItems, la, ← h2]
end

mutual
theorem lf_length (T : Trip) (P P' : List PKey) (ar ar' : List (List PKey × List (Str × Json))) : (fs : List (Str × Json)) →
    (lf T P ar fs).length = (lf T P' ar' fs).length
  | [] => by simp [lf]
  | (k, v) :: r => by
    have h1 := lv_length T (P ++ [.field k]) (P' ++ [.field k]) ar ar' v
    have h2 := lf_length T P P' ar ar' r
    simp [lf, h1, h2]
theorem lv_length (T : Trip) (P P' : List PKey) (ar ar' : List (List PKey × List (Str × Json))) : (v : Json) →
    (lv T P ar v).length = (lv T P' ar' v).length
  | .leaf a => by simp [lv]
  | .obj fs => by simp only [lv]; exact lf_length T P P' _ _ fs
  | .arr l => by
    have h := la_length T P P' ar ar' 0 l
    simp only [lv]
    cases joinArray l with
    | some t => rfl
    | none => exact h
theorem la_length (T : Trip) (P P' : List PKey) (ar ar' : List (List PKey × List (Str × Json))) (i : Nat) : (l : List Json) →
    (la T P ar i l).length = (la T P' ar' i l).length
  | [] => by simp [la]
  | .obj fs :: r => by
    have h1 := lf_length T (P ++ [.item (labelOf T i fs)]) (P' ++ [.item (labelOf T i fs)]) (ar ++ [(P ++ [.item (labelOf T i fs)], fs)])
      (ar' ++ [(P' ++ [.item (labelOf T i fs)], fs)]) fs
    have h2 := la_length T P P' ar ar' (i + 1) r
    simp [la, h1, h2]
  | .leaf a :: r => by simp only [la]; exact la_length T P P' ar ar' (i + 1) r
  | .arr a :: r => by simp only [la]; exact la_length T P P' ar ar' (i + 1) r
end

/-- An object with objects in arrays below it is named. -/
theorem named_of_mem {T : Trip} {P : List PKey} {ar : List (List PKey × List (Str × Json))} {fs : List (Str × Json)} (hn : T.Named fs)
    {pl : Place} (h : pl ∈ lv T P ar (.obj fs)) : ∃ a, T.idOf fs = some a := by
  have h1 : items everything [] [] fs ≠ [] := by
    intro he
    have h2 := items_lf T [] [] fs
    have h3 : (lf T [] [] fs).length = 0 := by
      have := congrArg List.length h2
      simp only [List.length_map] at this
      rw [← this]; simpa [strs] using he
    rw [lf_length T [] P [] (ar ++ [(P, fs)])] at h3
    simp only [lv] at h
    rw [List.length_eq_zero_iff.1 h3] at h
    cases h
  cases hi : T.idOf fs with
  | none => exact absurd hi (hn h1)
  | some a => exact ⟨a, rfl⟩

/-- The value fits, apart from the type of an object and the root id. -/
def Weak (T : Trip) (ks : List Str) : Json → Prop
  | .obj fs => T.Object fs ∧ T.FitsFields ks fs
  | v => T.Fits ks v

theorem weak_of_fits {T : Trip} {ks : List Str} {v : Json} (h : T.Fits ks v) : Weak T ks v := by
  cases v with
  | leaf a => exact h
  | arr l => exact h
  | obj fs => simp only [Trip.Fits] at h; exact ⟨h.2.1, h.2.2.2⟩

/-- A field of an object in the tree. -/
theorem sub_docF {T : Trip} {D : Tree} {P : List PKey} {fs : List (Str × Json)} (hd : (Dict.keys fs).Nodup)
    (h : D.sub P = some (.obj (docF T (keysP P) fs))) {k : Str} {v : Json} (hm : (k, v) ∈ fs) :
    D.sub (P ++ [.field k]) = some (docT T (keysP (P ++ [.field k])) v) := by
  rw [sub_append, h]
  simp only [Option.bind_some, Tree.sub, get_docF, Dict.get_of_mem hd hm, Option.map_some, keysP_append, keysP]

/-- An item of an array in the tree. -/
theorem sub_docI {T : Trip} {D : Tree} {P : List PKey} {l : List Json} (hj : joinArray l = none) (hfit : T.FitsItems (keysP P) l)
    (hd : l.Pairwise (fun x y => DifferentIds (T.idOfValue x) (T.idOfValue y)))
    (h : D.sub P = some (docT T (keysP P) (.arr l))) {j : Nat} {fs : List (Str × Json)} (hm : l[j]? = some (.obj fs)) :
    D.sub (P ++ [.item (labelOf T j fs)]) = some (.obj (docF T (keysP (P ++ [.item (labelOf T j fs)])) fs)) := by
  rw [sub_append, h]
  obtain ⟨fs', he, -, -, -, hf⟩ := fitsItems_iff.1 hfit _ (List.mem_of_getElem? hm)
  cases he
  have : keyGet (docI T (keysP P) 0 l) (labelOf T j fs) = some (docF T (keysP P) fs) :=
    keyGet_of_mem (docI_distinct hd) (mem_docI.2 ⟨j, fs, hm, by simp⟩) (labelOf_self hf)
  simp [docT, hj, Tree.sub, this, keysP_append, keysP]

/-- What holds of the objects in arrays. -/
structure PlaceOK (T : Trip) (D : Tree) (P : List PKey) (ar : List (List PKey × List (Str × Json))) (pl : Place) : Prop where
  sub : D.sub pl.path = some (.obj (docF T (keysP pl.path) pl.fields))
  object : T.Object pl.fields
  noRoot : T.NoRoot pl.fields
  named : T.Named pl.fields
  fits : T.FitsFields (keysP pl.path) pl.fields
  ends : ∃ Q i, pl.path = Q ++ [.item (labelOf T i pl.fields)]
  pre : P <+: pl.path
  around : ∃ ar', pl.around = ar ++ ar' ∧ ∀ e ∈ ar', P <+: e.1 ∧ e.1 <+: pl.path ∧ e.1 ≠ pl.path ∧
    D.sub e.1 = some (.obj (docF T (keysP e.1) e.2)) ∧ T.Object e.2 ∧ T.FitsFields (keysP e.1) e.2 ∧ (e.1 = P ∨ T.NoRoot e.2)
  inner : ∀ Q l, Q ++ [.item l] <+: pl.path → Q ++ [.item l] ≠ pl.path → P.length ≤ Q.length →
    ∃ gs a, (Q ++ [.item l], gs) ∈ pl.around ∧ T.idOf gs = some a ∧ l = .atom a

theorem prefix_eq {α : Type} {a b c : List α} (h1 : a <+: c) (h2 : b <+: c) (h : a.length = b.length) : a = b :=
  (List.prefix_of_prefix_length_le h1 h2 (by omega)).eq_of_length h

theorem lv_ok {T : Trip} {D : Tree} (v : Json) : ∀ (P : List PKey) (ar : List (List PKey × List (Str × Json))), Weak T (keysP P) v →
    D.sub P = some (docT T (keysP P) v) → ∀ pl ∈ lv T P ar v,
      PlaceOK T D P ar pl ∧ P ≠ pl.path ∧ ∀ fs, v = .obj fs → (P, fs) ∈ pl.around := by
  induction v using Json.ind with
  | leaf a => intro P ar _ _ pl hpl; simp [lv] at hpl
  | obj fs ih =>
    intro P ar hw hs pl hpl
    simp only [lv, lf_flatMap, List.mem_flatMap] at hpl
    obtain ⟨⟨k, v⟩, hm, hpl⟩ := hpl
    have hs' := sub_docF hw.1.2.1 hs hm
    have hfit := fitsFields_iff.1 hw.2 _ hm
    obtain ⟨h, hne, -⟩ := ih _ hm (P ++ [.field k]) (ar ++ [(P, fs)]) (by rw [keysP_append]; exact weak_of_fits hfit) hs' pl hpl
    have hpre : P <+: pl.path := (List.prefix_append _ _).trans h.pre
    have hlen : P.length < pl.path.length := by
      have := h.pre.length_le; simp only [List.length_append, List.length_cons, List.length_nil] at this; omega
    obtain ⟨ar', ha, hae⟩ := h.around
    refine ⟨⟨h.sub, h.object, h.noRoot, h.named, h.fits, h.ends, hpre, ⟨(P, fs) :: ar', by simp [ha], ?_⟩, ?_⟩, ?_, ?_⟩
    · intro e he
      rcases List.mem_cons.1 he with rfl | he
      · exact ⟨List.prefix_rfl, hpre, fun hh => by have := congrArg List.length (show P = pl.path from hh); omega, by simpa [docT] using hs, hw.1, hw.2, .inl rfl⟩
      · obtain ⟨a1, a2, a3, a4, a5, a6, a7⟩ := hae e he
        refine ⟨(List.prefix_append _ _).trans a1, a2, a3, a4, a5, a6, ?_⟩
        rcases a7 with a7 | a7
        · right
          -- an entry at the position of the field is the object there
          have : e.2 = e.2 := rfl
          rw [a7, hs'] at a4
          cases v with
          | leaf a => simp [docT] at a4
          | arr l => simp only [docT] at a4; split at a4 <;> simp at a4
          | obj gs =>
            simp only [docT, Option.some.injEq, Tree.obj.injEq] at a4
            simp only [Trip.Fits] at hfit
            intro rid hrid
            have h1 := hfit.2.2.1 rid hrid
            have h2 : Dict.get (docF T (keysP (P ++ [PKey.field k])) gs) rid = Dict.get (docF T (keysP (P ++ [PKey.field k])) e.2) rid := by rw [a4]
            rw [get_docF, get_docF, h1] at h2
            cases hh : Dict.get e.2 rid with
            | none => rfl
            | some x => rw [hh] at h2; simp at h2
        · exact .inr a7
    · intro Q l h1 h2 h3
      by_cases hq : (P ++ [PKey.field k]).length ≤ Q.length
      · exact h.inner Q l h1 h2 hq
      · exfalso
        have hl : (Q ++ [PKey.item l]).length = (P ++ [PKey.field k]).length := by simp at hq ⊢; omega
        have := prefix_eq h1 h.pre hl
        have := (List.append_inj' this rfl).2
        simp at this
    · intro hh; simp [hh] at hlen
    · intro gs hg; cases hg; rw [ha]; simp
  | arr l ih =>
    intro P ar hw hs pl hpl
    simp only [Weak, Trip.Fits] at hw
    rcases hw with ⟨t, ht, -⟩ | ⟨hj, -, hfit, hd⟩
    · simp [lv, ht] at hpl
    · simp only [lv, hj] at hpl
      obtain ⟨j, fs, hm, hpl⟩ := mem_la.1 hpl
      simp only [Nat.zero_add] at hpl
      have hs' := sub_docI hj hfit hd hs hm
      obtain ⟨fs', he, ho, hnr, hnm, hff⟩ := fitsItems_iff.1 hfit _ (List.mem_of_getElem? hm)
      cases he
      have hkp : keysP (P ++ [PKey.item (labelOf T j fs)]) = keysP P := by simp [keysP_append, keysP]
      rcases hpl with rfl | hpl
      · refine ⟨⟨hs', ho, hnr, hnm, by rw [hkp]; exact hff, ⟨P, j, rfl⟩, List.prefix_append _ _, ⟨[], by simp, by simp⟩, ?_⟩, ?_, ?_⟩
        · intro Q l' h1 h2 h3
          have hle := h1.length_le
          exact absurd (h1.eq_of_length (by simp at hle ⊢; omega)) h2
        · intro hh; have := congrArg List.length hh; simp at this
        · intro gs hg; cases hg
      · obtain ⟨h, hne, hin⟩ := ih _ (List.mem_of_getElem? hm) (P ++ [.item (labelOf T j fs)]) ar ⟨ho, by rw [hkp]; exact hff⟩ (by simpa only [docT] using hs') pl hpl
        have hlen : P.length < pl.path.length := by
          have := h.pre.length_le; simp only [List.length_append, List.length_cons, List.length_nil] at this; omega
        obtain ⟨ar', ha, hae⟩ := h.around
        refine ⟨⟨h.sub, h.object, h.noRoot, h.named, h.fits, h.ends, (List.prefix_append _ _).trans h.pre, ⟨ar', ha, ?_⟩, ?_⟩, ?_, ?_⟩
        · intro e he
          obtain ⟨a1, a2, a3, a4, a5, a6, a7⟩ := hae e he
          refine ⟨(List.prefix_append _ _).trans a1, a2, a3, a4, a5, a6, ?_⟩
          rcases a7 with a7 | a7
          · right
            rw [a7, hs'] at a4
            simp only [Option.some.injEq, Tree.obj.injEq] at a4
            intro rid hrid
            have h1 := hnr rid hrid
            have h2 : Dict.get (docF T (keysP (P ++ [PKey.item (labelOf T j fs)])) fs) rid = Dict.get (docF T (keysP (P ++ [PKey.item (labelOf T j fs)])) e.2) rid := by rw [a4]
            rw [get_docF, get_docF, h1] at h2
            cases hh : Dict.get e.2 rid with
            | none => rfl
            | some x => rw [hh] at h2; simp at h2
          · exact .inr a7
        · intro Q l' h1 h2 h3
          by_cases hq : (P ++ [PKey.item (labelOf T j fs)]).length ≤ Q.length
          · exact h.inner Q l' h1 h2 hq
          · have hl : (Q ++ [PKey.item l']).length = (P ++ [PKey.item (labelOf T j fs)]).length := by simp at hq ⊢; omega
            have := prefix_eq h1 h.pre hl
            obtain ⟨a, haa⟩ := named_of_mem hnm hpl
            refine ⟨fs, a, by rw [this]; exact hin fs rfl, haa, ?_⟩
            have := (List.append_inj' this rfl).2
            simp only [List.cons.injEq, PKey.item.injEq, and_true] at this
            rw [this]; simp [labelOf, haa]
        · intro hh; simp [hh] at hlen
        · intro gs hg; cases hg

/-! ### Different objects have different positions -/

theorem SamePos.length {p q : List PKey} (h : SamePos p q) : p.length = q.length := by
  induction h with
  | nil => rfl
  | cons _ _ ih => simp [ih]

theorem SamePos.split {a b c d : List PKey} (h : SamePos (a ++ b) (c ++ d)) (hl : a.length = c.length) : SamePos a c ∧ SamePos b d := by
  induction a generalizing c with
  | nil =>
    cases c with
    | nil => exact ⟨.nil, h⟩
    | cons x c => simp at hl
  | cons x a ih =>
    cases c with
    | nil => simp at hl
    | cons y c =>
      cases h with
      | cons h1 h2 =>
        obtain ⟨h3, h4⟩ := ih h2 (by simpa using hl)
        exact ⟨.cons h1 h3, h4⟩

theorem PKey.same_symm {a b : PKey} (h : a.same b) : b.same a := by
  cases a <;> cases b <;> simp_all [PKey.same]
  exact Val.pyEq_symm h

theorem SamePos.symm {p q : List PKey} (h : SamePos p q) : SamePos q p := by
  induction h with
  | nil => exact .nil
  | cons h _ ih => exact .cons (PKey.same_symm h) ih

theorem PKey.same_trans {a b c : PKey} (h : a.same b) (h' : b.same c) : a.same c := by
  cases a <;> cases b <;> cases c <;> simp_all [PKey.same]
  exact Val.pyEq_trans h h'

theorem SamePos.trans {p q r : List PKey} (h : SamePos p q) (h' : SamePos q r) : SamePos p r := by
  induction h generalizing r with
  | nil => exact h'
  | cons h _ ih =>
    cases h' with
    | cons h1 h2 => exact .cons (PKey.same_trans h h1) (ih h2)

theorem SamePos.append {a b c d : List PKey} (h : SamePos a b) (h' : SamePos c d) : SamePos (a ++ c) (b ++ d) := by
  induction h with
  | nil => exact h'
  | cons h _ ih => exact .cons h ih

theorem lv_pre (T : Trip) (v : Json) : ∀ (P : List PKey) (ar : List (List PKey × List (Str × Json))), ∀ pl ∈ lv T P ar v,
    ∃ s X, pl.path = P ++ s :: X := by
  induction v using Json.ind with
  | leaf a => intro P ar pl hpl; simp [lv] at hpl
  | obj fs ih =>
    intro P ar pl hpl
    simp only [lv, lf_flatMap, List.mem_flatMap] at hpl
    obtain ⟨⟨k, v⟩, hm, hpl⟩ := hpl
    obtain ⟨s, X, h⟩ := ih _ hm _ _ pl hpl
    exact ⟨.field k, s :: X, by simp [h]⟩
  | arr l ih =>
    intro P ar pl hpl
    simp only [lv] at hpl
    split at hpl
    · cases hpl
    · obtain ⟨j, fs, hm, hpl⟩ := mem_la.1 hpl
      rcases hpl with rfl | hpl
      · exact ⟨_, [], rfl⟩
      · obtain ⟨s, X, h⟩ := ih _ (List.mem_of_getElem? hm) _ _ pl hpl
        exact ⟨_, s :: X, by rw [h, List.append_assoc]; rfl⟩

/-- Not the same position. -/
def Elsewhere (a b : Place) : Prop := ¬ SamePos a.path b.path

theorem elsewhere_of {a b : Place} {P X Y : List PKey} {s t : PKey} (ha : a.path = P ++ s :: X) (hb : b.path = P ++ t :: Y) (h : ¬ s.same t) :
    Elsewhere a b := by
  intro hs
  rw [ha, hb] at hs
  obtain ⟨-, h2⟩ := hs.split rfl
  cases h2 with
  | cons h1 _ => exact h h1

theorem lv_elsewhere {T : Trip} (v : Json) : ∀ (P : List PKey) (ar : List (List PKey × List (Str × Json))), Weak T (keysP P) v →
    (lv T P ar v).Pairwise Elsewhere := by
  induction v using Json.ind with
  | leaf a => intro P ar _; simp [lv]
  | obj fs ih =>
    intro P ar hw
    simp only [lv, lf_flatMap]
    rw [List.pairwise_flatMap]
    refine ⟨fun e he => ih e he _ _ (by rw [keysP_append]; exact weak_of_fits (fitsFields_iff.1 hw.2 _ he)), ?_⟩
    have hd : fs.Pairwise (fun a b => a.1 ≠ b.1) := by
      have := hw.1.2.1
      rw [Dict.keys, List.Nodup, List.pairwise_map] at this
      exact this
    refine hd.imp ?_
    intro a b hab x hx y hy
    obtain ⟨s, X, h1⟩ := lv_pre T _ _ _ x hx
    obtain ⟨s', X', h2⟩ := lv_pre T _ _ _ y hy
    exact elsewhere_of (P := P) (s := .field a.1) (t := .field b.1) (X := s :: X) (Y := s' :: X') (by simp [h1]) (by simp [h2]) (fun h => hab h)
  | arr l ih =>
    intro P ar hw
    simp only [Weak, Trip.Fits] at hw
    rcases hw with ⟨t, ht, -⟩ | ⟨hj, -, hfit, hd⟩
    · simp [lv, ht]
    · simp only [lv, hj]
      have key : ∀ (l : List Json) (i : Nat), (∀ x ∈ l, ∀ (P : List PKey) (ar : List (List PKey × List (Str × Json))), Weak T (keysP P) x → (lv T P ar x).Pairwise Elsewhere) →
          T.FitsItems (keysP P) l → l.Pairwise (fun x y => DifferentIds (T.idOfValue x) (T.idOfValue y)) → (la T P ar i l).Pairwise Elsewhere := by
        intro l
        induction l with
        | nil => intro i _ _ _; simp [la]
        | cons x r ihr =>
          intro i ih hfit hd
          obtain ⟨fs, rfl, ho, hnr, hnm, hff⟩ := fitsItems_iff.1 hfit x (by simp)
          simp only [Trip.FitsItems] at hfit
          obtain ⟨hd1, hd2⟩ := List.pairwise_cons.1 hd
          have hr := ihr (i + 1) (fun x hx => ih x (by simp [hx])) hfit.2 hd2
          have hkp : keysP (P ++ [PKey.item (labelOf T i fs)]) = keysP P := by simp [keysP_append, keysP]
          have ho' := ih (.obj fs) (by simp) (P ++ [.item (labelOf T i fs)]) ar ⟨ho, by rw [hkp]; exact hff⟩
          have hrest : ∀ y ∈ la T P ar (i + 1) r, ∃ j gs X, i < j ∧ DifferentIds (T.idOf fs) (T.idOf gs) ∧ y.path = P ++ .item (labelOf T j gs) :: X := by
            intro y hy
            obtain ⟨j, gs, hm, hy⟩ := mem_la.1 hy
            refine ⟨i + 1 + j, gs, ?_⟩
            have hdd := hd1 _ (List.mem_of_getElem? hm)
            rcases hy with rfl | hy
            · exact ⟨[], by omega, hdd, rfl⟩
            · obtain ⟨s, X, h⟩ := lv_pre T _ _ _ y hy
              exact ⟨s :: X, by omega, hdd, by rw [h, List.append_assoc]; rfl⟩
          have hne : ∀ x Y, x.path = P ++ .item (labelOf T i fs) :: Y → ∀ y ∈ la T P ar (i + 1) r, Elsewhere x y := by
            intro x Y hx y hy
            obtain ⟨j, gs, X, h1, h2, h3⟩ := hrest y hy
            refine elsewhere_of hx h3 ?_
            simp only [PKey.same, labels_differ (Nat.ne_of_lt h1) h2]
            simp
          simp only [la]
          rw [List.pairwise_append]
          refine ⟨by simpa only [lv] using ho', List.pairwise_cons.2 ⟨hne _ [] rfl, hr⟩, ?_⟩
          intro x hx y hy
          obtain ⟨s, X, h⟩ := lv_pre T (.obj fs) _ ar x (by simpa only [lv] using hx)
          rcases List.mem_cons.1 hy with rfl | hy
          · intro hs
            have := hs.length
            simp [h] at this
          · exact hne x (s :: X) (by rw [h, List.append_assoc]; rfl) y hy
      exact key l 0 ih hfit hd

/-! ### The cells of objects in the tree -/

mutual
theorem cells_shift (p : List Str) : (fs : List (Str × Json)) → (q : List Str) →
    cells everything (q ++ p) fs = (cells everything p fs).map (fun c => (q ++ c.1, c.2))
  | [], q => by simp [cells]
  | (k, v) :: r, q => by
    have h1 := valueCells_shift (p ++ [k]) v q
    have h2 := cells_shift p r q
    rw [← List.append_assoc] at h1
    simp only [cells, everything, if_true, List.map_append]
    rw [← h1, ← h2]
theorem valueCells_shift (p : List Str) : (v : Json) → (q : List Str) →
    valueCells everything (q ++ p) v = (valueCells everything p v).map (fun c => (q ++ c.1, c.2))
  | .leaf a, q => by simp [valueCells]
  | .obj fs, q => by simp only [valueCells]; exact cells_shift p fs q
  | .arr l, q => by
    simp only [valueCells]
    split <;> simp
end

theorem hasCell_shift {p q : List Str} {fs : List (Str × Json)} {v : Json} :
    HasCell everything p fs q v ↔ ∃ kk, q = p ++ kk ∧ HasCell everything [] fs kk v := by
  have := cells_shift [] fs p
  rw [List.append_nil] at this
  rw [← mem_cells, this, List.mem_map]
  constructor
  · rintro ⟨⟨kk, w⟩, h1, h2⟩
    cases h2
    exact ⟨kk, rfl, (mem_cells _ _ _ _ _).1 h1⟩
  · rintro ⟨kk, rfl, h⟩
    exact ⟨(kk, v), (mem_cells _ _ _ _ _).2 h, rfl⟩

/-- A cell of an object begins with a field. -/
theorem hasCell_field {fs : List (Str × Json)} {kk : List Str} {v : Json} : HasCell everything [] fs kk v ↔
    ∃ k w r, (k, w) ∈ fs ∧ kk = k :: r ∧ (r, v) ∈ valueCells everything [] w := by
  constructor
  · intro h
    rw [← mem_cells] at h
    induction fs with
    | nil => simp [cells] at h
    | cons e fs ih =>
      obtain ⟨k, w⟩ := e
      simp only [cells, everything, if_true, List.mem_append, List.nil_append] at h
      rcases h with h | h
      · have := valueCells_shift [] w [k]
        simp only [List.append_nil] at this
        rw [this, List.mem_map] at h
        obtain ⟨⟨r, x⟩, h1, h2⟩ := h
        cases h2
        exact ⟨k, w, r, by simp, rfl, h1⟩
      · obtain ⟨k', w', r, h1, h2⟩ := ih h
        exact ⟨k', w', r, by simp [h1], h2⟩
  · rintro ⟨k, w, r, h1, rfl, h2⟩
    rw [← mem_cells]
    induction fs with
    | nil => cases h1
    | cons e fs ih =>
      simp only [cells, everything, if_true, List.mem_append, List.nil_append]
      rcases List.mem_cons.1 h1 with rfl | h1
      · left
        have := valueCells_shift [] w [k]
        simp only [List.append_nil] at this
        rw [this, List.mem_map]
        exact ⟨_, h2, rfl⟩
      · right; exact ih h1

/-- The cells of a value are in its tree, and are read back. -/
theorem own_cells {T : Trip} (v : Json) : ∀ (ks kk : List Str) (j : Json), Weak T ks v → (kk, j) ∈ valueCells everything [] v →
    ∃ b j', j = .leaf b ∧ T.Returns (ks ++ kk) b j' ∧ (docT T ks v).sub (flds kk) = some (.cell (docCell (back T (ks ++ kk) b))) := by
  induction v using Json.ind with
  | leaf a =>
    intro ks kk j hw h
    simp only [valueCells, List.mem_singleton, Prod.mk.injEq] at h
    obtain ⟨rfl, rfl⟩ := h
    simp only [Weak, Trip.Fits] at hw
    exact ⟨a, _, rfl, by simpa using hw.2, by simp [docT, flds, Tree.sub]⟩
  | arr l ih =>
    intro ks kk j hw h
    simp only [Weak, Trip.Fits] at hw
    simp only [valueCells] at h
    cases hj : joinArray l with
    | none => simp [hj] at h
    | some t =>
      simp only [hj, List.mem_singleton, Prod.mk.injEq] at h
      obtain ⟨rfl, rfl⟩ := h
      rcases hw with ⟨t', ht, hr⟩ | ⟨hj', -⟩
      · rw [hj] at ht; cases ht
        exact ⟨.str t, _, rfl, by simpa using hr, by simp [docT, hj, flds, Tree.sub]⟩
      · rw [hj] at hj'; cases hj'
  | obj fs ih =>
    intro ks kk j hw h
    simp only [valueCells, mem_cells] at h
    obtain ⟨k, w, r, h1, rfl, h2⟩ := hasCell_field.1 h
    obtain ⟨b, j', rfl, hr, hs⟩ := ih _ h1 (ks ++ [k]) r j (weak_of_fits (fitsFields_iff.1 hw.2 _ h1)) h2
    simp only [List.append_assoc, List.singleton_append] at hr hs
    refine ⟨b, j', rfl, hr, ?_⟩
    simp only [docT, flds, List.map_cons, Tree.sub, get_docF, Dict.get_of_mem hw.1.2.1 h1, Option.map_some, Option.bind_some]
    exact hs

/-- Every cell of the tree is a cell of the value or of an object in an array below it. -/
theorem cover {T : Trip} (v : Json) : ∀ (P p : List PKey) (ar : List (List PKey × List (Str × Json))) (c : Cell), Weak T (keysP P) v → SamePos P P →
    (docT T (keysP P) v).sub p = some (.cell c) →
    (∃ kk b, (kk, Json.leaf b) ∈ valueCells everything [] v ∧ p = flds kk) ∨
    ∃ pl ∈ lv T P ar v, ∃ kk b, HasCell everything [] pl.fields kk (.leaf b) ∧ SamePos (P ++ p) (pl.path ++ flds kk) := by
  induction v using Json.ind with
  | leaf a =>
    intro P p ar c hw hP h
    simp only [docT] at h
    obtain ⟨rfl, -⟩ := sub_cell _ h
    exact .inl ⟨[], a, by simp [valueCells], rfl⟩
  | arr l ih =>
    intro P p ar c hw hP h
    simp only [Weak, Trip.Fits] at hw
    rcases hw with ⟨t, ht, hr⟩ | ⟨hj, -, hfit, hd⟩
    · simp only [docT, ht] at h
      obtain ⟨rfl, -⟩ := sub_cell _ h
      exact .inl ⟨[], .str t, by simp [valueCells, ht], rfl⟩
    · right
      simp only [docT, hj] at h
      cases p with
      | nil => simp [Tree.sub] at h
      | cons s p =>
        cases s with
        | field k => simp [Tree.sub] at h
        | item x =>
          simp only [Tree.sub, Option.bind_eq_some_iff] at h
          obtain ⟨g, hg, h⟩ := h
          obtain ⟨x', hm, hxx⟩ := keyGet_some_mem hg
          obtain ⟨j, fs, hmj, he⟩ := mem_docI.1 hm
          simp only [Nat.zero_add] at he
          cases he
          obtain ⟨fs', he, ho, hnr, hnm, hff⟩ := fitsItems_iff.1 hfit _ (List.mem_of_getElem? hmj)
          cases he
          have hkp : keysP (P ++ [PKey.item (labelOf T j fs)]) = keysP P := by simp [keysP_append, keysP]
          have hP' : SamePos (P ++ [PKey.item (labelOf T j fs)]) (P ++ [PKey.item (labelOf T j fs)]) :=
            hP.append (.cons (labelOf_self hff) .nil)
          have hlift : ∀ q, SamePos (P ++ [PKey.item (labelOf T j fs)] ++ p) q → SamePos (P ++ PKey.item x :: p) q := by
            intro q hq
            have h0 := hq.trans hq.symm
            obtain ⟨-, h1⟩ := h0.split rfl
            refine SamePos.trans ?_ hq
            rw [List.append_assoc]
            exact hP.append (.cons (Val.pyEq_symm hxx) h1)
          have hmem : ∀ pl, pl = (⟨P ++ [PKey.item (labelOf T j fs)], ar, fs⟩ : Place) ∨ pl ∈ lv T (P ++ [PKey.item (labelOf T j fs)]) ar (.obj fs) →
              pl ∈ lv T P ar (.arr l) := by
            intro pl h
            simp only [lv, hj]
            exact mem_la.2 ⟨j, fs, hmj, by simpa using h⟩
          rcases ih _ (List.mem_of_getElem? hmj) (P ++ [PKey.item (labelOf T j fs)]) p ar c ⟨ho, by rw [hkp]; exact hff⟩ hP' (by rw [hkp]; simpa only [docT] using h) with
            ⟨kk, b, h1, rfl⟩ | ⟨pl, hpl, kk, b, h1, h2⟩
          · refine ⟨_, hmem _ (.inl rfl), kk, b, by simpa only [valueCells, mem_cells] using h1, hlift _ ?_⟩
            refine hP'.append ?_
            clear h1 hlift hmem h
            induction kk with
            | nil => exact .nil
            | cons k kk ih => exact .cons rfl ih
          · exact ⟨pl, hmem _ (.inr hpl), kk, b, h1, hlift _ h2⟩
  | obj fs ih =>
    intro P p ar c hw hP h
    simp only [docT] at h
    cases p with
    | nil => simp [Tree.sub] at h
    | cons s p =>
      cases s with
      | item x => simp [Tree.sub] at h
      | field k =>
        simp only [Tree.sub, get_docF] at h
        cases hk : Dict.get fs k with
        | none => rw [hk] at h; simp at h
        | some w =>
          rw [hk] at h
          simp only [Option.map_some, Option.bind_some] at h
          have hm := Dict.get_eq_some_mem hk
          have hkp : keysP (P ++ [PKey.field k]) = keysP P ++ [k] := by simp [keysP_append, keysP]
          rcases ih _ hm (P ++ [.field k]) p (ar ++ [(P, fs)]) c (by rw [hkp]; exact weak_of_fits (fitsFields_iff.1 hw.2 _ hm)) (hP.append (.cons (show PKey.same (.field k) (.field k) from rfl) .nil)) (by rw [hkp]; exact h) with
            ⟨kk, b, h1, rfl⟩ | ⟨pl, hpl, kk, b, h1, h2⟩
          · exact .inl ⟨k :: kk, b, by simp only [valueCells, mem_cells]; exact hasCell_field.2 ⟨k, w, kk, hm, rfl, h1⟩, rfl⟩
          · refine .inr ⟨pl, ?_, kk, b, h1, by simpa using h2⟩
            simp only [lv, lf_flatMap, List.mem_flatMap]
            exact ⟨_, hm, hpl⟩

end Verif
