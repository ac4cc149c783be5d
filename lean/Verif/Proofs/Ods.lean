import Verif.Spec.Ods
import Verif.Props.ApiTrip
/-! Lemmas about ODS tables. -/
namespace Verif
open Spec Api

/-! ### Values -/

/-- The value of a cell as the reader gives it. -/
theorem odsValue_iff {lib : OdsLib} {c : OdsCell} {a : Atom} : CellValue lib c a ↔ ∃ o, odsValue lib c = .ok o ∧ a = o.getD .none := by
  constructor
  · intro h
    cases h with
    | empty => exact ⟨none, rfl, rfl⟩
    | text h => exact ⟨some _, by simp only [odsValue, if_neg h], rfl⟩
    | whole h hd hi => exact ⟨some _, by simp only [odsValue, if_neg h, if_neg hd, hi], rfl⟩
    | decimal h hd hf => exact ⟨some _, by simp only [odsValue, if_neg h, if_pos hd, hf], rfl⟩
    | date h hd hf => exact ⟨some _, by simp only [odsValue, if_neg h, padDate, if_neg hd, hf], rfl⟩
    | @time _ _ _ v _ k h hd hk hf =>
      have : k = 26 - v.length := by omega
      subst this
      exact ⟨some _, by simp only [odsValue, if_neg h, padDate, if_pos hd, hf], rfl⟩
  · rintro ⟨o, h, rfl⟩
    obtain ⟨cov, n, kind, t⟩ := c
    unfold odsValue at h
    by_cases ht : t = []
    · subst ht
      simp only [if_true] at h
      cases h
      exact .empty
    · simp only [if_neg ht] at h
      cases kind with
      | float v =>
        simp only at h
        by_cases hd : '.' ∈ v
        · rw [if_pos hd] at h
          split at h
          · next f hf => cases h; exact .decimal ht hd hf
          · cases h
        · rw [if_neg hd] at h
          split at h
          · next f hf => cases h; exact .whole ht hd hf
          · cases h
      | date v =>
        simp only [padDate] at h
        by_cases hd : '.' ∈ v
        · rw [if_pos hd] at h
          split at h
          · next f hf => cases h; exact .time ht hd (by omega) hf
          · cases h
        · rw [if_neg hd] at h
          split at h
          · next f hf => cases h; exact .date ht hd hf
          · cases h
      | other => cases h; exact .text ht

theorem odsValue_not_none {lib : OdsLib} {c : OdsCell} {v : Atom} (h : odsValue lib c = .ok (some v)) : v ≠ .none := by
  unfold odsValue at h
  repeat' split at h
  all_goals first | cases h | (cases h; done)
  all_goals simp

/-! ### Rows -/

/-- The row after the values of more columns. -/
def grown : List Atom → Nat → List (Option Atom) → List Atom
  | arr, _, [] => arr
  | arr, count, none :: r => grown arr (count + 1) r
  | arr, count, some v :: r => grown (growSet arr count v) (count + 1) r

theorem grown_append (arr : List Atom) (count : Nat) (a b : List (Option Atom)) : grown arr count (a ++ b) = grown (grown arr count a) (count + a.length) b := by
  induction a generalizing arr count with
  | nil => rfl
  | cons x r ih =>
    cases x with
    | none => simp only [List.cons_append, grown, ih, List.length_cons]; congr 1; omega
    | some v => simp only [List.cons_append, grown, ih, List.length_cons]; congr 1; omega

theorem readRepeated_ok {lib : OdsLib} {c : OdsCell} : ∀ {k : Nat} {arr : List Atom} {count : Nat} {row : List Atom},
    readRepeated lib c k arr count = .ok row ↔ ∃ o, (k = 0 ∨ odsValue lib c = .ok o) ∧ row = grown arr count (List.replicate k o)
  | 0, arr, count, row => by
    simp [readRepeated, grown, eq_comm]
  | k + 1, arr, count, row => by
    rw [readRepeated]
    cases h : odsValue lib c with
    | error e => simp
    | ok o =>
      cases o with
      | none =>
        simp only
        rw [readRepeated_ok]
        simp only [h, List.replicate_succ]
        constructor
        · rintro ⟨o, h1, h2⟩
          refine ⟨none, by simp, ?_⟩
          rcases h1 with rfl | h1
          · simpa [grown] using h2
          · cases h1; simpa [grown] using h2
        · rintro ⟨o, h1, h2⟩
          rcases h1 with h1 | h1
          · cases h1
          · cases h1
            exact ⟨none, by simp, by simpa [grown] using h2⟩
      | some v =>
        simp only
        rw [readRepeated_ok]
        simp only [h, List.replicate_succ]
        constructor
        · rintro ⟨o, h1, h2⟩
          refine ⟨some v, by simp, ?_⟩
          rcases h1 with rfl | h1
          · simpa [grown] using h2
          · cases h1; simpa [grown] using h2
        · rintro ⟨o, h1, h2⟩
          rcases h1 with h1 | h1
          · cases h1
          · cases h1
            exact ⟨some v, by simp, by simpa [grown] using h2⟩

theorem all₂_replicate {α β : Type} {R : α → β → Prop} {a : α} {b : β} {n : Nat} (h : n = 0 ∨ R a b) : All₂ R (List.replicate n a) (List.replicate n b) := by
  induction n with
  | zero => exact .nil
  | succ n ih =>
    rcases h with h | h
    · cases h
    · exact .cons h (ih (.inr h))

theorem readCells_ok {lib : OdsLib} : ∀ {cells : List OdsCell} {arr : List Atom} {count : Nat} {row : List Atom}, NotMerged cells →
    (readCells lib cells arr count = .ok row ↔
      ∃ os, All₂ (fun c o => odsValue lib c = .ok o) (columnsOf cells) os ∧ row = grown arr count os)
  | [], arr, count, row, _ => by
    simp only [readCells, columnsOf, List.flatMap_nil]
    constructor
    · intro h; cases h; exact ⟨[], .nil, rfl⟩
    · rintro ⟨os, h, rfl⟩; cases h; rfl
  | c :: r, arr, count, row, hm => by
    have hc := hm c (by simp)
    have hr : NotMerged r := fun d hd => hm d (by simp [hd])
    rw [readCells]
    simp only [hc, Bool.false_eq_true, if_false]
    have hcol : columnsOf (c :: r) = List.replicate c.repeated c ++ columnsOf r := rfl
    rw [hcol]
    constructor
    · intro h
      split at h
      · cases h
      · next arr' h1 =>
        obtain ⟨o, h2, rfl⟩ := readRepeated_ok.1 h1
        obtain ⟨os, h3, rfl⟩ := (readCells_ok hr).1 h
        refine ⟨List.replicate c.repeated o ++ os, all₂_app (all₂_replicate h2) h3, ?_⟩
        rw [grown_append]; simp
    · rintro ⟨os, h, rfl⟩
      have hsplit : ∃ o os', os = List.replicate c.repeated o ++ os' ∧ (c.repeated = 0 ∨ odsValue lib c = .ok o) ∧
          All₂ (fun c o => odsValue lib c = .ok o) (columnsOf r) os' := by
        generalize hn : c.repeated = n at h ⊢
        clear hn hcol
        cases hv : odsValue lib c with
        | error e =>
          cases n with
          | zero => exact ⟨none, os, by simp, .inl rfl, by simpa using h⟩
          | succ n =>
            simp only [List.replicate_succ, List.cons_append] at h
            cases h with
            | cons h1 _ => rw [hv] at h1; cases h1
        | ok o =>
          refine ⟨o, ?_⟩
          induction n generalizing os with
          | zero => exact ⟨os, by simp, .inl rfl, by simpa using h⟩
          | succ n ih =>
            simp only [List.replicate_succ, List.cons_append] at h
            cases h with
            | cons h1 h2 =>
              rw [hv] at h1
              cases h1
              obtain ⟨os', rfl, -, h4⟩ := ih _ h2
              exact ⟨os', by simp [List.replicate_succ], .inr rfl, h4⟩
      obtain ⟨o, os', rfl, h1, h2⟩ := hsplit
      rw [readRepeated_ok.2 ⟨o, h1, rfl⟩]
      simp only
      rw [(readCells_ok hr).2 ⟨os', h2, rfl⟩, grown_append]
      simp

theorem grown_spec : ∀ (os : List (Option Atom)) (arr : List Atom) (count : Nat), arr.length ≤ count →
    (∀ v, some v ∈ os → v ≠ .none) → arr.getLast? ≠ some .none →
    (grown arr count os).length ≤ count + os.length ∧ (grown arr count os).getLast? ≠ some .none ∧
    (∀ i, i < count → (grown arr count os)[i]?.getD .none = arr[i]?.getD .none) ∧
    ∀ i o, os[i]? = some o → (grown arr count os)[count + i]?.getD .none = o.getD .none
  | [], arr, count, h, _, hl => by simp only [grown]; exact ⟨by simpa using h, hl, fun _ _ => by trivial, by simp⟩
  | none :: r, arr, count, h, hv, hl => by
    obtain ⟨h1, h2, h3, h4⟩ := grown_spec r arr (count + 1) (by omega) (fun v hm => hv v (by simp [hm])) hl
    simp only [grown]
    refine ⟨by simp; omega, h2, fun i hi => h3 i (by omega), ?_⟩
    intro i o hi
    cases i with
    | zero =>
      cases hi
      rw [h3 _ (by omega)]
      simp [List.getElem?_eq_none h]
    | succ i =>
      have := h4 i o hi
      rw [show count + (i + 1) = count + 1 + i by omega]
      exact this
  | some v :: r, arr, count, h, hv, hl => by
    have hg : growSet arr count v = arr ++ List.replicate (count - arr.length) .none ++ [v] := by
      unfold growSet
      rw [if_neg (by omega)]
    obtain ⟨h1, h2, h3, h4⟩ := grown_spec r (growSet arr count v) (count + 1) (by rw [hg]; simp; omega) (fun v hm => hv v (by simp [hm]))
      (by rw [hg]; simpa using hv v (by simp))
    simp only [grown]
    refine ⟨by simp; omega, h2, ?_, ?_⟩
    · intro i hi
      rw [h3 i (by omega), hg]
      by_cases hi2 : i < arr.length
      · rw [List.getElem?_append_left (by simp; omega), List.getElem?_append_left hi2]
      · rw [List.getElem?_append_left (by simp; omega), List.getElem?_append_right (by omega), List.getElem?_replicate,
          List.getElem?_eq_none (l := arr) (by omega)]
        split <;> rfl
    · intro i o hi
      cases i with
      | zero =>
        cases hi
        rw [h3 _ (by omega), hg]
        rw [List.getElem?_append_right (by simp; omega)]
        simp
        rw [show count - (arr.length + (count - arr.length)) = 0 by omega]
        rfl
      | succ i =>
        have := h4 i o hi
        rw [show count + (i + 1) = count + 1 + i by omega]
        exact this

theorem all₂_nth {α β : Type} {R : α → β → Prop} {l : List α} {m : List β} (h : All₂ R l m) :
    l.length = m.length ∧ ∀ (i : Nat) a b, l[i]? = some a → m[i]? = some b → R a b := by
  induction h with
  | nil => simp
  | cons h1 _ ih =>
    refine ⟨by simp [ih.1], ?_⟩
    intro i a b ha hb
    cases i with
    | zero => cases ha; cases hb; exact h1
    | succ i => exact ih.2 i a b ha hb

theorem all₂_of_get {α β : Type} {R : α → β → Prop} : ∀ {l : List α} {m : List β}, l.length = m.length → (∀ (i : Nat) a b, l[i]? = some a → m[i]? = some b → R a b) → All₂ R l m
  | [], [], _, _ => .nil
  | a :: l, b :: m, h, hr => .cons (hr 0 a b rfl rfl) (all₂_of_get (by simpa using h) (fun i x y hx hy => hr (i + 1) x y hx hy))

theorem row_ext {l m : List Atom} (hl : l.getLast? ≠ some .none) (hm : m.getLast? ≠ some .none) (h : ∀ i : Nat, l[i]?.getD .none = m[i]?.getD .none) : l = m := by
  have key : ∀ {l m : List Atom}, l.getLast? ≠ some .none → (∀ i : Nat, l[i]?.getD .none = m[i]?.getD .none) → l.length ≤ m.length := by
    intro l m hl h
    refine Nat.le_of_not_lt fun hlt => ?_
    have h1 := h (l.length - 1)
    rw [List.getElem?_eq_none (l := m) (by omega)] at h1
    apply hl
    have h2 : l.length - 1 < l.length := by omega
    rw [List.getElem?_eq_getElem h2] at h1
    rw [List.getLast?_eq_getElem?, List.getElem?_eq_getElem h2]
    simpa using h1
  have e : l.length = m.length := Nat.le_antisymm (key hl h) (key hm (fun i => (h i).symm))
  apply List.ext_getElem e
  intro i h1 h2
  have := h i
  rw [List.getElem?_eq_getElem h1, List.getElem?_eq_getElem h2] at this
  simpa using this

/-- Reading the cells of a row. -/
theorem readCells_iff {lib : OdsLib} {cells : List OdsCell} {row : List Atom} (hm : NotMerged cells) :
    readCells lib cells [] 0 = .ok row ↔ RowReads lib (columnsOf cells) row := by
  rw [readCells_ok hm]
  constructor
  · rintro ⟨os, h, rfl⟩
    obtain ⟨h0, hg⟩ := all₂_nth h
    obtain ⟨h1, h2, -, h4⟩ := grown_spec os [] 0 (by simp) (by
      intro v hv
      obtain ⟨c, -, hc⟩ := all₂_mem_right h hv
      exact odsValue_not_none hc) (by simp)
    refine ⟨by omega, ?_, h2⟩
    intro i c hc
    have hi : i < os.length := by
      have := (List.getElem?_eq_some_iff.1 hc).1
      omega
    obtain ⟨o, ho⟩ : ∃ o, os[i]? = some o := ⟨_, List.getElem?_eq_getElem hi⟩
    have := h4 i o ho
    rw [Nat.zero_add] at this
    rw [this]
    exact odsValue_iff.2 ⟨o, hg i c o hc ho, rfl⟩
  · intro h
    have hv : ∀ c ∈ columnsOf cells, ∃ o, odsValue lib c = .ok o := by
      intro c hc
      obtain ⟨i, hi, rfl⟩ := List.getElem_of_mem hc
      obtain ⟨o, h1, -⟩ := odsValue_iff.1 (h.value i _ (List.getElem?_eq_getElem hi))
      exact ⟨o, h1⟩
    let f : OdsCell → Option Atom := fun c => match odsValue lib c with | .ok o => o | .error _ => none
    have hf : All₂ (fun c o => odsValue lib c = .ok o) (columnsOf cells) ((columnsOf cells).map f) := by
      refine all₂_map_right _ ?_
      intro c hc
      obtain ⟨o, ho⟩ := hv c hc
      simp only [f, ho]
    refine ⟨_, hf, ?_⟩
    obtain ⟨h0, hg⟩ := all₂_nth hf
    obtain ⟨h1, h2, -, h4⟩ := grown_spec ((columnsOf cells).map f) [] 0 (by simp) (by
      intro v hv
      obtain ⟨c, -, hc⟩ := all₂_mem_right hf hv
      exact odsValue_not_none hc) (by simp)
    apply row_ext h.last h2
    intro i
    by_cases hi : i < (columnsOf cells).length
    · obtain ⟨c, hc⟩ : ∃ c, (columnsOf cells)[i]? = some c := ⟨_, List.getElem?_eq_getElem hi⟩
      have hfc : ((columnsOf cells).map f)[i]? = some (f c) := by simp [hc]
      have := h4 i _ hfc
      rw [Nat.zero_add] at this
      rw [this]
      obtain ⟨o, ho, he⟩ := odsValue_iff.1 (h.value i c hc)
      rw [he]
      simp only [f, ho]
    · rw [List.getElem?_eq_none (by have := h.width; omega), List.getElem?_eq_none (by simp at h1; omega)]

theorem readRows_iff {lib : OdsLib} : ∀ {rows : List OdsRow} {out : List (List Atom)}, (∀ r ∈ rows, r.repeated = 1 ∧ NotMerged r.cells) →
    (readRows lib rows = .ok out ↔ All₂ (RowReads lib) (rowsShown rows) out)
  | [], out, _ => by
    simp only [readRows, rowsShown, List.flatMap_nil]
    constructor
    · intro h; cases h; exact .nil
    · intro h; cases h; rfl
  | r :: rest, out, h => by
    obtain ⟨h1, h2⟩ := h r (by simp)
    have ih := fun out => readRows_iff (lib := lib) (rows := rest) (out := out) (fun r hr => h r (by simp [hr]))
    have hs : rowsShown (r :: rest) = columnsOf r.cells :: rowsShown rest := by
      simp [rowsShown, h1]
    rw [hs, readRows]
    constructor
    · intro hr
      split at hr
      · cases hr
      · next row h3 =>
        split at hr
        · cases hr
        · next rows h4 =>
          cases hr
          exact .cons ((readCells_iff h2).1 h3) ((ih _).1 h4)
    · intro hr
      cases hr with
      | cons h3 h4 => rw [(readCells_iff h2).2 h3, (ih _).2 h4]

theorem dict_set_new {α : Type} {d : List (Str × α)} {k : Str} {v : α} (h : k ∉ Dict.keys d) : Dict.set d k v = d ++ [(k, v)] := by
  induction d with
  | nil => rfl
  | cons x r ih =>
    obtain ⟨k', v'⟩ := x
    simp only [Dict.keys, List.map_cons, List.mem_cons, not_or] at h
    simp only [Dict.set]
    rw [if_neg (by grind), ih h.2]
    rfl

theorem readTables_iff {lib : OdsLib} : ∀ {ts : List OdsTable} {d0 d : List (Str × List (List Atom))}, (Dict.keys d0 ++ ts.map (·.name)).Nodup →
    (readTables lib ts d0 = .ok d ↔ ∃ d1, d = d0 ++ d1 ∧ All₂ (fun (t : OdsTable) p => p.1 = t.name ∧ readRows lib t.rows = .ok p.2) ts d1)
  | [], d0, d, _ => by
    simp only [readTables]
    constructor
    · intro h; cases h; exact ⟨[], by simp, .nil⟩
    · rintro ⟨d1, rfl, h⟩; cases h; simp
  | t :: rest, d0, d, hn => by
    have hk : t.name ∉ Dict.keys d0 := by
      intro hm
      exact (List.nodup_append.1 hn).2.2 _ hm _ (by simp) rfl
    rw [readTables]
    have key : ∀ rows, readTables lib rest (Dict.set d0 t.name rows) = .ok d ↔ ∃ d1, d = d0 ++ (t.name, rows) :: d1 ∧
        All₂ (fun (t : OdsTable) p => p.1 = t.name ∧ readRows lib t.rows = .ok p.2) rest d1 := by
      intro rows
      rw [dict_set_new hk, readTables_iff]
      · simp
      · simpa [Dict.keys] using hn
    constructor
    · intro h
      split at h
      · cases h
      · next rows hr =>
        obtain ⟨d1, rfl, h1⟩ := (key rows).1 h
        exact ⟨_, rfl, .cons ⟨rfl, hr⟩ h1⟩
    · rintro ⟨d1, rfl, h⟩
      cases h with
      | @cons _ p _ d1 h1 h2 =>
        obtain ⟨n, rows⟩ := p
        obtain ⟨rfl, h1⟩ := h1
        rw [h1]
        exact (key rows).2 ⟨d1, rfl, h2⟩

end Verif
