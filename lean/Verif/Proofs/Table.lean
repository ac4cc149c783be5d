import Verif.Spec.Table
import Verif.Props.Positions
import Verif.Props.Columns
import Verif.Props.OneCell
import Verif.Props.Rearrange
import Verif.Props.Blank
/-! A row of a plain table gives an object whose flattened line has the values of the row. -/
namespace Verif
open Spec

/-- The values are at paths of keys, and fit into one cell each. -/
def TableContent (f : Content) : Prop :=
  ∀ a v, f a = some v → ∃ ks, a = keyPath ks ∧ (∀ k ∈ ks, GoodKey k) ∧ ∃ j, InOneCell v.toJson j

theorem keyPath_cons {k : Str} {ix : Option Int} {rest : Addr} {ks : List Str} (h : (k, ix) :: rest = keyPath ks) :
    ix = none ∧ ∃ ks', rest = keyPath ks' ∧ ks = k :: ks' := by
  cases ks with
  | nil => cases h
  | cons k' ks' =>
    simp only [keyPath, List.map_cons, List.cons.injEq, Prod.mk.injEq] at h
    exact ⟨h.1.2, ks', h.2, by rw [h.1.1]⟩

theorem TableContent.below {f : Content} (h : TableContent f) (k : Str) : TableContent (fun rest => f ((k, none) :: rest)) := by
  intro a v hv
  obtain ⟨ks, e, hk, hj⟩ := h _ v hv
  obtain ⟨-, ks', e', rfl⟩ := keyPath_cons e
  exact ⟨ks', e', fun x hx => hk x (by simp [hx]), hj⟩

theorem TableContent.has {f : Content} (h : TableContent f) {k : Str} {ix : Option Int} (hh : Has (fun ix rest => f ((k, ix) :: rest)) ix) :
    ix = none ∧ GoodKey k := by
  obtain ⟨rest, hr⟩ := hh
  obtain ⟨v, hv⟩ := Option.ne_none_iff_exists'.1 hr
  obtain ⟨ks, e, hk, -⟩ := h _ v hv
  obtain ⟨h1, ks', -, rfl⟩ := keyPath_cons e
  exact ⟨h1, hk k (by simp)⟩

/-- A field of such an object: a value that fits into one cell, or an object of the same kind. -/
theorem table_field {n : Option Str} {f : Content} {fs : List (Str × Json)} (hb : Built n f fs) (ht : TableContent f) {k : Str} {j : Json}
    (hm : (k, j) ∈ fs) :
    GoodKey k ∧ ((∃ v c, f [(k, none)] = some v ∧ v.toJson = j ∧ InOneCell j c) ∨
      ∃ gs, j = .obj gs ∧ Built n (fun rest => f ((k, none) :: rest)) gs) := by
  obtain ⟨-, ⟨hnd, hk⟩, hf⟩ := hb
  obtain ⟨ix, hix⟩ := (hk k).1 (List.mem_map.2 ⟨_, hm, rfl⟩)
  obtain ⟨rfl, hgood⟩ := ht.has hix
  refine ⟨hgood, ?_⟩
  have hv := (builtFields_iff fs).1 hf _ hm
  simp only at hv
  have val : IsValue (fun ix rest => f ((k, ix) :: rest)) j → ∃ v c, f [(k, none)] = some v ∧ v.toJson = j ∧ InOneCell j c := by
    rintro ⟨v0, e, hall⟩
    have h0 := (hall none [] v0).2 ⟨rfl, rfl, rfl⟩
    obtain ⟨-, -, -, c, hc⟩ := ht _ _ h0
    exact ⟨v0, c, h0, e, e ▸ hc⟩
  cases j with
  | leaf a => rw [BuiltVal] at hv; exact Or.inl (val hv)
  | arr l =>
    rw [BuiltVal] at hv
    rcases hv with hv | hv
    · exact Or.inl (val hv)
    · exact absurd rfl (hv.1 none hix)
  | obj gs =>
    rw [BuiltVal] at hv
    rcases hv with hv | ⟨-, h1, h2, h3⟩
    · exact Or.inl (val hv)
    · exact Or.inr ⟨gs, rfl, h1, h2, h3⟩

theorem table_cell_sound {p : List Str} {fs : List (Str × Json)} {q : List Str} {v : Json} (h : HasCell everything p fs q v) :
    ∀ {n : Option Str} {f : Content}, Built n f fs → TableContent f → ∃ ks c, q = p ++ ks ∧ f (keyPath ks) = some c ∧ InOneCell c.toJson v := by
  induction h with
  | @scalar p fs k a hm _ =>
    intro n f hb ht
    obtain ⟨-, ⟨v, c, e1, e2, e3⟩ | ⟨gs, e, -⟩⟩ := table_field hb ht hm
    · refine ⟨[k], v, rfl, e1, ?_⟩
      cases e3 with
      | scalar hb => rw [e2]; exact .scalar hb
    · cases e
  | @list p fs k l t hm _ hj =>
    intro n f hb ht
    obtain ⟨-, ⟨v, c, e1, e2, e3⟩ | ⟨gs, e, -⟩⟩ := table_field hb ht hm
    · exact ⟨[k], v, rfl, e1, by rw [e2]; exact .list ((C24_array_in_one_cell _ _).1 hj)⟩
    · cases e
  | @deep p fs k gs q v hm _ _ ih =>
    intro n f hb ht
    obtain ⟨-, ⟨v, c, e1, e2, e3⟩ | ⟨gs', e, hb'⟩⟩ := table_field hb ht hm
    · cases e3
    · cases e
      obtain ⟨ks, c, e1, e2, e3⟩ := ih hb' (ht.below k)
      exact ⟨k :: ks, c, by rw [e1]; simp, e2, e3⟩

theorem table_cell_complete (ks : List Str) : ∀ {n : Option Str} {f : Content} {fs : List (Str × Json)} {p : List Str} {c : Val}, Built n f fs → TableContent f →
    f (keyPath ks) = some c → ∃ j, InOneCell c.toJson j ∧ HasCell everything p fs (p ++ ks) j := by
  induction ks with
  | nil => intro n f fs p c hb _ hc; rw [show keyPath [] = [] from rfl, hb.1] at hc; cases hc
  | cons k ks ih =>
    intro n f fs p c hb ht hc
    have hc' : f ((k, none) :: keyPath ks) = some c := hc
    obtain ⟨⟨k', j⟩, hm, rfl⟩ := List.mem_map.1 ((hb.2.1.2 k).2 ⟨none, keyPath ks, by simp [hc']⟩)
    have hv := (builtFields_iff fs).1 hb.2.2 _ hm
    obtain ⟨-, ⟨v, d, e1, e2, e3⟩ | ⟨gs, rfl, hb'⟩⟩ := table_field hb ht hm
    · have : ks = [] ∧ c = v := by
        have val : IsValue (fun ix rest => f ((k', ix) :: rest)) j := by
          cases j with
          | leaf a => rw [BuiltVal] at hv; exact hv
          | arr l =>
            rw [BuiltVal] at hv
            rcases hv with hv | hv
            · exact hv
            · exact absurd rfl (hv.1 none ⟨[], by simp [e1]⟩)
          | obj gs =>
            rw [BuiltVal] at hv
            rcases hv with hv | hv
            · exact hv
            · rw [hv.2.1] at e1; cases e1
        obtain ⟨v0, -, hall⟩ := val
        have h1 := (hall _ _ _).1 hc'
        have h2 := (hall _ _ _).1 e1
        refine ⟨?_, by rw [h1.2.2, h2.2.2]⟩
        cases ks with
        | nil => rfl
        | cons => exact absurd h1.2.1 (by simp [keyPath])
      obtain ⟨rfl, rfl⟩ := this
      refine ⟨d, by rw [e2]; exact e3, ?_⟩
      cases e3 with
      | scalar => exact .scalar hm rfl
      | list ho => exact .list hm rfl ((C24_array_in_one_cell _ _).2 ho)
    · obtain ⟨d, h1, h2⟩ := ih (p := p ++ [k']) hb' (ht.below k') hc'
      exact ⟨d, h1, .deep hm rfl (by simpa using h2)⟩

theorem clean_scalarText {j : Json} {t : Str} (h : ScalarText j t) : CleanKeys j := by cases h <;> trivial

theorem clean_oneCell {l : List Json} {t : Str} (h : OneCell l t) : CleanKeys (.arr l) := by
  have aux : ∀ {l ts}, All₂ ScalarText l ts → CleanKeys (.arr l) := by
    intro l ts h
    refine cleanList_of (fun x hx => ?_)
    obtain ⟨t, ht⟩ := all₂_exists h hx
    exact clean_scalarText ht
  cases h with
  | scalars h => exact aux h
  | lists _ h =>
    refine cleanList_of (fun x hx => ?_)
    obtain ⟨t, ht⟩ := all₂_exists h hx
    cases ht with
    | list h => exact aux h
    | chars => trivial

theorem cleanFields_of {fs : List (Str × Json)} (h : ∀ e ∈ fs, CleanKeys e.2) : CleanFields fs := by
  induction fs with
  | nil => trivial
  | cons e r ih => exact ⟨h e (by simp), ih (fun x hx => h x (by simp [hx]))⟩

/-- Such an object has clean keys and can be flattened. -/
theorem table_object (m : Nat) : ∀ {n : Option Str} {f : Content} {fs : List (Str × Json)}, sizeOf fs ≤ m → Built n f fs → TableContent f →
    CleanKeys (.obj fs) ∧ FlattenableFields fs := by
  induction m with
  | zero => intro n f fs hs; cases fs <;> simp at hs
  | succ m ih =>
    intro n f fs hs hb ht
    have key : ∀ e ∈ fs, CleanKeys e.2 ∧ Flattenable e.2 := by
      rintro ⟨k, j⟩ hm
      obtain ⟨-, ⟨v, c, e1, e2, e3⟩ | ⟨gs, rfl, hb'⟩⟩ := table_field hb ht hm
      · cases e3 with
        | scalar hb => exact ⟨trivial, hb⟩
        | list ho => exact ⟨clean_oneCell ho, Or.inl (by rw [(C24_array_in_one_cell _ _).2 ho]; rfl)⟩
      · have : sizeOf gs ≤ m := by
          have h1 := List.sizeOf_lt_of_mem hm
          simp at h1
          omega
        obtain ⟨h1, h2⟩ := ih this hb' (ht.below k)
        exact ⟨h1, h2⟩
    refine ⟨⟨hb.2.1.1, ?_, cleanFields_of (fun e he => (key e he).1)⟩, flattenableFields_iff.2 (fun e he => (key e he).2)⟩
    intro k hk
    obtain ⟨e, he, rfl⟩ := List.mem_map.1 hk
    exact (table_field hb ht he).1.2.1

theorem table_no_array {p : List Str} {fs : List (Str × Json)} {a : List Str} (h : HasArray p fs a) :
    ∀ {n : Option Str} {f : Content}, Built n f fs → TableContent f → False := by
  have aux : ∀ {n : Option Str} {f : Content} {fs : List (Str × Json)} {k : Str} {l : List Json}, Built n f fs → TableContent f → (k, .arr l) ∈ fs →
      joinArray l = none → False := by
    intro n f fs k l hb ht hm hj
    obtain ⟨-, ⟨v, c, e1, e2, e3⟩ | ⟨gs, e, -⟩⟩ := table_field hb ht hm
    · cases e3 with
      | list ho => rw [(C24_array_in_one_cell _ _).2 ho] at hj; cases hj
    · cases e
  induction h with
  | here hm hj => intro n f hb ht; exact aux hb ht hm hj
  | @deep p fs k gs a hm _ ih =>
    intro n f hb ht
    obtain ⟨-, ⟨v, c, e1, e2, e3⟩ | ⟨gs', e, hb'⟩⟩ := table_field hb ht hm
    · cases e3
    · cases e; exact ih hb' (ht.below k)
  | item hm hj => intro n f hb ht; exact absurd (aux hb ht hm hj) id

/-! ### The object of a row -/

theorem alone_blank (cfg : UnCfg) (r : RowIn) :
    unflatten cfg [alone r] = unflatten cfg [{ name := r.sheet.name, headings := r.sheet.headings, lines := [r.line] }] := by
  refine C01_blanks_are_inert cfg _ _ (.cons ⟨⟨rfl, Iff.rfl, ?_⟩, rfl⟩ .nil)
  have : (List.replicate r.number ([] : Line)).filter hasData = [] := by
    rw [List.filter_eq_nil_iff]; intro x hx; rw [List.eq_of_mem_replicate hx]; simp [hasData]
  simp [Spec.content, alone, List.filter_append, this]

theorem tableContent_of {cfg : RowCfg} {line : Line} (h : TableRow cfg line) : TableContent (contentOf cfg (columns line)) := by
  intro a v hv
  unfold contentOf at hv
  split at hv
  · next c hc =>
    have hm := List.mem_of_find?_eq_some hc
    have ha := List.find?_some hc
    simp only [beq_iff_eq] at ha
    split at hv
    · next v' w hval =>
      injection hv with hv; subst hv
      obtain ⟨ks, h1, -, h3⟩ := h.paths c hm
      rw [h3] at ha
      injection ha with ha
      exact ⟨ks, ha.symm, h1, (h.values c hm _ _ hval).2⟩
    · cases hv
  · cases hv

theorem contentOf_column {cfg : RowCfg} {line : Line} (h : TableRow cfg line) {c : Column} (hc : c ∈ columns line) {ks : List Str}
    (hk : c.addr cfg = some (keyPath ks)) {v : Val} {w : List Warn} (hv : c.value cfg = .ok (v, w)) : contentOf cfg (columns line) (keyPath ks) = some v := by
  unfold contentOf
  cases hf : (columns line).find? (fun c => c.addr cfg == some (keyPath ks)) with
  | none => have := List.find?_eq_none.1 hf c hc; simp [hk] at this
  | some d =>
    have hda := List.find?_some hf
    simp only [beq_iff_eq] at hda
    rw [nodup_map_inj (compatible_nodup h.apart) (List.mem_of_find?_eq_some hf) hc (by rw [hda, hk])]
    simp only [hv]

theorem columns_ne {line : Line} (h : hasData line = true) : columns line ≠ [] := by
  intro e
  unfold columns at e
  rw [List.map_eq_nil_iff, List.filter_eq_nil_iff] at e
  unfold hasData at h
  rw [List.any_eq_true] at h
  obtain ⟨x, hx, hb⟩ := h
  exact e x hx hb

/-- The object a row of a table gives. -/
theorem table_row {cfg : UnCfg} (hx : cfg.row.xml = false) {r : RowIn} (hr : Counts r) (ht : TableRow cfg.row r.line) {o : Json} {w : List Warn}
    (h : unflatten cfg [alone r] = .ok ([o], w)) :
    ∃ fs, o = .obj fs ∧ Built cfg.idName (contentOf cfg.row (columns r.line)) fs ∧ ∀ c ∈ columns r.line, ∃ v cw, c.value cfg.row = .ok (v, cw) := by
  rw [alone_blank] at h
  obtain ⟨fs, e, h1, h2, -⟩ := C10_exact_content cfg hx _ _ hr.2 r.line _ _
    (fun c hc => by obtain ⟨ks, -, -, e⟩ := ht.paths c hc; rw [e]; simp) ht.apart (fun c hc v w hv => (ht.values c hc v w hv).1) (by
      intro above key i j m a b _ _ h1 _
      obtain ⟨ks, e, -⟩ := tableContent_of ht _ _ h1
      have : ∀ x ∈ keyPath ks, x.2 = none := by
        intro x hx
        obtain ⟨k, -, rfl⟩ := List.mem_map.1 hx
        rfl
      have := this (key, some i) (by rw [← e]; simp)
      cases this) (columns_ne hr.1) h
  injection e with e
  exact ⟨fs, e, h1, fun c hc => by obtain ⟨v, cw, hv, -⟩ := h2 c hc; exact ⟨v, cw, hv⟩⟩

theorem pathText_of_col {cfg : RowCfg} {line : Line} (h : TableRow cfg line) {ks : List Str} {v : Val}
    (hv : contentOf cfg (columns line) (keyPath ks) = some v) : ∃ c ∈ columns line, c.heading = pathText ks := by
  unfold contentOf at hv
  split at hv
  · next c hc =>
    have hm := List.mem_of_find?_eq_some hc
    have ha := List.find?_some hc
    simp only [beq_iff_eq] at ha
    obtain ⟨ks', h1, h2, h3⟩ := h.paths c hm
    rw [h3] at ha
    injection ha with ha
    have : ks' = ks := by
      have := congrArg (List.map Prod.fst) ha
      simpa [keyPath, Function.comp_def] using this
    exact ⟨c, hm, by rw [h2, this]⟩
  · cases hv

/-- The line of that object has the values of the row. -/
theorem table_line {cfg : UnCfg} {r : RowIn} (ht : TableRow cfg.row r.line) {n : Option Str} {fs : List (Str × Json)}
    (hb : Built n (contentOf cfg.row (columns r.line)) fs) (hv : ∀ c ∈ columns r.line, ∃ v cw, c.value cfg.row = .ok (v, cw)) {line : FLine}
    (hl : Holds everything [] fs (fun _ _ => False) line) : WrittenBack cfg.row r.line line := by
  constructor
  · intro c hc
    obtain ⟨v, cw, hval⟩ := hv c hc
    obtain ⟨ks, -, h2, h3⟩ := ht.paths c hc
    obtain ⟨j, h4, h5⟩ := table_cell_complete (p := []) ks hb (tableContent_of ht) (contentOf_column ht hc h3 hval)
    exact ⟨v, cw, j, hval, h4, by rw [h2]; exact hl.complete _ _ h5⟩
  · intro h j hg
    rcases hl.sound h j hg with ⟨q, rfl, hq⟩ | h
    · obtain ⟨ks, c, rfl, e2, -⟩ := table_cell_sound hq hb (tableContent_of ht)
      exact pathText_of_col ht e2
    · cases h

/-! ### One object per row -/

theorem addToClass_new {α : Type} {eq : α → α → Bool} {x : α} {cs : List (List α)} (h : ∀ c ∈ cs, ∀ y ∈ c, eq y x = false) :
    addToClass eq x cs = cs ++ [[x]] := by
  induction cs with
  | nil => rfl
  | cons c r ih =>
    have : c.head?.any (fun y => eq y x) = false := by
      cases c with
      | nil => rfl
      | cons y ys => simpa using h (y :: ys) (by simp) y (by simp)
    rw [addToClass, this]
    simp only [Bool.false_eq_true, if_false, List.cons_append]
    rw [ih (fun c hc => h c (by simp [hc]))]

theorem classes_apart {α : Type} {eq : α → α → Bool} {l : List α} (h : l.Pairwise (fun a b => eq a b = false)) : classes eq l = l.map (fun x => [x]) := by
  have key : ∀ (l : List α) (done : List α), (done ++ l).Pairwise (fun a b => eq a b = false) →
      l.foldl (fun cs x => addToClass eq x cs) (done.map (fun x => [x])) = (done ++ l).map (fun x => [x]) := by
    intro l
    induction l with
    | nil => intro done _; simp
    | cons x r ih =>
      intro done hp
      rw [List.foldl_cons, addToClass_new]
      · have := ih (done ++ [x]) (by simpa using hp)
        simpa using this
      · intro c hc y hy
        obtain ⟨z, hz, rfl⟩ := List.mem_map.1 hc
        rw [List.mem_singleton] at hy
        subst hy
        exact (List.pairwise_append.1 hp).2.2 y hz x (by simp)
  simpa [classes] using key l [] (by simpa using h)

theorem addToClass_perm {α : Type} (eq : α → α → Bool) (x : α) (cs : List (List α)) : (addToClass eq x cs).flatten.Perm (cs.flatten ++ [x]) := by
  induction cs with
  | nil => simp [addToClass]
  | cons c r ih =>
    rw [addToClass]
    split
    · simp only [List.flatten_cons, List.append_assoc]
      exact List.Perm.append_left _ (List.perm_append_comm)
    · simp only [List.flatten_cons, List.append_assoc]
      exact List.Perm.append_left _ ih

theorem classes_flatten {α : Type} (eq : α → α → Bool) (l : List α) : (classes eq l).flatten.Perm l := by
  have key : ∀ (l : List α) (cs : List (List α)), (l.foldl (fun cs x => addToClass eq x cs) cs).flatten.Perm (cs.flatten ++ l) := by
    intro l
    induction l with
    | nil => intro cs; simp
    | cons x r ih =>
      intro cs
      rw [List.foldl_cons]
      refine (ih _).trans ?_
      rw [show cs.flatten ++ x :: r = cs.flatten ++ [x] ++ r by simp]
      exact (addToClass_perm eq x cs).append_right r
  simpa [classes] using key l []

theorem addToClass_sub {α : Type} {eq : α → α → Bool} {x : α} {l : List α} {cs : List (List α)} (h : ∀ c ∈ cs, c.Sublist l) :
    ∀ c ∈ addToClass eq x cs, c.Sublist (l ++ [x]) := by
  induction cs with
  | nil => intro c hc; simp only [addToClass, List.mem_singleton] at hc; subst hc; exact List.sublist_append_right l [x]
  | cons d r ih =>
    intro c hc
    rw [addToClass] at hc
    split at hc
    · rcases List.mem_cons.1 hc with rfl | hc
      · exact (h d (by simp)).append_right [x]
      · exact (h c (by simp [hc])).trans (List.sublist_append_left l [x])
    · rcases List.mem_cons.1 hc with rfl | hc
      · exact (h c (by simp)).trans (List.sublist_append_left l [x])
      · exact ih (fun c hc => h c (by simp [hc])) c hc

theorem classes_sub {α : Type} {eq : α → α → Bool} {l : List α} : ∀ c ∈ classes eq l, c.Sublist l := by
  have key : ∀ (l done : List α) (cs : List (List α)), (∀ c ∈ cs, c.Sublist done) →
      ∀ c ∈ l.foldl (fun cs x => addToClass eq x cs) cs, c.Sublist (done ++ l) := by
    intro l
    induction l with
    | nil => intro done cs h c hc; simpa using h c hc
    | cons x r ih =>
      intro done cs h c hc
      have := ih (done ++ [x]) _ (addToClass_sub h) c hc
      simpa using this
  intro c hc
  simpa using key l [] [] (by simp) c hc

theorem classes_equal {α : Type} {eq : α → α → Bool} (hs : ∀ a b, eq a b = true → eq b a = true)
    (ht : ∀ a b c, eq a b = true → eq b c = true → eq a c = true) (l : List α) : ∀ c ∈ classes eq l, c.Pairwise (fun a b => eq a b = true) := by
  have step : ∀ (x : α) (cs : List (List α)), (∀ c ∈ cs, c.Pairwise (fun a b => eq a b = true)) →
      ∀ c ∈ addToClass eq x cs, c.Pairwise (fun a b => eq a b = true) := by
    intro x cs
    induction cs with
    | nil => intro _ c hc; simp only [addToClass, List.mem_singleton] at hc; subst hc; simp
    | cons d r ih =>
      intro h c hc
      rw [addToClass] at hc
      split at hc
      · next hh =>
        rcases List.mem_cons.1 hc with rfl | hc
        · rw [List.pairwise_append]
          refine ⟨h d (by simp), by simp, ?_⟩
          intro a ha b hb
          rw [List.mem_singleton] at hb
          subst hb
          cases d with
          | nil => cases ha
          | cons y ys =>
            simp only [List.head?_cons, Option.any_some] at hh
            rcases List.mem_cons.1 ha with rfl | ha
            · exact hh
            · exact ht _ _ _ (hs _ _ ((List.pairwise_cons.1 (h _ (by simp))).1 a ha)) hh
        · exact h c (by simp [hc])
      · rcases List.mem_cons.1 hc with rfl | hc
        · exact h c (by simp)
        · exact ih (fun c hc => h c (by simp [hc])) c hc
  have key : ∀ (l : List α) (cs : List (List α)), (∀ c ∈ cs, c.Pairwise (fun a b => eq a b = true)) →
      ∀ c ∈ l.foldl (fun cs x => addToClass eq x cs) cs, c.Pairwise (fun a b => eq a b = true) := by
    intro l
    induction l with
    | nil => intro cs h; exact h
    | cons x r ih => intro cs h; exact ih _ (step x cs h)
  exact key l [] (by simp)

/-- The rows in the order of their objects. -/
def inObjectOrder (cfg : UnCfg) (rows : List RowIn) : List RowIn :=
  (classes (sameRoot cfg) rows).flatMap (fun g => g.filter (fun r => (rowId cfg r).isSome) ++ g.filter (fun r => (rowId cfg r).isNone))

theorem inObjectOrder_perm (cfg : UnCfg) (rows : List RowIn) : (inObjectOrder cfg rows).Perm rows := by
  refine List.Perm.trans ?_ (classes_flatten (sameRoot cfg) rows)
  unfold inObjectOrder
  generalize classes (sameRoot cfg) rows = gs
  induction gs with
  | nil => simp
  | cons g r ih =>
    simp only [List.flatMap_cons, List.flatten_cons]
    refine List.Perm.append ?_ ih
    have : (fun r => (rowId cfg r).isNone) = (fun r => !(rowId cfg r).isSome) := by funext r; cases rowId cfg r <;> rfl
    rw [this]
    exact List.filter_append_perm _ g

theorem flatMap_eq {α β : Type} {l : List α} {f g : α → List β} (h : ∀ x ∈ l, f x = g x) : l.flatMap f = l.flatMap g := by
  induction l with
  | nil => rfl
  | cons x r ih => rw [List.flatMap_cons, List.flatMap_cons, h x (by simp), ih (fun y hy => h y (by simp [hy]))]

theorem objectRows_apart {cfg : UnCfg} {rows : List RowIn} (h : RowsApart cfg rows) :
    objectRows cfg rows = (inObjectOrder cfg rows).map (fun r => [r]) := by
  unfold objectRows inObjectOrder
  rw [List.map_flatMap]
  refine flatMap_eq (fun g hg => ?_)
  have h1 : g.Pairwise (fun a b => sameRoot cfg a b = true) :=
    classes_equal (eq := sameRoot cfg) (fun a b h => by unfold sameRoot atomEq at *; exact Val.pyEq_symm h)
      (fun a b c h h' => by unfold sameRoot atomEq at *; exact Val.pyEq_trans h h') rows g hg
  have h2 : g.Pairwise (fun a b => sameId cfg a b = false) :=
    (h1.and (h.sublist (classes_sub g hg))).imp (fun h => h.2 h.1)
  rw [List.map_append, classes_apart (h2.sublist List.filter_sublist)]

theorem classes_one {α : Type} {eq : α → α → Bool} {x : α} {l : List α} (h : ∀ y ∈ l, eq x y = true) : classes eq (x :: l) = [x :: l] := by
  have key : ∀ (l done : List α), (∀ y ∈ l, eq x y = true) → l.foldl (fun cs x => addToClass eq x cs) [x :: done] = [x :: (done ++ l)] := by
    intro l
    induction l with
    | nil => intro done _; simp
    | cons y r ih =>
      intro done h
      rw [List.foldl_cons]
      have : addToClass eq y [x :: done] = [x :: (done ++ [y])] := by simp [addToClass, h y (by simp)]
      rw [this, ih _ (fun z hz => h z (by simp [hz]))]
      simp
  have := key l [] h
  simpa [classes, addToClass] using this

/-- With one root id for all rows, and ids on all or none of them, the order of the objects is that of the rows. -/
theorem inObjectOrder_same {cfg : UnCfg} {rows : List RowIn} (hr : ∀ r ∈ rows, ∀ r' ∈ rows, sameRoot cfg r r' = true)
    (hi : (∀ r ∈ rows, (rowId cfg r).isSome = true) ∨ ∀ r ∈ rows, (rowId cfg r).isSome = false) : inObjectOrder cfg rows = rows := by
  cases rows with
  | nil => rfl
  | cons x l =>
    unfold inObjectOrder
    rw [classes_one (fun y hy => hr x (by simp) y (by simp [hy]))]
    simp only [List.flatMap_cons, List.flatMap_nil, List.append_nil]
    have aux : ∀ b, (∀ r ∈ x :: l, (rowId cfg r).isSome = b) → ∀ c, (x :: l).filter (fun r => (rowId cfg r).isSome == c) = if b = c then x :: l else [] := by
      intro b hb c
      split
      · next h => rw [List.filter_eq_self]; intro r hr; rw [hb r hr, h]; simp
      · next h => rw [List.filter_eq_nil_iff]; intro r hr; rw [hb r hr]; simpa using h
    have e1 : (fun r => (rowId cfg r).isSome) = (fun r => (rowId cfg r).isSome == true) := by funext r; simp
    have e2 : (fun r => (rowId cfg r).isNone) = (fun r => (rowId cfg r).isSome == false) := by funext r; cases rowId cfg r <;> rfl
    rw [e1, e2]
    rcases hi with hi | hi <;> rw [aux _ hi, aux _ hi] <;> simp

end Verif
