import Verif.Spec.Address
import Verif.Proofs.RowInv
import Verif.Proofs.Induct
/-! Placing a value at the position a heading names. -/
namespace Verif
open Spec

/-- The cell at a position. -/
def rget : RFields → Addr → Option Cell
  | _, [] => none
  | fs, (k, ix) :: a =>
    match Dict.get fs k with
    | some (.cell c) => if ix = none ∧ a = [] then some c else none
    | some (.obj g) => if ix = none then rget g a else none
    | some (.lad is) =>
      match ix with
      | some i => (match Dict.get is i with | some g => rget g a | none => none)
      | none => none
    | none => none

/-- Putting a cell at a position. -/
def putAt : Addr → Cell → RFields → Option RFields
  | [], _, _ => none
  | (k, none) :: a, c, cur =>
    if a = [] then (if leafBlocked false (Dict.get cur k) then none else some (Dict.set cur k (.cell c)))
    else
      match objAt cur k with
      | none => none
      | some fs => (putAt a c fs).map (fun fs' => Dict.set cur k (.obj fs'))
  | (k, some i) :: a, c, cur =>
    match ladAt cur k with
    | none => none
    | some is => (putAt a c ((Dict.get is i).getD [])).map (fun inner' => Dict.set cur k (.lad (Dict.set is i inner')))

/-- The last step of the position is a key. -/
def Good : Addr → Prop
  | [] => False
  | (_, ix) :: a => (a = [] ∧ ix = none) ∨ Good a

theorem good_of_address {types : Str → Option CType} : ∀ (comps above : List Str) (a : Addr),
    address types above comps = some a → Good a := by
  intro comps above
  induction above, comps using address.induct (types := types) with
  | case1 above => intro a h; simp [address] at h
  | case2 above key rest hk => intro a h; rw [address.eq_2] at h; simp [hk] at h
  | case3 above key hk ty hty => intro a h; rw [address.eq_2] at h; simp [hk] at h; grind
  | case4 above key hk ty hty => intro a h; rw [address.eq_2] at h; simp [hk] at h; grind [Good]
  | case5 above key hk ty next rest' i hi hty ih =>
    intro a h; rw [address.eq_2] at h; simp [hk, hi] at h
    obtain ⟨-, b, hb, rfl⟩ := h; exact Or.inr (ih b hb)
  | case6 above key hk ty next rest' i hi hty => intro a h; rw [address.eq_2] at h; simp [hk, hi] at h; grind
  | case7 above key hk ty next rest' hi hty ih =>
    intro a h; rw [address.eq_2] at h
    have hty' : types (Py.join s%"/" (above ++ [key])) = some .array := hty
    simp [hk, hi, hty'] at h
    obtain ⟨b, hb, rfl⟩ := h; exact Or.inr (ih b hb)
  | case8 above key hk ty next rest' hi hty hty2 ih =>
    intro a h; rw [address.eq_2] at h
    have h1 : ¬ types (Py.join s%"/" (above ++ [key])) = some .array := hty
    have h2 : types (Py.join s%"/" (above ++ [key])) = none ∨ types (Py.join s%"/" (above ++ [key])) = some .object := hty2
    simp only [if_neg hk, hi, if_neg h1, if_pos h2] at h
    obtain ⟨b, hb, rfl⟩ := Option.map_eq_some_iff.1 h; exact Or.inr (ih b hb)
  | case9 above key hk ty next rest' hi hty hty2 =>
    intro a h; rw [address.eq_2] at h
    have h1 : ¬ types (Py.join s%"/" (above ++ [key])) = some .array := hty
    have h2 : ¬ (types (Py.join s%"/" (above ++ [key])) = none ∨ types (Py.join s%"/" (above ++ [key])) = some .object) := hty2
    simp only [if_neg hk, hi, if_neg h1, if_neg h2] at h
    cases h

theorem putAt_nil {a : Addr} (h : Good a) (c : Cell) : putAt a c [] ≠ none := by
  induction a with
  | nil => exact h.elim
  | cons s a ih =>
    obtain ⟨k, ix⟩ := s
    cases ix with
    | none =>
      by_cases ha : a = []
      · subst ha; simp [putAt, Dict.get, leafBlocked]
      · have := ih (h.resolve_left (fun x => ha x.1))
        simp [putAt, ha, objAt, Dict.get] at this ⊢; exact this
    | some i =>
      have := ih (h.resolve_left (fun x => by simp at x))
      simp [putAt, ladAt, Dict.get] at this ⊢; exact this

theorem Dict.set_self {κ α : Type} [DecidableEq κ] {d : List (κ × α)} {k : κ} {v : α} (h : Dict.get d k = some v) :
    Dict.set d k v = d := by
  obtain ⟨a, b, h1, h2⟩ := Dict.set_of_some v h
  rw [h2, ← h1]

/-- What a heading's components are when they name a position. -/
theorem address_some {types : Str → Option CType} {above comps : List Str} {a : Addr} (h : address types above comps = some a) :
    ∃ key rest, comps = key :: rest ∧ isint key = false ∧
      ((rest = [] ∧ types (Py.join s%"/" (above ++ [key])) ≠ some .array ∧ types (Py.join s%"/" (above ++ [key])) ≠ some .object ∧ a = [(key, none)]) ∨
       (∃ next rest' i a', rest = next :: rest' ∧ Py.int? next = some i ∧
         (types (Py.join s%"/" (above ++ [key])) = none ∨ types (Py.join s%"/" (above ++ [key])) = some .array) ∧
         address types (above ++ [key]) rest' = some a' ∧ a = (key, some i) :: a') ∨
       (∃ a', Py.int? (rest.headD []) = none ∧ rest.headD [] ≠ [] ∧
         types (Py.join s%"/" (above ++ [key])) = some .array ∧ address types (above ++ [key]) rest = some a' ∧ a = (key, some (-1)) :: a') ∨
       (∃ a', Py.int? (rest.headD []) = none ∧ rest.headD [] ≠ [] ∧
         (types (Py.join s%"/" (above ++ [key])) = none ∨ types (Py.join s%"/" (above ++ [key])) = some .object) ∧
         address types (above ++ [key]) rest = some a' ∧ a = (key, none) :: a')) := by
  cases comps with
  | nil => simp [address] at h
  | cons key rest =>
    refine ⟨key, rest, rfl, ?_⟩
    rw [address.eq_2] at h
    by_cases hk : key = [] ∨ (Py.int? key).isSome = true
    · simp [hk] at h
    · rw [if_neg hk] at h
      refine ⟨by cases hb : Py.int? key <;> simp_all [isint], ?_⟩
      simp only at h
      cases rest with
      | nil =>
        simp only at h
        left
        grind
      | cons next rest' =>
        simp only at h
        have hne : ∀ b, address types (above ++ [key]) (next :: rest') = some b → next ≠ [] := by
          intro b hb; rw [address.eq_2] at hb; intro hn; simp [hn] at hb
        cases hi : Py.int? next with
        | some i =>
          rw [hi] at h; simp only at h
          right; left
          split at h
          · next hty =>
            obtain ⟨b, hb, rfl⟩ := Option.map_eq_some_iff.1 h
            exact ⟨next, rest', i, b, rfl, hi, hty, hb, rfl⟩
          · cases h
        | none =>
          rw [hi] at h; simp only at h
          right; right
          split at h
          · next hty =>
            obtain ⟨b, hb, rfl⟩ := Option.map_eq_some_iff.1 h
            exact Or.inl ⟨b, hi, hne b hb, hty, hb, rfl⟩
          · split at h
            · next hty =>
              obtain ⟨b, hb, rfl⟩ := Option.map_eq_some_iff.1 h
              exact Or.inr ⟨b, hi, hne b hb, hty, hb, rfl⟩
            · cases h

theorem pathTillNow_keys (pre : List Str) : pathTillNow pre = Py.join s%"/" (keysOf pre) := rfl

/-- The row builder puts the converted value where the heading says, or reports the column. -/
theorem place_putAt {cfg : RowCfg} (hx : cfg.xml = false) {path : Str} (a : Addr) : ∀ {pre comps : List Str} {cell : Cell} {cur cur' : RFields}
    {w : List Warn}, address cfg.types (keysOf pre) comps = some a → place cfg path pre comps cell cur = .ok (cur', w) →
    (∃ v, convertCell cfg (cfg.types (Py.join s%"/" (keysOf pre ++ a.keys))) cell.value = .ok (v, w) ∧
      (v.blank = false → putAt a { cell with value := v } cur = some cur')) ∨
    (cur' = cur ∧ (∀ c, putAt a c cur = none) ∧ ∃ x : Warn, w = [x] ∧ ((∃ t, x = .notArray path t) ∨ (∃ t, x = .notObject path t) ∨
      x = .isContainer (Py.join s%"/" (keysOf pre ++ a.keys)))) := by
  induction a with
  | nil => intro pre comps cell cur cur' w ha; exact (good_of_address _ _ _ ha).elim
  | cons s a ih =>
    intro pre comps cell cur cur' w ha h
    obtain ⟨key, rest, rfl, hkey, hcase⟩ := address_some ha
    have hct : ∀ till next, currentType cfg path till cell next = cfg.types till := by
      intro till next; unfold currentType; split <;> simp [hx]
    have hkp : keysOf (pre ++ [key]) = keysOf pre ++ [key] := by rw [keysOf_append, keysOf_single (by simp [hkey])]
    rw [place] at h
    simp only [hkey, Bool.false_eq_true, if_false, hct, pathTillNow_keys, hkp, hx, Bool.not_false, Bool.true_or, if_true] at h
    rcases hcase with ⟨rfl, hna, hno, hs⟩ | ⟨next, rest', i, a', rfl, hi, hty, ha', hs⟩ | ⟨a', hi, hne, hty, ha', hs⟩ | ⟨a', hi, hne, hty, ha', hs⟩
    · -- the leaf
      injection hs with hs1 hs2
      subst hs1 hs2
      have hint : Py.int? ([] : Str) = none := by decide
      simp only [List.headD_nil, hint, Option.isSome_none, Bool.false_and, Bool.false_eq_true, if_false, arrayIndex, hna, hno, ne_eq,
        not_true, and_false, or_false, if_false] at h
      have hk1 : keysOf pre ++ Addr.keys [(key, none)] = keysOf pre ++ [key] := rfl
      rw [hk1]
      cases hp : placeLeaf cfg (cfg.types (Py.join s%"/" (keysOf pre ++ [key]))) (Py.join s%"/" (keysOf pre ++ [key])) key cell cur with
      | error e => rw [hp] at h; simp at h
      | ok r =>
        obtain ⟨cur1, cell', w1⟩ := r
        rw [hp] at h
        simp only [place, mapW, id, List.append_nil, Except.ok.injEq, Prod.mk.injEq] at h
        obtain ⟨rfl, rfl⟩ := h
        unfold placeLeaf at hp
        rw [hx] at hp
        cases hb : leafBlocked false (Dict.get cur key) with
        | true =>
          rw [hb] at hp; simp only [if_true, Except.ok.injEq, Prod.mk.injEq] at hp
          obtain ⟨rfl, rfl, rfl⟩ := hp
          right
          exact ⟨rfl, fun c => by simp [putAt, hb], _, rfl, by simp⟩
        | false =>
          rw [hb] at hp; simp only [Bool.false_eq_true, if_false] at hp
          cases hc : convertCell cfg (cfg.types (Py.join s%"/" (keysOf pre ++ [key]))) cell.value with
          | error e => rw [hc] at hp; simp at hp
          | ok vw =>
            obtain ⟨v, w'⟩ := vw
            rw [hc] at hp; simp only at hp
            left
            have hww : w1 = w' := by
              by_cases hvb : v.blank = true
              · simp only [hvb, if_true, Except.ok.injEq, Prod.mk.injEq] at hp; exact hp.2.2.symm
              · simp only [hvb, Bool.false_eq_true, if_false, putCell, hx, Except.ok.injEq, Prod.mk.injEq] at hp; exact hp.2.2.symm
            refine ⟨v, by rw [hww], ?_⟩
            intro hv
            simp only [hv, Bool.false_eq_true, if_false, putCell, hx] at hp
            simp only [Except.ok.injEq, Prod.mk.injEq] at hp
            simp [putAt, hb, hp.1]
    · -- an array with an index
      injection hs with hs1 hs2
      subst hs1 hs2
      have hty' : ((Py.int? ((next :: rest').headD [])).isSome && !(cfg.types (Py.join s%"/" (keysOf pre ++ [key])) == none || cfg.types (Py.join s%"/" (keysOf pre ++ [key])) == some .array)) = false := by
        rcases hty with e | e <;> simp [e]
      rw [hty'] at h
      have hai : arrayIndex ((next :: rest').headD []) (cfg.types (Py.join s%"/" (keysOf pre ++ [key]))) = some i := by simp [arrayIndex, hi]
      rw [hai] at h
      simp only [Bool.false_eq_true, if_false] at h
      cases hl : ladAt cur key with
      | none =>
        rw [hl] at h; simp only [Except.ok.injEq, Prod.mk.injEq] at h
        obtain ⟨rfl, rfl⟩ := h
        right
        exact ⟨rfl, fun c => by simp [putAt, hl], _, rfl, Or.inl ⟨_, rfl⟩⟩
      | some is =>
        rw [hl] at h; simp only at h
        obtain ⟨inner', w1, hp, rfl, rfl⟩ := mapW_ok h
        have hnint : isint next = true := by simp [isint, hi]
        rw [place] at hp
        have hpe : (pre ++ [key]).isEmpty = false := by cases pre <;> rfl
        simp only [hnint, if_true, hpe, Bool.false_eq_true, if_false] at hp
        obtain ⟨inner2, w2, hp2, rfl, rfl⟩ := mapW_ok hp
        have hk3 : keysOf (pre ++ [key] ++ [next]) = keysOf pre ++ [key] := by rw [keysOf_append, hkp, keysOf_single_int hnint]; simp
        have := ih (pre := pre ++ [key] ++ [next]) (by rw [hk3]; exact ha') hp2
        rw [hk3] at this
        have hkk : keysOf pre ++ [key] ++ Addr.keys a = keysOf pre ++ Addr.keys ((key, some i) :: a) := by simp [Addr.keys]
        rw [hkk] at this
        rcases this with ⟨v, hv, hput⟩ | ⟨he, hfail, hw⟩
        · left
          refine ⟨v, by simpa using hv, fun hb => ?_⟩
          simp [putAt, hl, hput hb]
        · right
          subst he
          have hg : ∃ g, Dict.get is i = some g := by
            cases hg : Dict.get is i with
            | some g => exact ⟨g, rfl⟩
            | none =>
              exfalso
              have := hfail cell
              rw [hg] at this
              exact putAt_nil (good_of_address _ _ _ ha') cell this
          obtain ⟨g, hg⟩ := hg
          have hcur : Dict.get cur key = some (.lad is) := by
            cases hc : Dict.get cur key with
            | none => simp only [ladAt, hc, Option.some.injEq] at hl; subst hl; simp [Dict.get] at hg
            | some t =>
              simp only [ladAt, hc] at hl
              cases t with
              | lad is' => simp at hl; rw [hl]
              | cell _ => cases hl
              | obj _ => cases hl
          refine ⟨?_, ?_, ?_⟩
          · rw [hg]; simp only [Option.getD_some]
            rw [Dict.set_self hg, Dict.set_self hcur]
          · intro c; simp only [putAt, hl, hfail c]; rfl
          · simpa using hw
    · -- an array without index
      injection hs with hs1 hs2
      subst hs1 hs2
      have hai : arrayIndex (rest.headD []) (cfg.types (Py.join s%"/" (keysOf pre ++ [key]))) = some (-1) := by simp only [arrayIndex, hi, hty]; rfl
      rw [hai] at h
      simp only [hi, Option.isSome_none, Bool.false_and, Bool.false_eq_true, if_false] at h
      cases hl : ladAt cur key with
      | none =>
        rw [hl] at h; simp only [Except.ok.injEq, Prod.mk.injEq] at h
        obtain ⟨rfl, rfl⟩ := h
        right
        exact ⟨rfl, fun c => by simp [putAt, hl], _, rfl, Or.inl ⟨_, rfl⟩⟩
      | some is =>
        rw [hl] at h; simp only at h
        obtain ⟨inner', w1, hp, rfl, rfl⟩ := mapW_ok h
        have := ih (pre := pre ++ [key]) (by rw [hkp]; exact ha') hp
        rw [hkp] at this
        have hkk : keysOf pre ++ [key] ++ Addr.keys a = keysOf pre ++ Addr.keys ((key, some (-1)) :: a) := by simp [Addr.keys]
        rw [hkk] at this
        rcases this with ⟨v, hv, hput⟩ | ⟨he, hfail, hw⟩
        · left
          refine ⟨v, by simpa using hv, fun hb => ?_⟩
          simp [putAt, hl, hput hb]
        · right
          subst he
          have hg : ∃ g, Dict.get is (-1) = some g := by
            cases hg : Dict.get is (-1) with
            | some g => exact ⟨g, rfl⟩
            | none =>
              exfalso
              have := hfail cell
              rw [hg] at this
              exact putAt_nil (good_of_address _ _ _ ha') cell this
          obtain ⟨g, hg⟩ := hg
          have hcur : Dict.get cur key = some (.lad is) := by
            cases hc : Dict.get cur key with
            | none => simp only [ladAt, hc, Option.some.injEq] at hl; subst hl; simp [Dict.get] at hg
            | some t =>
              simp only [ladAt, hc] at hl
              cases t with
              | lad is' => simp at hl; rw [hl]
              | cell _ => cases hl
              | obj _ => cases hl
          refine ⟨?_, ?_, ?_⟩
          · rw [hg]; simp only [Option.getD_some]
            rw [Dict.set_self hg, Dict.set_self hcur]
          · intro c; simp only [putAt, hl, hfail c]; rfl
          · simpa using hw
    · -- an object
      injection hs with hs1 hs2
      subst hs1 hs2
      have hna : cfg.types (Py.join s%"/" (keysOf pre ++ [key])) ≠ some .array := by rcases hty with e | e <;> simp [e]
      have hai : arrayIndex (rest.headD []) (cfg.types (Py.join s%"/" (keysOf pre ++ [key]))) = none := by simp only [arrayIndex, hi, if_neg hna]
      rw [hai] at h
      have hcond : cfg.types (Py.join s%"/" (keysOf pre ++ [key])) = some .object ∨ (cfg.types (Py.join s%"/" (keysOf pre ++ [key])) = none ∧ rest.headD [] ≠ []) := by
        rcases hty with e | e
        · exact Or.inr ⟨e, hne⟩
        · exact Or.inl e
      simp only [hi, Option.isSome_none, Bool.false_and, Bool.false_eq_true, if_false, if_pos hcond] at h
      have han : a ≠ [] := fun e => by have := good_of_address _ _ _ ha'; rw [e] at this; exact this
      cases hl : objAt cur key with
      | none =>
        rw [hl] at h; simp only [Except.ok.injEq, Prod.mk.injEq] at h
        obtain ⟨rfl, rfl⟩ := h
        right
        exact ⟨rfl, fun c => by simp [putAt, han, hl], _, rfl, Or.inr (Or.inl ⟨_, rfl⟩)⟩
      | some is =>
        rw [hl] at h; simp only at h
        obtain ⟨inner', w1, hp, rfl, rfl⟩ := mapW_ok h
        have := ih (pre := pre ++ [key]) (by rw [hkp]; exact ha') hp
        rw [hkp] at this
        have hkk : keysOf pre ++ [key] ++ Addr.keys a = keysOf pre ++ Addr.keys ((key, none) :: a) := by simp [Addr.keys]
        rw [hkk] at this
        rcases this with ⟨v, hv, hput⟩ | ⟨he, hfail, hw⟩
        · left
          refine ⟨v, by simpa using hv, fun hb => ?_⟩
          simp [putAt, han, hl, hput hb]
        · right
          subst he
          have hcur : Dict.get cur key = some (.obj inner') := by
            cases hc : Dict.get cur key with
            | none =>
              simp only [objAt, hc, Option.some.injEq] at hl; subst hl
              exact absurd (hfail cell) (putAt_nil (good_of_address _ _ _ ha') cell)
            | some t =>
              simp only [objAt, hc] at hl
              cases t with
              | obj fs' => simp at hl; rw [hl]
              | cell _ => cases hl
              | lad _ => cases hl
          refine ⟨?_, ?_, ?_⟩
          · rw [Dict.set_self hcur]
          · intro c; simp only [putAt, if_neg han, hl, hfail c]; rfl
          · simpa using hw

/-! ### Trees without empty containers -/

mutual
/-- Distinct keys, no empty containers. -/
def RFull : RTree → Prop
  | .cell _ => True
  | .obj fs => fs ≠ [] ∧ RFullF fs
  | .lad is => is ≠ [] ∧ RFullI is
def RFullF : List (Str × RTree) → Prop
  | [] => True
  | (k, t) :: r => k ∉ Dict.keys r ∧ RFull t ∧ RFullF r
def RFullI : List (Int × List (Str × RTree)) → Prop
  | [] => True
  | (i, fs) :: r => i ∉ Dict.keys r ∧ (fs ≠ [] ∧ RFullF fs) ∧ RFullI r
end

theorem rfullF_iff {fs : RFields} : RFullF fs ↔ (Dict.keys fs).Nodup ∧ ∀ k t, Dict.get fs k = some t → RFull t := by
  induction fs with
  | nil => simp [RFullF, Dict.keys]
  | cons e r ih =>
    obtain ⟨j, t⟩ := e
    simp only [RFullF, ih, Dict.keys, List.map_cons, List.nodup_cons]
    constructor
    · rintro ⟨h1, h2, h3, h4⟩
      refine ⟨⟨h1, h3⟩, ?_⟩
      intro k t' h
      rw [Dict.get_cons] at h
      by_cases hk : j = k
      · subst hk; simp at h; exact h ▸ h2
      · simp [hk] at h; exact h4 k t' h
    · rintro ⟨⟨h1, h3⟩, h4⟩
      refine ⟨h1, h4 j t (by simp [Dict.get_cons]), h3, ?_⟩
      intro k t' h
      apply h4 k
      rw [Dict.get_cons]
      have : j ≠ k := by
        rintro rfl
        exact h1 (Dict.mem_keys_of_mem (Dict.get_eq_some_mem h))
      simp [this, h]

theorem rfullI_iff {is : List (Int × RFields)} : RFullI is ↔
    (Dict.keys is).Nodup ∧ ∀ i fs, Dict.get is i = some fs → fs ≠ [] ∧ RFullF fs := by
  induction is with
  | nil => simp [RFullI, Dict.keys]
  | cons e r ih =>
    obtain ⟨j, t⟩ := e
    simp only [RFullI, ih, Dict.keys, List.map_cons, List.nodup_cons]
    constructor
    · rintro ⟨h1, h2, h3, h4⟩
      refine ⟨⟨h1, h3⟩, ?_⟩
      intro k t' h
      rw [Dict.get_cons] at h
      by_cases hk : j = k
      · subst hk; simp at h; exact h ▸ h2
      · simp [hk] at h; exact h4 k t' h
    · rintro ⟨⟨h1, h3⟩, h4⟩
      refine ⟨h1, h4 j t (by simp [Dict.get_cons]), h3, ?_⟩
      intro k t' h
      apply h4 k
      rw [Dict.get_cons]
      have : j ≠ k := by
        rintro rfl
        exact h1 (Dict.mem_keys_of_mem (Dict.get_eq_some_mem h))
      simp [this, h]

theorem rfullF_set {fs : RFields} (h : RFullF fs) {k : Str} {t : RTree} (ht : RFull t) : RFullF (Dict.set fs k t) := by
  rw [rfullF_iff] at h ⊢
  refine ⟨Dict.nodup_keys_set _ _ h.1, ?_⟩
  intro k' t' h'
  rw [Dict.get_set] at h'
  by_cases hk : k = k'
  · subst hk; simp at h'; subst h'; exact ht
  · simp [hk] at h'; exact h.2 k' t' h'

theorem rfullI_set {is : List (Int × RFields)} (h : RFullI is) {i : Int} {fs : RFields} (ht : fs ≠ [] ∧ RFullF fs) :
    RFullI (Dict.set is i fs) := by
  rw [rfullI_iff] at h ⊢
  refine ⟨Dict.nodup_keys_set _ _ h.1, ?_⟩
  intro k' t' h'
  rw [Dict.get_set] at h'
  by_cases hk : i = k'
  · subst hk; simp at h'; subst h'; exact ht
  · simp [hk] at h'; exact h.2 k' t' h'

theorem Dict.set_ne_nil {κ α : Type} [DecidableEq κ] (d : List (κ × α)) (k : κ) (v : α) : Dict.set d k v ≠ [] := by
  cases d with
  | nil => simp [Dict.set]
  | cons e r => simp [Dict.set]; split <;> simp

theorem ladAt_cases {cur : RFields} {k : Str} {is : List (Int × RFields)} (h : ladAt cur k = some is) :
    Dict.get cur k = none ∧ is = [] ∨ Dict.get cur k = some (.lad is) := by
  unfold ladAt at h
  cases hc : Dict.get cur k with
  | none => rw [hc] at h; simp at h; exact Or.inl ⟨rfl, h⟩
  | some t =>
    rw [hc] at h
    cases t with
    | lad is' => simp at h; subst h; exact Or.inr rfl
    | cell _ => cases h
    | obj _ => cases h

theorem objAt_cases {cur : RFields} {k : Str} {fs : RFields} (h : objAt cur k = some fs) :
    Dict.get cur k = none ∧ fs = [] ∨ Dict.get cur k = some (.obj fs) := by
  unfold objAt at h
  cases hc : Dict.get cur k with
  | none => rw [hc] at h; simp at h; exact Or.inl ⟨rfl, h⟩
  | some t =>
    rw [hc] at h
    cases t with
    | obj is' => simp at h; subst h; exact Or.inr rfl
    | cell _ => cases h
    | lad _ => cases h

theorem putAt_full {a : Addr} {c : Cell} : ∀ {cur cur' : RFields}, RFullF cur → putAt a c cur = some cur' → RFullF cur' ∧ cur' ≠ [] := by
  induction a with
  | nil => intro cur cur' _ h; simp [putAt] at h
  | cons s a ih =>
    intro cur cur' hf h
    obtain ⟨k, ix⟩ := s
    cases ix with
    | none =>
      simp only [putAt] at h
      by_cases ha : a = []
      · simp only [ha, if_true] at h
        split at h
        · cases h
        · injection h with h; subst h
          exact ⟨rfullF_set hf (by simp [RFull]), Dict.set_ne_nil _ _ _⟩
      · simp only [if_neg ha] at h
        cases ho : objAt cur k with
        | none => rw [ho] at h; cases h
        | some fs =>
          rw [ho] at h
          obtain ⟨fs', hp, rfl⟩ := Option.map_eq_some_iff.1 h
          have hfs : RFullF fs := by
            rcases objAt_cases ho with ⟨-, rfl⟩ | hg
            · simp [RFullF]
            · have := (rfullF_iff.1 hf).2 _ _ hg; simp only [RFull] at this; exact this.2
          have := ih hfs hp
          exact ⟨rfullF_set hf (by simp only [RFull]; exact ⟨this.2, this.1⟩), Dict.set_ne_nil _ _ _⟩
    | some i =>
      simp only [putAt] at h
      cases ho : ladAt cur k with
      | none => rw [ho] at h; cases h
      | some is =>
        rw [ho] at h
        obtain ⟨fs', hp, rfl⟩ := Option.map_eq_some_iff.1 h
        have his : RFullI is := by
          rcases ladAt_cases ho with ⟨-, rfl⟩ | hg
          · simp [RFullI]
          · have := (rfullF_iff.1 hf).2 _ _ hg; simp only [RFull] at this; exact this.2
        have hin : RFullF ((Dict.get is i).getD []) := by
          cases hg : Dict.get is i with
          | none => simp [RFullF]
          | some g => exact ((rfullI_iff.1 his).2 _ _ hg).2
        have := ih hin hp
        exact ⟨rfullF_set hf (by simp only [RFull]; exact ⟨Dict.set_ne_nil _ _ _, rfullI_set his ⟨this.2, this.1⟩⟩), Dict.set_ne_nil _ _ _⟩

theorem rget_nil (b : Addr) : rget [] b = none := by
  cases b with
  | nil => rfl
  | cons s b => rfl

theorem rget_putAt {a : Addr} {c : Cell} : ∀ {cur cur' : RFields}, Good a → putAt a c cur = some cur' →
    ∀ b, rget cur' b = if b = a then some c else rget cur b := by
  induction a with
  | nil => intro cur cur' hg; exact hg.elim
  | cons s a ih =>
    intro cur cur' hgood h b
    obtain ⟨k, ix⟩ := s
    cases b with
    | nil => simp [rget]
    | cons t b =>
      obtain ⟨k', ix'⟩ := t
      cases ix with
      | none =>
        simp only [putAt] at h
        by_cases ha : a = []
        · simp only [ha, if_true] at h
          subst ha
          split at h
          · cases h
          · next hb =>
            injection h with h; subst h
            by_cases hk : k = k'
            · subst hk
              simp only [rget, Dict.get_set, if_true]
              by_cases hc : ix' = none ∧ b = []
              · obtain ⟨rfl, rfl⟩ := hc; simp
              · rw [if_neg hc, if_neg (by simp; grind)]
                cases hg : Dict.get cur k with
                | none => rfl
                | some t =>
                  cases t with
                  | cell c => simp only [if_neg hc]
                  | obj g => rw [hg] at hb; simp [leafBlocked] at hb
                  | lad g => rw [hg] at hb; simp [leafBlocked] at hb
            · simp only [rget, Dict.get_set, if_neg hk]
              rw [if_neg (by simp; grind)]
        · simp only [if_neg ha] at h
          cases ho : objAt cur k with
          | none => rw [ho] at h; cases h
          | some fs =>
            rw [ho] at h
            obtain ⟨fs', hp, rfl⟩ := Option.map_eq_some_iff.1 h
            have ih' := ih (hgood.resolve_left (fun x => ha x.1)) hp b
            by_cases hk : k = k'
            · subst hk
              simp only [rget, Dict.get_set, if_true]
              by_cases hix : ix' = none
              · subst hix
                simp only [if_true, ih']
                by_cases hba : b = a
                · simp [hba]
                · rw [if_neg hba, if_neg (by simpa using hba)]
                  rcases objAt_cases ho with ⟨hg, rfl⟩ | hg
                  · rw [hg, rget_nil]
                  · rw [hg]
              · rw [if_neg hix, if_neg (by simp; grind)]
                rcases objAt_cases ho with ⟨hg, rfl⟩ | hg
                · rw [hg]
                · rw [hg]; simp [hix]
            · simp only [rget, Dict.get_set, if_neg hk]
              rw [if_neg (by simp; grind)]
      | some i =>
        simp only [putAt] at h
        cases ho : ladAt cur k with
        | none => rw [ho] at h; cases h
        | some is =>
          rw [ho] at h
          obtain ⟨fs', hp, rfl⟩ := Option.map_eq_some_iff.1 h
          have ih' := ih (hgood.resolve_left (fun x => by simp at x)) hp b
          by_cases hk : k = k'
          · subst hk
            simp only [rget, Dict.get_set, if_true]
            cases ix' with
            | none =>
              simp only [List.cons.injEq, Prod.mk.injEq, reduceCtorEq, and_false, false_and, if_false]
              rcases ladAt_cases ho with ⟨hg, rfl⟩ | hg
              · rw [hg]
              · rw [hg]
            | some j =>
              by_cases hij : i = j
              · subst hij
                simp only [Dict.get_set, if_true, ih']
                by_cases hba : b = a
                · simp [hba]
                · rw [if_neg hba, if_neg (by simpa using hba)]
                  rcases ladAt_cases ho with ⟨hg, rfl⟩ | hg
                  · rw [hg]; simp [Dict.get, rget_nil]
                  · rw [hg]; cases hi : Dict.get is i <;> simp [rget_nil, hi]
              · simp only [Dict.get_set, if_neg hij]
                rw [if_neg (by simp; grind)]
                rcases ladAt_cases ho with ⟨hg, rfl⟩ | hg
                · rw [hg]; simp [Dict.get]
                · rw [hg]
          · simp only [rget, Dict.get_set, if_neg hk]
            rw [if_neg (by simp; grind)]

/-- A non-empty full tree has a cell. -/
theorem exists_cell (t : RTree) : RFull t → ∃ ix a c, ∀ (fs : RFields) k, Dict.get fs k = some t → rget fs ((k, ix) :: a) = some c := by
  induction t using RTree.ind with
  | cell c => intro _; exact ⟨none, [], c, fun fs k h => by simp [rget, h]⟩
  | obj gs ih =>
    intro h
    simp only [RFull] at h
    obtain ⟨hne, hf⟩ := h
    obtain ⟨⟨k, t⟩, r, rfl⟩ : ∃ e r, gs = e :: r := by cases gs with | nil => exact absurd rfl hne | cons e r => exact ⟨e, r, rfl⟩
    simp only [RFullF] at hf
    obtain ⟨ix, a, c, hc⟩ := ih _ List.mem_cons_self hf.2.1
    refine ⟨none, (k, ix) :: a, c, fun fs k' h => ?_⟩
    have := hc ((k, t) :: r) k (by simp [Dict.get_cons])
    rw [rget, h]
    simp only [if_true, this]
  | lad is ih =>
    intro h
    simp only [RFull] at h
    obtain ⟨hne, hf⟩ := h
    obtain ⟨⟨i, gs⟩, r, rfl⟩ : ∃ e r, is = e :: r := by cases is with | nil => exact absurd rfl hne | cons e r => exact ⟨e, r, rfl⟩
    simp only [RFullI] at hf
    obtain ⟨-, ⟨hne', hg⟩, -⟩ := hf
    obtain ⟨⟨k, t⟩, r', rfl⟩ : ∃ e r, gs = e :: r := by cases gs with | nil => exact absurd rfl hne' | cons e r => exact ⟨e, r, rfl⟩
    simp only [RFullF] at hg
    obtain ⟨ix, a, c, hc⟩ := ih _ List.mem_cons_self _ List.mem_cons_self hg.2.1
    refine ⟨some i, (k, ix) :: a, c, fun fs k' h => ?_⟩
    have := hc ((k, t) :: r') k (by simp [Dict.get_cons])
    rw [rget, h]
    simp only [Dict.get_cons, beq_self_eq_true, if_true, this]

theorem exists_rget {fs : RFields} (h : RFullF fs) (hne : fs ≠ []) : ∃ a c, rget fs a = some c := by
  obtain ⟨⟨k, t⟩, r, rfl⟩ : ∃ e r, fs = e :: r := by cases fs with | nil => exact absurd rfl hne | cons e r => exact ⟨e, r, rfl⟩
  simp only [RFullF] at h
  obtain ⟨ix, a, c, hc⟩ := exists_cell t h.2.1
  exact ⟨_, c, hc _ k (by simp [Dict.get_cons])⟩

theorem Spec.Compatible.symm : ∀ (a b : Addr), Compatible a b → Compatible b a := by
  intro a
  induction a with
  | nil => intro b h; simp [Compatible] at h
  | cons s a ih =>
    intro b h
    obtain ⟨k, ix⟩ := s
    cases b with
    | nil => cases ix <;> simp [Compatible] at h
    | cons t b =>
      obtain ⟨k', ix'⟩ := t
      cases ix <;> cases ix' <;> simp only [Compatible] at h ⊢
      · exact h.imp Ne.symm (ih b)
      · exact h.symm
      · exact h.symm
      · exact h.imp Ne.symm (Or.imp Ne.symm (ih b))

theorem compatible_irrefl (a : Addr) : ¬ Compatible a a := by
  induction a with
  | nil => simp [Compatible]
  | cons s a ih =>
    obtain ⟨k, ix⟩ := s
    cases ix <;> simp [Compatible, ih]

theorem compatible_nil_right (a : Addr) : ¬ Compatible a [] := fun h => by
  have := Spec.Compatible.symm _ _ h; simp [Compatible] at this

/-- A value can fail to be put somewhere only because of a value at an incompatible position. -/
theorem putAt_none {a : Addr} {c : Cell} : ∀ {cur : RFields}, RFullF cur → Good a → putAt a c cur = none →
    ∃ b c', rget cur b = some c' ∧ ¬ Compatible a b := by
  induction a with
  | nil => intro cur _ hg; exact hg.elim
  | cons s a ih =>
    intro cur hf hgood h
    obtain ⟨k, ix⟩ := s
    -- whatever is under the key `k` and of another kind is in the way
    have key : ∀ t, Dict.get cur k = some t → ∃ jx b c', rget cur ((k, jx) :: b) = some c' ∧
        (match t with | .cell _ => jx = none ∧ b = [] | .obj _ => jx = none | .lad _ => jx ≠ none) := by
      intro t ht
      obtain ⟨jx, b, c', hc⟩ := exists_cell t ((rfullF_iff.1 hf).2 _ _ ht)
      refine ⟨jx, b, c', hc cur k ht, ?_⟩
      have := hc cur k ht
      rw [rget, ht] at this
      cases t with
      | cell c => simp only at this ⊢; split at this; assumption; cases this
      | obj g => simp only at this ⊢; split at this; assumption; cases this
      | lad g => simp only at this ⊢; rintro rfl; cases this
    cases ix with
    | none =>
      simp only [putAt] at h
      by_cases ha : a = []
      · subst ha
        simp only [if_true] at h
        split at h
        · next hb =>
          cases hg : Dict.get cur k with
          | none => rw [hg] at hb; simp [leafBlocked] at hb
          | some t =>
            obtain ⟨jx, b, c', hc, -⟩ := key t hg
            refine ⟨_, c', hc, ?_⟩
            cases jx <;> simp [Compatible]
        · cases h
      · simp only [if_neg ha] at h
        cases ho : objAt cur k with
        | none =>
          cases hg : Dict.get cur k with
          | none => simp [objAt, hg] at ho
          | some t =>
            obtain ⟨jx, b, c', hc, hk⟩ := key t hg
            refine ⟨_, c', hc, ?_⟩
            cases t with
            | cell c => simp only at hk; obtain ⟨rfl, rfl⟩ := hk; simp [Compatible, compatible_nil_right]
            | obj g => simp [objAt, hg] at ho
            | lad g => simp only at hk; cases jx <;> simp_all [Compatible]
        | some fs =>
          rw [ho] at h
          simp only [Option.map_eq_none_iff] at h
          have hg' := hgood.resolve_left (fun x => ha x.1)
          rcases objAt_cases ho with ⟨hg, rfl⟩ | hg
          · exact absurd h (putAt_nil hg' c)
          · have := (rfullF_iff.1 hf).2 _ _ hg
            simp only [RFull] at this
            obtain ⟨b, c', hc, hcompat⟩ := ih this.2 hg' h
            exact ⟨(k, none) :: b, c', by simp [rget, hg, hc], by simp [Compatible, hcompat]⟩
    | some i =>
      have hg' := hgood.resolve_left (fun x => by simp at x)
      simp only [putAt] at h
      cases ho : ladAt cur k with
      | none =>
        cases hg : Dict.get cur k with
        | none => simp [ladAt, hg] at ho
        | some t =>
          obtain ⟨jx, b, c', hc, hk⟩ := key t hg
          refine ⟨_, c', hc, ?_⟩
          cases t with
          | cell c => simp only at hk; obtain ⟨rfl, rfl⟩ := hk; simp [Compatible]
          | obj g => simp only at hk; subst hk; simp [Compatible]
          | lad g => simp [ladAt, hg] at ho
      | some is =>
        rw [ho] at h
        simp only [Option.map_eq_none_iff] at h
        rcases ladAt_cases ho with ⟨hg, rfl⟩ | hg
        · exact absurd h (by simpa [Dict.get] using putAt_nil hg' c)
        · have := (rfullF_iff.1 hf).2 _ _ hg
          simp only [RFull] at this
          cases hi : Dict.get is i with
          | none => rw [hi] at h; exact absurd h (putAt_nil hg' c)
          | some g =>
            rw [hi] at h
            obtain ⟨b, c', hc, hcompat⟩ := ih ((rfullI_iff.1 this.2).2 _ _ hi).2 hg' h
            exact ⟨(k, some i) :: b, c', by simp [rget, hg, hi, hc], by simp [Compatible, hcompat]⟩

end Verif
