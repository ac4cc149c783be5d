import Verif.Proofs.Built
import Verif.Spec.Forgiving
import Verif.Props.Convert
import Verif.Proofs.DecEq
/-! C12: without a schema, unflatten does not raise. -/
namespace Verif
open Spec

mutual
/-- A dict's id field is a cell with a scalar. -/
def RId (n : Option Str) : RTree → Prop
  | .cell _ => True
  | .obj fs => RIdF n fs
  | .lad is => RIdI n is
def RIdF (n : Option Str) : List (Str × RTree) → Prop
  | [] => True
  | (k, t) :: r => ((n = some k → ∃ c a, t = .cell c ∧ c.value = .atom a) ∧ RId n t) ∧ RIdF n r
def RIdI (n : Option Str) : List (Int × List (Str × RTree)) → Prop
  | [] => True
  | (_, fs) :: r => RIdF n fs ∧ RIdI n r
end

theorem ridF_iff {n : Option Str} {fs : RFields} : RIdF n fs ↔ ∀ e ∈ fs, (n = some e.1 → ∃ c a, e.2 = .cell c ∧ c.value = .atom a) ∧ RId n e.2 := by
  induction fs with
  | nil => simp [RIdF]
  | cons e r ih => obtain ⟨k, t⟩ := e; simp only [RIdF, ih, List.mem_cons, forall_eq_or_imp]

theorem ridI_iff {n : Option Str} {is : List (Int × RFields)} : RIdI n is ↔ ∀ e ∈ is, RIdF n e.2 := by
  induction is with
  | nil => simp [RIdI]
  | cons e r ih => obtain ⟨k, t⟩ := e; simp only [RIdI, ih, List.mem_cons, forall_eq_or_imp]

theorem ridF_set {n : Option Str} {fs : RFields} (h : RIdF n fs) {k : Str} {t : RTree} (hk : n = some k → ∃ c a, t = .cell c ∧ c.value = .atom a) (ht : RId n t) :
    RIdF n (Dict.set fs k t) := by
  rw [ridF_iff] at h ⊢
  rintro ⟨k', t'⟩ he
  rcases Dict.mem_set he with ⟨rfl, rfl⟩ | h'
  · exact ⟨hk, ht⟩
  · exact h _ h'

theorem ridI_set {n : Option Str} {is : List (Int × RFields)} (h : RIdI n is) {i : Int} {fs : RFields} (ht : RIdF n fs) :
    RIdI n (Dict.set is i fs) := by
  rw [ridI_iff] at h ⊢
  rintro ⟨k', t'⟩ he
  rcases Dict.mem_set he with ⟨rfl, rfl⟩ | h'
  · exact ht
  · exact h _ h'

/-- Not an infinite or NaN float. -/
def plainNumber (a : Atom) : Bool :=
  match a with
  | .float f => (match f.exact with | .fin _ _ _ => true | _ => false)
  | _ => true

theorem convert_plain (env : ConvEnv) (a : Atom) (h : plainNumber a = true) :
    ∃ b w, convertType env .untyped a = .ok (.atom b, w) ∧ plainNumber b = true := by
  unfold convertType
  split
  · exact ⟨_, _, rfl, rfl⟩
  · cases a with
    | float f =>
      simp only [plainNumber] at h
      simp only
      split
      · split <;> exact ⟨_, _, rfl, rfl⟩
      · next he => rw [he] at h; cases h
      · next he => rw [he] at h; cases h
    | none => exact ⟨_, _, rfl, rfl⟩
    | str s => exact ⟨_, _, rfl, rfl⟩
    | int i => exact ⟨_, _, rfl, rfl⟩
    | bool b => exact ⟨_, _, rfl, rfl⟩
    | dec d => exact ⟨_, _, rfl, rfl⟩
    | datetime d => exact ⟨_, _, rfl, rfl⟩
    | other t => exact ⟨_, _, rfl, rfl⟩

/-- The id name is not followed by anything. -/
def IdLast (n : Option Str) : List Str → Prop
  | [] => True
  | item :: rest => (n = some item → rest = []) ∧ IdLast n rest

theorem mapW_ok' {f : RFields → RFields} {w w0 : List Warn} {r : Except Err (RFields × List Warn)} {c : RFields}
    (h : r = .ok (c, w0)) : mapW f w r = .ok (f c, w ++ w0) := by rw [h]; rfl

theorem place_total {cfg : RowCfg} (hx : cfg.xml = false) {n : Option Str} {path : Str} (items : List Str) :
    ∀ (pre : List Str) (cell : Cell) (cur : RFields),
    (∀ before item after, items = before ++ item :: after → isint item = false → cfg.types (Py.join s%"/" (keysOf (pre ++ before ++ [item]))) = none) → IdLast n items → (∃ a, cell.value = .atom a ∧ plainNumber a = true) → RIdF n cur →
    ∃ cur' w, place cfg path pre items cell cur = .ok (cur', w) ∧ RIdF n cur' := by
  induction items with
  | nil => intro pre cell cur _ _ _ h; exact ⟨cur, [], rfl, h⟩
  | cons item rest ih =>
    intro pre cell cur ht hid hcell hcur
    obtain ⟨hid1, hid2⟩ := hid
    have ht' : ∀ before it after, rest = before ++ it :: after → isint it = false → cfg.types (Py.join s%"/" (keysOf ((pre ++ [item]) ++ before ++ [it]))) = none := by
      intro b it a e hi
      have := ht (item :: b) it a (by rw [e]; rfl) hi
      simpa using this
    rw [place]
    by_cases hint : isint item = true
    · rw [if_pos hint]
      obtain ⟨cur', w, h, hc⟩ := ih (pre ++ [item]) cell cur ht' hid2 hcell hcur
      exact ⟨_, _, mapW_ok' h, hc⟩
    · rw [if_neg hint]
      have hct : ∀ next, currentType cfg path (pathTillNow (pre ++ [item])) cell next = none := by
        have h0 := ht [] item rest rfl (by simpa using hint)
        simp only [List.append_nil] at h0
        intro next; unfold currentType; rw [pathTillNow_keys]; split <;> simp [hx, h0]
      simp only [hct, beq_self_eq_true, Bool.true_or, Bool.not_true, Bool.and_false, Bool.false_eq_true, if_false, hx, Bool.not_false, if_true,
        ne_eq, not_true, false_and, reduceCtorEq, false_or, true_and]
      cases hai : arrayIndex (rest.headD []) none with
      | some idx =>
        simp only
        have hrest : rest ≠ [] := by
          intro e; rw [e] at hai
          have h0 : arrayIndex (([] : List Str).headD []) none = none := by decide
          rw [h0] at hai; cases hai
        cases hl : ladAt cur item with
        | none => exact ⟨cur, _, rfl, hcur⟩
        | some is =>
          simp only
          have his : RIdI n is := by
            rcases ladAt_cases hl with ⟨-, rfl⟩ | hg
            · simp [RIdI]
            · have := (ridF_iff.1 hcur _ (Dict.get_eq_some_mem hg)).2; simpa only [RId] using this
          have hin : RIdF n ((Dict.get is idx).getD []) := by
            cases hg : Dict.get is idx with
            | none => simp [RIdF]
            | some g => exact ridI_iff.1 his _ (Dict.get_eq_some_mem hg)
          obtain ⟨cur', w, h, hc⟩ := ih (pre ++ [item]) cell _ ht' hid2 hcell hin
          refine ⟨_, _, mapW_ok' h, ?_⟩
          refine ridF_set hcur (fun e => absurd (hid1 e) hrest) ?_
          simp only [RId]; exact ridI_set his hc
      | none =>
        simp only
        by_cases hne : rest.headD [] = []
        · simp only [hne, not_true, if_false]
          unfold placeLeaf
          by_cases hb : leafBlocked cfg.xml (Dict.get cur item) = true
          · simp only [hb, if_true]
            by_cases hr : rest = []
            · subst hr
              exact ⟨cur, _, mapW_ok' rfl, hcur⟩
            · obtain ⟨cur', w, h, hc⟩ := ih (pre ++ [item]) cell cur ht' hid2 hcell hcur
              exact ⟨_, _, mapW_ok' h, hc⟩
          · obtain ⟨a, ha, hp⟩ := hcell
            obtain ⟨b, w1, hcv, hb2⟩ := convert_plain cfg.conv a hp
            have hcc : convertCell cfg none cell.value = .ok (.atom b, w1) := by rw [ha]; simp [convertCell, hcv]
            simp only [hb, Bool.false_eq_true, if_false, hcc]
            by_cases hbl : (Val.atom b).blank = true
            · simp only [hbl, if_true]
              obtain ⟨cur', w, h, hc⟩ := ih (pre ++ [item]) { cell with value := .atom b } cur ht' hid2 ⟨b, rfl, hb2⟩ hcur
              exact ⟨_, _, mapW_ok' h, hc⟩
            · simp only [hbl, Bool.false_eq_true, if_false, putCell, hx]
              obtain ⟨cur', w, h, hc⟩ := ih (pre ++ [item]) { cell with value := .atom b } (Dict.set cur item (.cell { cell with value := .atom b }))
                ht' hid2 ⟨b, rfl, hb2⟩ (ridF_set hcur (fun _ => ⟨_, b, rfl, rfl⟩) trivial)
              exact ⟨_, _, mapW_ok' h, hc⟩
        · simp only [hne, not_false_iff, if_true]
          have hrest : rest ≠ [] := by intro e; rw [e] at hne; exact hne rfl
          cases hl : objAt cur item with
          | none => exact ⟨cur, _, rfl, hcur⟩
          | some fs =>
            simp only
            have hfs : RIdF n fs := by
              rcases objAt_cases hl with ⟨-, rfl⟩ | hg
              · simp [RIdF]
              · have := (ridF_iff.1 hcur _ (Dict.get_eq_some_mem hg)).2; simpa only [RId] using this
            obtain ⟨cur', w, h, hc⟩ := ih (pre ++ [item]) cell _ ht' hid2 hcell hfs
            refine ⟨_, _, mapW_ok' h, ?_⟩
            refine ridF_set hcur (fun e => absurd (hid1 e) hrest) ?_
            simp only [RId]; exact hc

/-- A heading that names a position, with a value that can be converted. -/
theorem place_fits {cfg : RowCfg} (hx : cfg.xml = false) {n : Option Str} {path : Str} (a : Addr) : ∀ {pre comps : List Str} {cell : Cell} {cur : RFields},
    address cfg.types (keysOf pre) comps = some a → (∀ A k ix B, a = A ++ (k, ix) :: B → n = some k → B = []) →
    (∃ v w, convertCell cfg (cfg.types (Py.join s%"/" (keysOf pre ++ a.keys))) cell.value = .ok (v, w) ∧
      (∀ A k ix, a = A ++ [(k, ix)] → n = some k → ∃ b, v = .atom b)) → RIdF n cur →
    ∃ cur' w, place cfg path pre comps cell cur = .ok (cur', w) ∧ RIdF n cur' := by
  induction a with
  | nil => intro pre comps cell cur ha; exact (good_of_address _ _ _ ha).elim
  | cons s a ih =>
    intro pre comps cell cur ha hid hv hcur
    obtain ⟨key, rest, rfl, hkey, hcase⟩ := address_some ha
    have hct : ∀ till next, currentType cfg path till cell next = cfg.types till := by
      intro till next; unfold currentType; split <;> simp [hx]
    have hkp : keysOf (pre ++ [key]) = keysOf pre ++ [key] := by rw [keysOf_append, keysOf_single (by simp [hkey])]
    have hid' : ∀ A k ix B, a = A ++ (k, ix) :: B → n = some k → B = [] := fun A k ix B e hn => hid (s :: A) k ix B (by rw [e]; rfl) hn
    have hv' : ∀ q, q = keysOf pre ++ Addr.keys (s :: a) → a ≠ [] → ∃ v w, convertCell cfg (cfg.types (Py.join s%"/" q)) cell.value = .ok (v, w) ∧
        (∀ A k ix, a = A ++ [(k, ix)] → n = some k → ∃ b, v = .atom b) := by
      rintro q rfl -
      obtain ⟨v, w, h1, h2⟩ := hv
      exact ⟨v, w, h1, fun A k ix e hn => h2 (s :: A) k ix (by rw [e]; rfl) hn⟩
    rw [place]
    simp only [hkey, Bool.false_eq_true, if_false, hct, pathTillNow_keys, hkp, hx, Bool.not_false, Bool.true_or, if_true]
    rcases hcase with ⟨rfl, hna, hno, hs⟩ | ⟨next, rest', i, a', rfl, hi, hty, ha', hs⟩ | ⟨a', hi, hne, hty, ha', hs⟩ | ⟨a', hi, hne, hty, ha', hs⟩
    · injection hs with hs1 hs2
      subst hs1 hs2
      have hint : Py.int? ([] : Str) = none := by decide
      simp only [List.headD_nil, hint, Option.isSome_none, Bool.false_and, Bool.false_eq_true, if_false, arrayIndex, hna, hno, ne_eq,
        not_true, and_false, or_false, if_false]
      obtain ⟨v, w, h1, h2⟩ := hv
      have hk1 : keysOf pre ++ Addr.keys [(key, none)] = keysOf pre ++ [key] := rfl
      rw [hk1] at h1
      unfold placeLeaf
      by_cases hb : leafBlocked cfg.xml (Dict.get cur key) = true
      · simp only [hb, if_true]
        exact ⟨cur, _, mapW_ok' rfl, hcur⟩
      · simp only [hb, Bool.false_eq_true, if_false, h1]
        by_cases hbl : v.blank = true
        · simp only [hbl, if_true]
          exact ⟨cur, _, mapW_ok' rfl, hcur⟩
        · simp only [hbl, Bool.false_eq_true, if_false, putCell, hx]
          refine ⟨_, _, mapW_ok' rfl, ridF_set hcur (fun hn => ?_) trivial⟩
          obtain ⟨b, hb⟩ := h2 [] key none rfl hn
          exact ⟨_, b, rfl, hb⟩
    · injection hs with hs1 hs2
      subst hs1 hs2
      have hane : a ≠ [] := by rintro rfl; exact good_of_address _ _ _ ha'
      have hty' : ((Py.int? ((next :: rest').headD [])).isSome && !(cfg.types (Py.join s%"/" (keysOf pre ++ [key])) == none || cfg.types (Py.join s%"/" (keysOf pre ++ [key])) == some .array)) = false := by
        rcases hty with e | e <;> simp [e]
      rw [hty']
      have hai : arrayIndex ((next :: rest').headD []) (cfg.types (Py.join s%"/" (keysOf pre ++ [key]))) = some i := by simp [arrayIndex, hi]
      rw [hai]
      simp only [Bool.false_eq_true, if_false]
      cases hl : ladAt cur key with
      | none => exact ⟨cur, _, rfl, hcur⟩
      | some is =>
        simp only
        have his : RIdI n is := by
          rcases ladAt_cases hl with ⟨-, rfl⟩ | hg
          · simp [RIdI]
          · have := (ridF_iff.1 hcur _ (Dict.get_eq_some_mem hg)).2; simpa only [RId] using this
        have hin : RIdF n ((Dict.get is i).getD []) := by
          cases hg : Dict.get is i with
          | none => simp [RIdF]
          | some g => exact ridI_iff.1 his _ (Dict.get_eq_some_mem hg)
        have hnint : isint next = true := by simp [isint, hi]
        have hk3 : keysOf (pre ++ [key] ++ [next]) = keysOf pre ++ [key] := by rw [keysOf_append, hkp, keysOf_single_int hnint]; simp
        obtain ⟨cur', w, h, hc⟩ := ih (pre := pre ++ [key] ++ [next]) (comps := rest') (cell := cell) (by rw [hk3]; exact ha') hid'
          (hv' _ (by rw [hk3]; simp [Addr.keys]) hane) hin
        rw [place]
        simp only [hnint, if_true]
        refine ⟨_, _, mapW_ok' (mapW_ok' h), ridF_set hcur (fun e => absurd (hid [] key _ a rfl e) hane) ?_⟩
        simp only [RId, id]; exact ridI_set his hc
    · injection hs with hs1 hs2
      subst hs1 hs2
      have hane : a ≠ [] := by rintro rfl; exact good_of_address _ _ _ ha'
      have hai : arrayIndex (rest.headD []) (cfg.types (Py.join s%"/" (keysOf pre ++ [key]))) = some (-1) := by simp only [arrayIndex, hi, hty]; rfl
      rw [hai]
      simp only [hi, Option.isSome_none, Bool.false_and, Bool.false_eq_true, if_false]
      cases hl : ladAt cur key with
      | none => exact ⟨cur, _, rfl, hcur⟩
      | some is =>
        simp only
        have his : RIdI n is := by
          rcases ladAt_cases hl with ⟨-, rfl⟩ | hg
          · simp [RIdI]
          · have := (ridF_iff.1 hcur _ (Dict.get_eq_some_mem hg)).2; simpa only [RId] using this
        have hin : RIdF n ((Dict.get is (-1)).getD []) := by
          cases hg : Dict.get is (-1) with
          | none => simp [RIdF]
          | some g => exact ridI_iff.1 his _ (Dict.get_eq_some_mem hg)
        obtain ⟨cur', w, h, hc⟩ := ih (pre := pre ++ [key]) (comps := rest) (cell := cell) (by rw [hkp]; exact ha') hid'
          (hv' _ (by rw [hkp]; simp [Addr.keys]) hane) hin
        refine ⟨_, _, mapW_ok' h, ridF_set hcur (fun e => absurd (hid [] key _ a rfl e) hane) ?_⟩
        simp only [RId]; exact ridI_set his hc
    · injection hs with hs1 hs2
      subst hs1 hs2
      have hane : a ≠ [] := by rintro rfl; exact good_of_address _ _ _ ha'
      have hai : arrayIndex (rest.headD []) (cfg.types (Py.join s%"/" (keysOf pre ++ [key]))) = none := by
        rcases hty with e | e <;> (unfold arrayIndex; rw [hi, e]; rfl)
      have hobj : cfg.types (Py.join s%"/" (keysOf pre ++ [key])) = some .object ∨ cfg.types (Py.join s%"/" (keysOf pre ++ [key])) = none ∧ rest.headD [] ≠ [] := by
        exact hty.elim (fun e => .inr ⟨e, hne⟩) .inl
      rw [hai]
      simp only [hi, Option.isSome_none, Bool.false_and, Bool.false_eq_true, if_false]
      rw [if_pos hobj]
      cases hl : objAt cur key with
      | none => exact ⟨cur, _, rfl, hcur⟩
      | some fs =>
        simp only
        have hfs : RIdF n fs := by
          rcases objAt_cases hl with ⟨-, rfl⟩ | hg
          · simp [RIdF]
          · have := (ridF_iff.1 hcur _ (Dict.get_eq_some_mem hg)).2; simpa only [RId] using this
        obtain ⟨cur', w, h, hc⟩ := ih (pre := pre ++ [key]) (comps := rest) (cell := cell) (by rw [hkp]; exact ha') hid'
          (hv' _ (by rw [hkp]; simp [Addr.keys]) hane) hfs
        refine ⟨_, _, mapW_ok' h, ridF_set hcur (fun e => absurd (hid [] key _ a rfl e) hane) ?_⟩
        simp only [RId]; exact hc

/-- The cell can be placed wherever the row stands. -/
def Placeable (cfg : RowCfg) (n : Option Str) (path : Str) (cell : Cell) : Prop :=
  ∀ cur, RIdF n cur → ∃ cur' w, place cfg path [] (pathList path) cell cur = .ok (cur', w) ∧ RIdF n cur'

theorem placeAll_total {cfg : RowCfg} {n : Option Str} (cells : List (Str × Cell)) :
    ∀ (cur : RFields), (∀ c ∈ cells, c.2.value.blank = false → Placeable cfg n c.1 c.2) → RIdF n cur →
    ∃ cur' w, placeAll cfg cells cur = .ok (cur', w) ∧ RIdF n cur' := by
  induction cells with
  | nil => intro cur _ h; exact ⟨cur, [], rfl, h⟩
  | cons e r ih =>
    intro cur hc hcur
    obtain ⟨path, cell⟩ := e
    rw [placeAll]
    cases hb : cell.value.blank with
    | true => simp only [if_true]; exact ih cur (fun c h => hc c (by simp [h])) hcur
    | false =>
      simp only [Bool.false_eq_true, if_false]
      obtain ⟨cur1, w1, e1, hc1⟩ := hc (path, cell) (by simp) hb cur hcur
      obtain ⟨cur2, w2, e2, hc2⟩ := ih cur1 (fun c h => hc c (by simp [h])) hc1
      simp only at e1
      rw [e1]; simp only
      rw [e2]
      exact ⟨_, _, rfl, hc2⟩

/-- A converted dict has a scalar id or none. -/
def IdOk (n : Option Str) (fs : Fields) : Prop := ∃ k, itemKey n false fs = .ok k ∧ ∀ v, k = some v → v.hashable = true

theorem appendAll_total {n : Option Str} (items : List Fields) : ∀ (td : TDict), (∀ x ∈ items, IdOk n x) → ∃ td', appendAll n false items td = .ok td' := by
  induction items with
  | nil => intro td _; exact ⟨td, rfl⟩
  | cons x r ih =>
    intro td h
    rw [appendAll]
    obtain ⟨k, hk, hh⟩ := h x (by simp)
    have : ∃ td1, td.append n false x = .ok td1 := by
      unfold TDict.append
      rw [hk]
      cases k with
      | none => exact ⟨_, rfl⟩
      | some v =>
        simp only [hh v rfl, Bool.not_true, Bool.false_eq_true, if_false]
        split <;> exact ⟨_, rfl⟩
    obtain ⟨td1, e⟩ := this
    rw [e]
    exact ih td1 (fun y hy => h y (by simp [hy]))

theorem idOk_of {n : Option Str} {rf : RFields} {fs : Fields} (h : RIdF n rf)
    (hsub : ∀ e ∈ fs, ∃ e' ∈ rf, e'.1 = e.1 ∧ ∀ c, e'.2 = .cell c → e.2 = .cell c) : IdOk n fs := by
  unfold IdOk itemKey
  cases n with
  | none => exact ⟨none, rfl, by simp⟩
  | some m =>
    simp only
    cases hg : Dict.get fs m with
    | none => exact ⟨none, rfl, by simp⟩
    | some t =>
      obtain ⟨e', he', hk, hc⟩ := hsub _ (Dict.get_eq_some_mem hg)
      obtain ⟨h1, h2⟩ := ridF_iff.1 h e' he'
      obtain ⟨c, a, hcell, ha⟩ := h1 (by simp only at hk; rw [hk])
      have := hc c hcell
      simp only at this
      subst this
      exact ⟨some c.value, rfl, by intro v hv; injection hv with hv; rw [← hv, ha]; rfl⟩

mutual
theorem toTemp_total (n : Option Str) : ∀ (rf : RFields), RIdF n rf →
    ∃ fs, toTemp n false rf = .ok fs ∧ ∀ e ∈ fs, ∃ e' ∈ rf, e'.1 = e.1 ∧ ∀ c, e'.2 = .cell c → e.2 = .cell c
  | [], _ => ⟨[], by simp [toTemp], by simp⟩
  | (k, .cell c) :: r, h => by
    obtain ⟨fs, e, hs⟩ := toTemp_total n r (by simp only [RIdF] at h; exact h.2)
    refine ⟨_, by rw [toTemp, e], ?_⟩
    intro x hx
    rcases List.mem_cons.1 hx with rfl | hx
    · exact ⟨(k, .cell c), by simp, rfl, fun c h => by simp at h; simp [h]⟩
    · obtain ⟨e', he', hh⟩ := hs x hx; exact ⟨e', by simp [he'], hh⟩
  | (k, .obj g) :: r, h => by
    obtain ⟨fs, e, hs⟩ := toTemp_total n r (by simp only [RIdF] at h; exact h.2)
    have hs' : ∀ x ∈ fs, ∃ e' ∈ (k, RTree.obj g) :: r, e'.1 = x.1 ∧ ∀ c, e'.2 = .cell c → x.2 = .cell c := by
      intro x hx
      obtain ⟨e', he', hh⟩ := hs x hx; exact ⟨e', by simp [he'], hh⟩
    rw [toTemp]
    by_cases hg : g.isEmpty = true
    · rw [if_pos hg]; exact ⟨fs, e, hs'⟩
    · rw [if_neg hg]
      obtain ⟨gs, e2, -⟩ := toTemp_total n g (by simp only [RIdF, RId] at h; exact h.1.2)
      rw [e2]; simp only
      rw [e]
      refine ⟨_, rfl, ?_⟩
      intro x hx
      rcases List.mem_cons.1 hx with rfl | hx
      · exact ⟨(k, .obj g), by simp, rfl, fun c h => by cases h⟩
      · exact hs' x hx
  | (k, .lad is) :: r, h => by
    obtain ⟨fs, e, hs⟩ := toTemp_total n r (by simp only [RIdF] at h; exact h.2)
    obtain ⟨is', e2, hi⟩ := toTempItems_total n is (by simp only [RIdF, RId] at h; exact h.1.2)
    rw [toTemp, e2]
    obtain ⟨td, e3⟩ := appendAll_total (n := n) ((sortIdx is').map (·.2)) {} (by
      intro x hx
      obtain ⟨y, hy, rfl⟩ := List.mem_map.1 hx
      exact hi y (mem_sortIdx.1 hy))
    simp only
    rw [e3]; simp only
    rw [e]
    refine ⟨_, rfl, ?_⟩
    intro x hx
    rcases List.mem_cons.1 hx with rfl | hx
    · exact ⟨(k, .lad is), by simp, rfl, fun c h => by cases h⟩
    · obtain ⟨e', he', hh⟩ := hs x hx; exact ⟨e', by simp [he'], hh⟩
theorem toTempItems_total (n : Option Str) : ∀ (is : List (Int × List (Str × RTree))), RIdI n is →
    ∃ is', toTempItems n false is = .ok is' ∧ ∀ x ∈ is', IdOk n x.2
  | [], _ => ⟨[], by simp [toTempItems], by simp⟩
  | (i, g) :: r, h => by
    obtain ⟨is', e, hs⟩ := toTempItems_total n r (by simp only [RIdI] at h; exact h.2)
    rw [toTempItems]
    by_cases hg : g.isEmpty = true
    · rw [if_pos hg]; exact ⟨is', e, hs⟩
    · rw [if_neg hg]
      have hgi : RIdF n g := by simp only [RIdI] at h; exact h.1
      obtain ⟨gs, e2, hsub⟩ := toTemp_total n g hgi
      rw [e2]; simp only
      rw [e]
      refine ⟨_, rfl, ?_⟩
      intro x hx
      rcases List.mem_cons.1 hx with rfl | hx
      · exact idOk_of hgi hsub
      · exact hs x hx
end

theorem addToGroup_total {cfg : UnCfg} (hx : cfg.row.xml = false) {fs : Fields} (h : IdOk cfg.idName fs) (sheet : Str) (td : TDict) :
    ∃ r, addToGroup cfg sheet fs td = .ok r := by
  obtain ⟨k, hk, hh⟩ := h
  have hrk : rowKey cfg.idName cfg.row.xml fs = .ok k := by
    rw [hx]
    exact rowKey_itemKey hk
  have happ : ∃ td', td.append cfg.idName cfg.row.xml fs = .ok td' := by
    have := appendAll_total (n := cfg.idName) [fs] td (by simp; exact ⟨k, hk, hh⟩)
    simp only [appendAll] at this
    rw [hx]
    cases hap : td.append cfg.idName false fs with
    | error e => rw [hap] at this; obtain ⟨_, h⟩ := this; cases h
    | ok td' => exact ⟨td', rfl⟩
  obtain ⟨td', happ⟩ := happ
  unfold addToGroup
  rw [hrk]
  cases k with
  | none => simp only [happ]; exact ⟨_, rfl⟩
  | some v =>
    simp only [hh v rfl, Bool.not_true, Bool.false_eq_true, if_false]
    split
    · exact ⟨_, rfl⟩
    · simp only [happ]; exact ⟨_, rfl⟩

theorem lineCells_mem (sheet : Str) (hs : Option (List (Option Str))) (j : Nat) (l : Line) : ∀ (k : Nat), ∀ c ∈ lineCells sheet hs j k l,
    ∃ e ∈ l, c.1 = e.1.getD s%"None" ∧ c.2.value = .atom e.2 := by
  induction l with
  | nil => intro k c hc; simp [lineCells] at hc
  | cons e r ih =>
    intro k c hc
    obtain ⟨h, v⟩ := e
    simp only [lineCells] at hc
    rcases List.mem_cons.1 hc with rfl | hc
    · exact ⟨(h, v), by simp, rfl, rfl⟩
    · obtain ⟨e, he, hh⟩ := ih _ c hc; exact ⟨e, by simp [he], hh⟩

theorem idLast_of {n : Option Str} (items : List Str) (h : ∀ m before after, n = some m → items = before ++ m :: after → after = []) : IdLast n items := by
  induction items with
  | nil => trivial
  | cons x r ih =>
    refine ⟨fun e => h x [] r e rfl, ih ?_⟩
    intro m b a hm hr
    exact h m (x :: b) a hm (by rw [hr]; rfl)

/-- The cells of the line that are not blank can be placed. -/
def LineFits (cfg : UnCfg) (l : Line) : Prop :=
  ∀ e ∈ l, e.2.blank = false → ∀ cell : Cell, cell.value = .atom e.2 → Placeable cfg.row cfg.idName (e.1.getD s%"None") cell

theorem addLine_total {cfg : UnCfg} (hx : cfg.row.xml = false) (sheet : Str) (hs : Option (List (Option Str))) (j : Nat)
    {l : Line} (h : LineFits cfg l) (gs : Groups) : ∃ r, addLine cfg sheet hs j l gs = .ok r := by
  unfold addLine
  split
  · exact ⟨_, rfl⟩
  · obtain ⟨rf, w, e, hrf⟩ := placeAll_total (cfg := cfg.row) (n := cfg.idName) (lineCells sheet hs j 0 l) [] (by
      intro c hc hb
      obtain ⟨e, he, h1, h2⟩ := lineCells_mem _ _ _ _ _ c hc
      rw [h2] at hb
      rw [h1]
      exact h e he hb c.2 h2) (by simp [RIdF])
    obtain ⟨fs, e2, hsub⟩ := toTemp_total cfg.idName rf hrf
    have hu : unflattenRow cfg.row cfg.idName (lineCells sheet hs j 0 l) = .ok (fs, w) := by
      unfold unflattenRow; rw [e]; simp only [hx, e2]
    rw [hu]
    simp only
    obtain ⟨r, hr⟩ := addToGroup_total hx (idOk_of hrf hsub) sheet ((keyGet gs (rootKey cfg l)).getD {})
    unfold addRow
    rw [hr]
    exact ⟨_, rfl⟩

theorem addLines_total {cfg : UnCfg} (hx : cfg.row.xml = false) (sheet : Str) (hs : Option (List (Option Str)))
    (ls : List Line) : ∀ (j : Nat) (gs : Groups), (∀ l ∈ ls, LineFits cfg l) → ∃ r, addLines cfg sheet hs j ls gs = .ok r := by
  induction ls with
  | nil => intro j gs _; exact ⟨_, rfl⟩
  | cons l r ih =>
    intro j gs h
    rw [addLines]
    obtain ⟨⟨gs1, w1⟩, e⟩ := addLine_total hx sheet hs j (h l (by simp)) gs
    rw [e]; simp only
    obtain ⟨⟨gs2, w2⟩, e2⟩ := ih (j + 1) gs1 (fun l hl => h l (by simp [hl]))
    rw [e2]
    exact ⟨_, rfl⟩

theorem addSheets_total {cfg : UnCfg} (hx : cfg.row.xml = false) (ss : List SheetIn) : ∀ (gs : Groups),
    (∀ s ∈ ss, ∀ l ∈ s.lines, LineFits cfg l) → ∃ r, addSheets cfg ss gs = .ok r := by
  induction ss with
  | nil => intro gs _; exact ⟨_, rfl⟩
  | cons s r ih =>
    intro gs h
    rw [addSheets]
    split
    · exact ih gs (fun s hs => h s (by simp [hs]))
    · obtain ⟨⟨gs1, w1⟩, e⟩ := addLines_total hx s.name s.headings s.lines 0 gs (h s (by simp))
      rw [e]; simp only
      obtain ⟨⟨gs2, w2⟩, e2⟩ := ih gs1 (fun s hs => h s (by simp [hs]))
      rw [e2]
      exact ⟨_, rfl⟩

theorem unflatten_total {cfg : UnCfg} (hx : cfg.row.xml = false) (sheets : List SheetIn) (h : ∀ s ∈ sheets, ∀ l ∈ s.lines, LineFits cfg l) :
    ∃ out w, unflatten cfg sheets = .ok (out, w) := by
  obtain ⟨⟨gs, w⟩, e⟩ := addSheets_total hx sheets [] h
  exact ⟨listToValue (groupsToList gs), w, by unfold unflatten doUnflatten; rw [e]⟩

theorem named_keys (l : List Str) : named l = keysOf l := by
  unfold named keysOf
  congr 1
  funext p
  simp only [isint]
  cases Py.int? p <;> rfl

/-- Where the schema is silent. -/
theorem placeable_untyped {cfg : UnCfg} (hx : cfg.row.xml = false) {heading : Option Str} {a : Atom} {cell : Cell} (hc : cell.value = .atom a)
    (h : Undeclared cfg heading a) : Placeable cfg.row cfg.idName (heading.getD s%"None") cell := by
  intro cur hcur
  refine place_total hx _ [] cell cur ?_ (idLast_of _ h.ids) ⟨a, hc, ?_⟩ hcur
  · intro b it af e hi
    simp only [List.nil_append]
    rw [← named_keys]
    exact h.types (b ++ [it]) af (by simp [e]) (by simp)
  · unfold plainNumber
    split
    · next f =>
      obtain ⟨neg, c, x, he⟩ := h.number f rfl
      rw [he]
    · rfl

/-- Where the schema speaks. -/
theorem placeable_typed {cfg : UnCfg} (hx : cfg.row.xml = false) {heading : Option Str} {a : Atom} {cell : Cell} (hc : cell.value = .atom a)
    (h : FitsSchema cfg heading a) : Placeable cfg.row cfg.idName (heading.getD s%"None") cell := by
  intro cur hcur
  obtain ⟨p, v, w, h1, h2, h3, h4⟩ := h
  refine place_fits hx p (pre := []) h1 (fun A k ix B e hn => h3 k hn A ix B e) ⟨v, w, ?_, fun A k ix e hn => h4 k hn A ix e⟩ hcur
  rw [hc]
  simp only [Column.value, Column.addr] at h2
  rw [h1] at h2
  simp only [Option.getD_some] at h2
  simp only [convertCell, hx, Bool.false_and, Bool.false_eq_true, if_false]
  exact h2

/-- A position does not end in what the schema declares as an object. -/
theorem address_leaf_type {types : Str → Option CType} (p : Addr) : ∀ {above comps : List Str}, address types above comps = some p →
    types (Py.join s%"/" (above ++ p.keys)) ≠ some .object := by
  induction p with
  | nil => intro above comps h; exact (good_of_address _ _ _ h).elim
  | cons s a ih =>
    intro above comps h
    obtain ⟨key, rest, rfl, -, hcase⟩ := address_some h
    rcases hcase with ⟨rfl, hna, hno, hs⟩ | ⟨next, rest', i, a', rfl, hi, hty, ha', hs⟩ | ⟨a', hi, hne, hty, ha', hs⟩ | ⟨a', hi, hne, hty, ha', hs⟩
    all_goals
      injection hs with hs1 hs2
      subst hs1 hs2
    · exact hno
    all_goals
      have := ih ha'
      simpa [Addr.keys] using this

/-- Columns of scalars hold scalars. -/
theorem convert_scalar {env : ConvEnv} {ty : CType} {s : Str} {v : Val} {w : List Warn} (hty : ScalarColumn ty) (h : convertType env ty (.str s) = .ok (v, w)) :
    ∃ b, v = .atom b := by
  unfold convertType at h
  split at h
  · simp only [Except.ok.injEq, Prod.mk.injEq] at h; exact ⟨_, h.1.symm⟩
  · rcases hty with rfl | rfl | rfl | rfl | rfl | rfl <;> simp only at h
    · split at h <;> (simp only [Except.ok.injEq, Prod.mk.injEq] at h; exact ⟨_, h.1.symm⟩)
    · split at h
      · cases h
      all_goals (simp only [Except.ok.injEq, Prod.mk.injEq] at h; exact ⟨_, h.1.symm⟩)
    · split at h
      · simp only [Except.ok.injEq, Prod.mk.injEq] at h; exact ⟨_, h.1.symm⟩
      · split at h <;> (simp only [Except.ok.injEq, Prod.mk.injEq] at h; exact ⟨_, h.1.symm⟩)
    all_goals (simp only [Except.ok.injEq, Prod.mk.injEq] at h; exact ⟨_, h.1.symm⟩)

/-- C12: without a schema, in JSON mode, any content of the sheets is unflattened without an exception, provided that no heading of a non-blank cell has
the id name as a part before its last, and no cell is an infinite or NaN float. -/
theorem C12_no_exception (cfg : UnCfg) (hx : cfg.row.xml = false) (ht : ∀ p, cfg.row.types p = none) (sheets : List SheetIn)
    (hids : ∀ s ∈ sheets, ∀ l ∈ s.lines, ∀ e ∈ l, e.2.blank = false →
      ∀ idName before after, cfg.idName = some idName → pathList (e.1.getD s%"None") = before ++ idName :: after → after = [])
    (hnum : ∀ s ∈ sheets, ∀ l ∈ s.lines, ∀ e ∈ l, ∀ f, e.2 = .float f → ∃ neg c x, f.exact = .fin neg c x) :
    ∃ out w, unflatten cfg sheets = .ok (out, w) :=
  unflatten_total hx sheets (fun s hs l hl e he hb _ hc => placeable_untyped hx hc
    ⟨hids s hs l hl e he hb, fun _ _ _ _ => ht _, fun f hf => hnum s hs l hl e he f hf⟩)

/-- C12 with a schema: in JSON mode the sheets are unflattened without an exception, if each cell that is not blank is below a heading that the schema does not know anything
about (and that is as in `C12_no_exception`), or below one that names a field of the schema that is a column, with a value that can be converted (as all
texts can be: `C12_texts_fit`), and ids are scalars. -/
theorem C12_with_schema (cfg : UnCfg) (hx : cfg.row.xml = false) (sheets : List SheetIn)
    (h : ∀ s ∈ sheets, ∀ l ∈ s.lines, ∀ e ∈ l, e.2.blank = false → Undeclared cfg e.1 e.2 ∨ FitsSchema cfg e.1 e.2) :
    ∃ out w, unflatten cfg sheets = .ok (out, w) :=
  unflatten_total hx sheets (fun s hs l hl e he hb _ hc => (h s hs l hl e he hb).elim (placeable_untyped hx hc) (placeable_typed hx hc))

/-- C12: texts always fit: below a heading that names a column of the schema (if the schema knows it) every text can be converted; geometries with the option to convert them;
and ids, if they are declared as texts, numbers, dates or booleans. -/
theorem C12_texts_fit (cfg : UnCfg) (heading : Option Str) (s : Str) (p : Addr)
    (hp : address cfg.row.types [] (pathList (heading.getD s%"None")) = some p)
    (hids : ∀ idName, cfg.idName = some idName → ∀ above ix below, p = above ++ (idName, ix) :: below → below = [] ∧
      ∀ ty, cfg.row.types (Py.join s%"/" p.keys) = some ty → ScalarColumn ty)
    (hgeo : cfg.row.types (Py.join s%"/" p.keys) = some .geojson → cfg.row.conv.wkt = true) :
    FitsSchema cfg heading (.str s) := by
  have hobj : cfg.row.types (Py.join s%"/" p.keys) ≠ some .object := address_leaf_type p hp
  obtain ⟨v, w, hv, -⟩ := C17_text_never_raises cfg.row.conv ((cfg.row.types (Py.join s%"/" p.keys)).getD .untyped) s
    (by cases h : cfg.row.types (Py.join s%"/" p.keys) with
        | none => simp
        | some ty => rw [h] at hobj; simpa using hobj)
    (by cases h : cfg.row.types (Py.join s%"/" p.keys) with
        | none => simp
        | some ty => rw [h] at hgeo; simpa using hgeo)
  refine ⟨p, v, w, hp, ?_, fun m hm A ix B e => (hids m hm A ix B e).1, fun m hm A ix e => ?_⟩
  · simp only [Column.value, Column.addr, hp, Option.getD_some]; exact hv
  · have h2 := (hids m hm A ix [] e).2
    have hsc : ScalarColumn ((cfg.row.types (Py.join s%"/" p.keys)).getD .untyped) := by
      cases h : cfg.row.types (Py.join s%"/" p.keys) with
      | none => simp [ScalarColumn]
      | some ty => exact h2 ty h
    exact convert_scalar hsc hv

/-- Odd content that still unflattens: conflicting, empty, numeric and repeated headings, repeated ids, all types of cells. -/
example : (∃ r, unflatten {} [{ name := s%"s", lines := [
      [(some s%"a/b", .str s%"x"), (some s%"a", .bool true), (some s%"a/0/c", .dec (.nan false false 0)), (some s%"", .int 5), (none, .str s%"y"), (some s%"5", .int 1),
       (some s%"//", .str s%"z"), (some s%"l/0/id", .int 1), (some s%"l/1/id", .int 1), (some s%"id", .datetime ⟨s%"2020", s%"2020Z", s%"2020"⟩)],
      [(some s%"a/b/c", .str s%"x"), (some s%"id", .float ⟨s%"1.5", .fin false 15 (-1)⟩)]] }] = .ok r) := by
  have : (unflatten {} [{ name := s%"s", lines := [
      [(some s%"a/b", .str s%"x"), (some s%"a", .bool true), (some s%"a/0/c", .dec (.nan false false 0)), (some s%"", .int 5), (none, .str s%"y"), (some s%"5", .int 1),
       (some s%"//", .str s%"z"), (some s%"l/0/id", .int 1), (some s%"l/1/id", .int 1), (some s%"id", .datetime ⟨s%"2020", s%"2020Z", s%"2020"⟩)],
      [(some s%"a/b/c", .str s%"x"), (some s%"id", .float ⟨s%"1.5", .fin false 15 (-1)⟩)]] }]).toOption.isSome = true := by decide +kernel
  revert this
  cases unflatten {} _ with
  | error e => intro h; cases h
  | ok r => intro _; exact ⟨r, rfl⟩

/-- The two provisos are needed: an object as id, in the root object or in an array, and a float that is not finite, raise exceptions. -/
example : unflatten {} [{ name := s%"s", lines := [[(some s%"id/x", .int 1)]] }] = .error .attr ∧
    unflatten {} [{ name := s%"s", lines := [[(some s%"a/0/id/x", .int 1)]] }] = .error .type ∧
    unflatten {} [{ name := s%"s", lines := [[(some s%"a", .float ⟨s%"inf", .inf false⟩)]] }] = .error .overflow ∧
    unflatten {} [{ name := s%"s", lines := [[(some s%"a", .float ⟨s%"nan", .nan false false 0⟩)]] }] = .error .value := by
  decide +kernel

/-- A schema: a whole number, a list of texts, a geometry, and an array with ids and dates. -/
def forgivingTypes (p : Str) : Option CType :=
  if p = s%"n" then some .integer else if p = s%"tags" then some .stringArray else if p = s%"place" then some .geojson
  else if p = s%"items" then some .array else if p = s%"items/id" then some .string else if p = s%"items/day" then some .date else none

def forgivingCfg : UnCfg := { row := { types := forgivingTypes, conv := { wkt := true } } }

def forgivingLine : Line := [(some s%"id", .str s%"1"), (some s%"n", .str s%"five"), (some s%"n", .str s%"5"), (some s%"tags", .str s%"a,b;;"), (some s%"place", .str s%"nowhere"),
  (some s%"items/0/id", .str s%"x"), (some s%"items/id", .str s%"y"), (some s%"items/0/day", .str s%"some day"), (some s%"unknown/0//5", .float ⟨s%"1.5", .fin false 15 (-1)⟩)]

/-- For examples. -/
theorem text_fits {cfg : UnCfg} {heading : Option Str} {s m : Str} (p : Addr) (hm : cfg.idName = some m)
    (hp : address cfg.row.types [] (pathList (heading.getD s%"None")) = some p)
    (h1 : p.dropLast.all (fun x => decide (x.1 ≠ m)) = true)
    (h2 : p.getLast?.map (·.1) = some m → ((cfg.row.types (Py.join s%"/" p.keys)).all (fun ty => decide (ScalarColumn ty))) = true)
    (hgeo : cfg.row.types (Py.join s%"/" p.keys) = some .geojson → cfg.row.conv.wkt = true) : FitsSchema cfg heading (.str s) := by
  refine C12_texts_fit cfg heading s p hp ?_ hgeo
  intro m' hm' A ix B e
  obtain rfl : m = m' := by rw [hm] at hm'; injection hm'
  have hB : B = [] := by
    cases B with
    | nil => rfl
    | cons b r =>
      exfalso
      have hmem : (m, ix) ∈ p.dropLast := by
        rw [e, List.dropLast_append_of_ne_nil (by simp)]
        simp
      have := List.all_eq_true.1 h1 _ hmem
      simp at this
  subst hB
  refine ⟨rfl, ?_⟩
  intro ty hty
  have := h2 (by rw [e]; simp)
  rw [hty] at this
  simpa using this

/-- `C12_with_schema` and `C12_texts_fit` apply: values that do not fit, a field twice, an array with and without index, an odd heading that the schema does not know. -/
example : (∃ out w, unflatten forgivingCfg [{ name := s%"s", lines := [forgivingLine, forgivingLine] }] = .ok (out, w)) := by
  refine C12_with_schema _ rfl _ ?_
  have key : ∀ e ∈ forgivingLine, Undeclared forgivingCfg e.1 e.2 ∨ FitsSchema forgivingCfg e.1 e.2 := by
    intro e he
    simp only [forgivingLine, List.mem_cons, List.not_mem_nil, or_false] at he
    rcases he with rfl | rfl | rfl | rfl | rfl | rfl | rfl | rfl | rfl
    · exact .inr (text_fits (m := s%"id") [(s%"id", none)] rfl (by decide +kernel) (by decide +kernel) (by decide +kernel) (by decide +kernel))
    · exact .inr (text_fits (m := s%"id") [(s%"n", none)] rfl (by decide +kernel) (by decide +kernel) (by decide +kernel) (by decide +kernel))
    · exact .inr (text_fits (m := s%"id") [(s%"n", none)] rfl (by decide +kernel) (by decide +kernel) (by decide +kernel) (by decide +kernel))
    · exact .inr (text_fits (m := s%"id") [(s%"tags", none)] rfl (by decide +kernel) (by decide +kernel) (by decide +kernel) (by decide +kernel))
    · exact .inr (text_fits (m := s%"id") [(s%"place", none)] rfl (by decide +kernel) (by decide +kernel) (by decide +kernel) (by decide +kernel))
    · exact .inr (text_fits (m := s%"id") [(s%"items", some 0), (s%"id", none)] rfl (by decide +kernel) (by decide +kernel) (by decide +kernel) (by decide +kernel))
    · exact .inr (text_fits (m := s%"id") [(s%"items", some (-1)), (s%"id", none)] rfl (by decide +kernel) (by decide +kernel) (by decide +kernel) (by decide +kernel))
    · exact .inr (text_fits (m := s%"id") [(s%"items", some 0), (s%"day", none)] rfl (by decide +kernel) (by decide +kernel) (by decide +kernel) (by decide +kernel))
    · have hpl : pathList s%"unknown/0//5" = [s%"unknown", s%"0", [], s%"5"] := by decide +kernel
      refine .inl ⟨?_, ?_, ?_⟩
      · intro m before after hm h
        simp only [Option.getD_some, hpl] at h
        obtain rfl : s%"id" = m := by injection hm
        have : s%"id" ∈ [s%"unknown", s%"0", [], s%"5"] := by rw [h]; simp
        exact absurd this (by decide)
      · intro before after h hne
        simp only [Option.getD_some, hpl] at h
        cases before with
        | nil => exact absurd rfl hne
        | cons b r =>
          injection h with h1 h2
          subst h1
          have ht : ∀ t, forgivingTypes (s%"unknown" ++ t) = none := by intro t; simp [forgivingTypes]
          have hn : ∃ t, Py.join s%"/" (named (s%"unknown" :: r)) = s%"unknown" ++ t := by
            have : named (s%"unknown" :: r) = s%"unknown" :: named r := by
              have h0 : (Py.int? s%"unknown").isNone = true := by decide +kernel
              simp only [named, List.filter_cons, h0, if_true]
            rw [this]
            cases named r with
            | nil => exact ⟨[], rfl⟩
            | cons x y => exact ⟨_, rfl⟩
          obtain ⟨t, hn⟩ := hn
          rw [hn]
          exact ht t
      · intro f hf
        injection hf with hf
        subst hf
        exact ⟨_, _, _, rfl⟩
  intro s hs l hl e he _
  simp only [List.mem_singleton] at hs
  subst hs
  simp only [List.mem_cons, List.not_mem_nil, or_false, or_self] at hl
  subst hl
  exact key e he

/-- The conditions are needed: a heading that goes below a scalar, a number below an object, an id in a list column, a geometry without the option, a number column that
holds an infinite float as whole number. -/
example : unflatten forgivingCfg [{ name := s%"s", lines := [[(some s%"n/x", .str s%"1")]] }] = .error .value ∧
    unflatten { row := { types := fun p => if p = s%"o" then some .object else none } } [{ name := s%"s", lines := [[(some s%"o/0/x", .str s%"1")]] }] = .error .value ∧
    unflatten { row := { types := fun p => if p = s%"id" then some .stringArray else none } } [{ name := s%"s", lines := [[(some s%"id", .str s%"1")]] }] = .error .type ∧
    unflatten { row := { types := forgivingTypes } } [{ name := s%"s", lines := [[(some s%"place", .str s%"POINT(0 0)")]] }] = .error .value ∧
    unflatten forgivingCfg [{ name := s%"s", lines := [[(some s%"n", .float ⟨s%"inf", .inf false⟩)]] }] = .error .overflow := by
  decide +kernel

end Verif
