import Verif.Proofs.XmlPlace
import Verif.Proofs.XmlFlat
import Verif.Proofs.TripDoc
/-! The rows of XML data, as rows of JSON data. -/
namespace Verif
open Spec Xml

/-! ### Positions -/

/-- Without `text()` at the end. -/
def dropT (l : List Str) : List Str := if l.getLast? = some s%"text()" then l.dropLast else l

theorem dropT_cons (k : Str) {l : List Str} (h : l ≠ []) : dropT (k :: l) = k :: dropT l := by
  cases l with
  | nil => exact absurd rfl h
  | cons a r =>
    unfold dropT
    simp only [List.getLast?_cons_cons, List.dropLast_cons_cons]
    split <;> rfl

theorem XComps.ne {n : Str} {cs ds : List Str} (h : XComps n cs ds) : cs ≠ [] ∧ ds ≠ [] ∧ cs.head? = ds.head? := by
  cases h <;> simp

/-- The heading in XML mode determines the one in JSON mode. -/
theorem XComps.unique {n : Str} (hn : isAttribute n = false) {cs ds : List Str} (h : XComps n cs ds) : ∀ {es : List Str}, XComps n cs es → ds = es := by
  induction h with
  | @attr k hk hi =>
    intro es h
    cases h with
    | attr => rfl
    | id => rfl
    | text ht => obtain ⟨-, -, h3, -⟩ := ht; rw [hk] at h3; cases h3
  | id hi =>
    intro es h
    cases h with
    | attr => rfl
    | id => rfl
    | text ht => exact absurd rfl ht.2.2.2.2.2
  | @text k hk hi =>
    intro es h
    cases h with
    | attr ha => obtain ⟨-, -, h3, -⟩ := hk; rw [ha] at h3; cases h3
    | id => exact absurd rfl hk.2.2.2.2.2
    | text ht => rfl
  | @itemText k s hk hi hs =>
    intro es h
    cases h with
    | itemText => rfl
    | field _ _ hc => rw [hs] at hc; cases hc
    | item _ _ _ hne => exact absurd rfl hne
  | @field k c cs ds hk hi hci hce _ ih =>
    intro es h
    cases h with
    | itemText _ _ hs => rw [hs] at hci; cases hci
    | field _ _ _ _ h => rw [ih h]
    | item _ _ hs => rw [hs] at hci; cases hci
  | @item k s cs ds hk hi hs hne _ ih =>
    intro es h
    cases h with
    | itemText => exact absurd rfl hne
    | field _ _ hc => rw [hs] at hc; cases hc
    | item _ _ _ _ h => rw [ih h]

theorem goodKey_int {k : Str} (h : GoodKey k) : isint k = false := by
  rw [isint_int, h.2.2.1]; rfl

mutual
theorem comps_fields {n : Str} (hn : isAttribute n = false ∧ n ≠ s%"text()") (hi : isint n = false) {T : Trip} : {fs gs : List (Str × Json)} → XmlFields n fs gs →
    ∀ (ks : List Str) {P : List PKey} {c : Cell}, (∀ k ∈ keysP P, GoodKey k) → Tree.sub P (.obj (docF T ks gs)) = some (.cell c) →
    P = [.field s%"text()"] ∨ XComps n (dropT (strs P)) (strs P)
  | _, _, .nil => by
    intro ks P c hg h
    cases P with
    | nil => simp [Tree.sub] at h
    | cons s P => cases s <;> simp [Tree.sub, docF] at h
  | _, _, .attr (k := k) (s := s) (gs := gs) hk hsl hr => by
    intro ks P c hg h
    cases P with
    | nil => simp [Tree.sub] at h
    | cons x P =>
      cases x with
      | item l => simp [Tree.sub] at h
      | field k' =>
        by_cases he : k = k'
        · subst he
          simp only [Tree.sub, docF, Dict.get_cons, if_true, Option.bind_some, docT] at h
          obtain ⟨rfl, -⟩ := sub_cell _ h
          right
          have : k ≠ s%"text()" := by rintro rfl; revert hk; decide
          simp only [strs, List.map_cons, List.map_nil, strP, dropT, List.getLast?_singleton, Option.some.injEq, if_neg this]
          exact .attr hk (goodKey_int (hg k (by simp [keysP])))
        · refine comps_fields hn hi (T := T) hr ks hg (c := c) ?_
          simpa only [Tree.sub, docF, Dict.get_cons, if_neg he] using h
  | _, _, .text (s := s) => by
    intro ks P c hg h
    cases P with
    | nil => simp [Tree.sub] at h
    | cons x P =>
      cases x with
      | item l => simp [Tree.sub] at h
      | field k' =>
        by_cases he : s%"text()" = k'
        · subst he
          simp only [Tree.sub, docF, Dict.get_cons, if_true, Option.bind_some, docT] at h
          obtain ⟨rfl, -⟩ := sub_cell _ h
          exact .inl rfl
        · simp [Tree.sub, docF, Dict.get_cons, if_neg he] at h
  | _, _, .id (s := s) (gs := gs) hr => by
    intro ks P c hg h
    cases P with
    | nil => simp [Tree.sub] at h
    | cons x P =>
      cases x with
      | item l => simp [Tree.sub] at h
      | field k' =>
        by_cases he : n = k'
        · subst he
          simp only [Tree.sub, docF, Dict.get_cons, if_true, Option.bind_some, docT] at h
          obtain ⟨rfl, -⟩ := sub_cell _ h
          right
          simp only [strs, List.map_cons, List.map_nil, strP, dropT, List.getLast?_singleton, Option.some.injEq, if_neg hn.2]
          exact .id hi
        · refine comps_fields hn hi (T := T) hr ks hg (c := c) ?_
          simpa only [Tree.sub, docF, Dict.get_cons, if_neg he] using h
  | _, _, .one (k := k) (gs := gs) (t := t) hk hf hr => by
    intro ks P c hg h
    cases P with
    | nil => simp [Tree.sub] at h
    | cons x P =>
      cases x with
      | item l => simp [Tree.sub] at h
      | field k' =>
        by_cases he : k = k'
        · subst he
          simp only [Tree.sub, docF, Dict.get_cons, if_true, Option.bind_some, docT] at h
          right
          have hgk : isint k = false := goodKey_int (hg k (by simp [keysP]))
          rcases comps_fields hn hi hf (ks ++ [k]) (P := P) (fun k' hk' => hg k' (by simp [keysP, hk'])) h with rfl | hc
          · have : dropT (strs [.field k, .field s%"text()"]) = [k] := by simp [strs, strP, dropT]
            rw [this]
            exact .text hk hgk
          · cases P with
            | nil => simp [Tree.sub] at h
            | cons y P =>
              cases y with
              | item l => simp [Tree.sub] at h
              | field c' =>
                have hgc := hg c' (by simp [keysP])
                have hne : strs (.field c' :: P) ≠ [] := by simp [strs]
                have e1 : strs (.field k :: .field c' :: P) = k :: strs (.field c' :: P) := rfl
                rw [e1, dropT_cons _ hne]
                obtain ⟨h1, -, h3⟩ := hc.ne
                cases hd : dropT (strs (.field c' :: P)) with
                | nil => exact absurd hd h1
                | cons a r =>
                  rw [hd] at hc h3
                  simp only [strs, List.map_cons, strP, List.head?_cons, Option.some.injEq] at h3
                  subst h3
                  exact .field hk hgk (goodKey_int hgc) hgc.1 hc
        · refine comps_fields hn hi (T := T) hr ks hg (c := c) ?_
          simpa only [Tree.sub, docF, Dict.get_cons, if_neg he] using h
  | _, _, .many (k := k) (l := l) (m := m) (t := t) hk hne hit hr => by
    intro ks P c hg h
    cases P with
    | nil => simp [Tree.sub] at h
    | cons x P =>
      cases x with
      | item l => simp [Tree.sub] at h
      | field k' =>
        by_cases he : k = k'
        · subst he
          have hj : joinArray m = none := by
            cases hit with
            | nil => exact absurd rfl hne
            | cons _ _ => exact joinArray_objs _ _
          simp only [Tree.sub, docF, Dict.get_cons, if_true, Option.bind_some, docT, hj] at h
          right
          have hgk : isint k = false := goodKey_int (hg k (by simp [keysP]))
          cases P with
          | nil => simp [Tree.sub] at h
          | cons y P =>
            cases y with
            | field k2 => simp [Tree.sub] at h
            | item v =>
              simp only [Tree.sub, Option.bind_eq_some_iff] at h
              obtain ⟨g, hgg, h⟩ := h
              have hz : isint s%"0" = true := by decide
              rcases comps_items hn hi hit (ks ++ [k]) 0 hgg (P := P) (fun k' hk' => hg k' (by simp [keysP, hk'])) h with rfl | hc
              · have : dropT (strs [.field k, .item v, .field s%"text()"]) = [k, s%"0"] := by simp [strs, strP, dropT]
                rw [this]
                exact .itemText hk hgk hz
              · obtain ⟨h1, h2, -⟩ := hc.ne
                have e1 : strs (.field k :: .item v :: P) = k :: s%"0" :: strs P := rfl
                rw [e1, dropT_cons _ (by simp), dropT_cons _ h2]
                exact .item hk hgk hz h1 hc
        · refine comps_fields hn hi (T := T) hr ks hg (c := c) ?_
          simpa only [Tree.sub, docF, Dict.get_cons, if_neg he] using h
theorem comps_items {n : Str} (hn : isAttribute n = false ∧ n ≠ s%"text()") (hi : isint n = false) {T : Trip} : {l m : List Json} → XmlItems n l m →
    ∀ (ks : List Str) (i : Nat) {v : Val} {g : Fields}, keyGet (docI T ks i m) v = some g → ∀ {P : List PKey} {c : Cell}, (∀ k ∈ keysP P, GoodKey k) →
    Tree.sub P (.obj g) = some (.cell c) → P = [.field s%"text()"] ∨ XComps n (dropT (strs P)) (strs P)
  | _, _, .nil => by
    intro ks i v g hg
    simp [docI] at hg
  | _, _, .cons (gs := gs) (m := m) hf hr => by
    intro ks i v g hg P c hP h
    simp only [docI, keyGet_cons] at hg
    split at hg
    · cases hg
      exact comps_fields hn hi hf ks hP h
    · exact comps_items hn hi hr ks (i + 1) hg hP h
end

/-! ### Headings -/

theorem noSlash_text : '/' ∉ s%"text()" := by decide

theorem pathText_snoc_slash {l : List Str} (h : l ≠ []) (x : Str) : pathText (l ++ [x]) = pathText l ++ '/' :: x := by
  induction l with
  | nil => exact absurd rfl h
  | cons a r ih =>
    cases r with
    | nil => simp [pathText, Py.join]
    | cons b r =>
      have := ih (by simp)
      simp only [pathText, List.cons_append, Py.join] at this ⊢
      rw [this]; simp

theorem lastOf_path {l : List Str} {x : Str} (hx : '/' ∉ x) : lastOf (pathText (l ++ [x])) = x := by
  by_cases h : l = []
  · subst h; simp only [List.nil_append, pathText, Py.join]; exact lastOf_self hx
  · rw [pathText_snoc_slash h]; exact lastOf_slash _ hx

/-- Dropping `text()` from a heading is dropping it from its parts. -/
theorem dropText_path {l : List Str} (hl : ∀ s ∈ l, '/' ∉ s) (h1 : l ≠ []) (h2 : l ≠ [s%"text()"]) : dropText (pathText l) = pathText (dropT l) := by
  obtain ⟨r, x, rfl⟩ : ∃ r x, l = r ++ [x] := ⟨l.dropLast, l.getLast h1, (List.dropLast_concat_getLast h1).symm⟩
  have hx := hl x (by simp)
  unfold dropT
  rw [List.getLast?_concat, List.dropLast_concat]
  by_cases he : x = s%"text()"
  · subst he
    have hr : r ≠ [] := by rintro rfl; exact h2 rfl
    rw [if_pos rfl, pathText_snoc_slash hr]
    exact dropText_text _
  · rw [if_neg (by simpa using he)]
    unfold dropText
    rw [lastOf_path hx, if_neg he]

/-! ### Lines -/

/-- What holds of a line of the data as JSON. -/
structure TextLine (n : Str) (conv : ConvEnv) (fl : FLine) : Prop where
  heads : ∀ s b, Dict.get fl s = some (.leaf b) → XComps n (pathList (dropText s)) (pathList s) ∧ s.head? ≠ some '/' ∧
    pathText (pathList s) = s ∧
    (b.blank = false → (∀ d, b ≠ .datetime d) ∧ convertType conv .untyped b = .ok (.atom b, []))
  leaves : ∀ s j, Dict.get fl s = some j → ∃ b, j = .leaf b

theorem TextLine.inj {n : Str} (hn : isAttribute n = false) {conv : ConvEnv} {fl : FLine} (h : TextLine n conv fl) {a b : Str} (ha : a ∈ Dict.keys fl) (hb : b ∈ Dict.keys fl)
    (e : dropText a = dropText b) : a = b := by
  have get : ∀ x ∈ Dict.keys fl, ∃ v, Dict.get fl x = some (.leaf v) := by
    intro x hx
    obtain ⟨j, hj⟩ := Option.isSome_iff_exists.1 (Dict.get_isSome_iff.2 hx)
    obtain ⟨v, rfl⟩ := h.leaves x j hj
    exact ⟨v, hj⟩
  obtain ⟨v, hv⟩ := get a ha
  obtain ⟨u, hu⟩ := get b hb
  have h1 := h.heads a v hv
  have h2 := h.heads b u hu
  have h3 : XComps n (pathList (dropText a)) (pathList b) := by rw [e]; exact h2.1
  rw [← h1.2.2.1, ← h2.2.2.1, h1.1.unique hn h3]

theorem get_dropLine {fl : FLine} (hinj : ∀ a ∈ Dict.keys fl, ∀ b ∈ Dict.keys fl, dropText a = dropText b → a = b) (s : Str) (v : Json) :
    Dict.get (dropLine fl) s = some v ↔ ∃ k, dropText k = s ∧ Dict.get fl k = some v := by
  induction fl with
  | nil => simp [dropLine]
  | cons e r ih =>
    obtain ⟨k0, v0⟩ := e
    have ih := ih (fun a ha b hb => hinj a (by simp only [Dict.keys, List.map_cons, List.mem_cons]; exact .inr ha) b (by simp only [Dict.keys, List.map_cons, List.mem_cons]; exact .inr hb))
    simp only [dropLine, List.map_cons] at ih ⊢
    simp only [Dict.get_cons]
    by_cases h : dropText k0 = s
    · rw [if_pos h]
      constructor
      · intro e; exact ⟨k0, h, by rw [if_pos rfl]; exact e⟩
      · rintro ⟨k, hk, hg⟩
        by_cases hkk : k0 = k
        · rw [if_pos hkk] at hg; exact hg
        · rw [if_neg hkk] at hg
          have hm : k ∈ Dict.keys r := Dict.get_isSome_iff.1 (by rw [hg]; rfl)
          exact absurd (hinj k0 (by simp [Dict.keys]) k (by simp only [Dict.keys, List.map_cons, List.mem_cons]; exact .inr hm) (by rw [h, hk])) hkk
    · rw [if_neg h, ih]
      constructor
      · rintro ⟨k, hk, hg⟩
        exact ⟨k, hk, by rw [if_neg (by rintro rfl; exact h hk)]; exact hg⟩
      · rintro ⟨k, hk, hg⟩
        rw [if_neg (by rintro rfl; exact h hk)] at hg
        exact ⟨k, hk, hg⟩

/-- The heading in JSON mode. -/
def unText (fl : FLine) (h : Str) : Str := ((fl.find? (fun e => dropText e.1 = h)).map (·.1)).getD h

theorem unText_drop {fl : FLine} (hinj : ∀ a ∈ Dict.keys fl, ∀ b ∈ Dict.keys fl, dropText a = dropText b → a = b) {k : Str} (hk : k ∈ Dict.keys fl) :
    unText fl (dropText k) = k := by
  unfold unText
  cases hf : fl.find? (fun e => dropText e.1 = dropText k) with
  | none =>
    obtain ⟨e, he, rfl⟩ := List.mem_map.1 hk
    have := List.find?_eq_none.1 hf e he
    simp at this
  | some e =>
    have h1 := List.find?_some hf
    have h2 := List.mem_of_find?_eq_some hf
    simp only [decide_eq_true_eq] at h1
    exact hinj e.1 (List.mem_map.2 ⟨e, h2, rfl⟩) k hk h1

/-- The column in JSON mode: blank cells get headings that nothing else has. -/
def jsonHead (fl : FLine) (c : Option Str × Atom) : Option Str := c.1.map (fun h => if c.2.blank then '/' :: h else unText fl h)

def jsonLine (fl : FLine) (l : Line) : Line := l.map (fun c => (jsonHead fl c, c.2))

theorem readBack_json {n : Str} (hn : isAttribute n = false) {conv : ConvEnv} {fl : FLine} (h : TextLine n conv fl) {l : Line}
    (hr : (xmlTrip conv n).ReadBack (dropLine fl) l) : (xmlTrip conv n).ReadBack fl (jsonLine fl l) ∧
      ∀ k a, (k, a) ∈ l → a.blank = false → ∃ s, Dict.get fl s = some (.leaf a) ∧ k = some (dropText s) ∧ jsonHead fl (k, a) = some s := by
  have hinj : ∀ a ∈ Dict.keys fl, ∀ b ∈ Dict.keys fl, dropText a = dropText b → a = b := fun a ha b hb e => h.inj hn ha hb e
  have hfrom : ∀ k a, (k, a) ∈ l → a.blank = false → ∃ s, Dict.get fl s = some (.leaf a) ∧ k = some (dropText s) ∧ jsonHead fl (k, a) = some s := by
    intro k a hm hb
    obtain ⟨s, b, rfl, hg, hab⟩ := hr.from_ k a hm hb
    have hab : a = b := hab
    subst hab
    obtain ⟨s', rfl, hg'⟩ := (get_dropLine hinj _ _).1 hg
    refine ⟨s', hg', rfl, ?_⟩
    simp only [jsonHead, Option.map_some, hb, Bool.false_eq_true, if_false]
    rw [unText_drop hinj (Dict.get_isSome_iff.1 (by rw [hg']; rfl))]
  refine ⟨⟨?_, ?_, ?_, ?_⟩, hfrom⟩
  · have h0 : l.Pairwise (fun x y => x.1 ≠ y.1) := by
      have := hr.columns
      rw [List.Nodup, List.pairwise_map] at this
      exact this
    unfold jsonLine
    rw [List.map_map, List.Nodup, List.pairwise_map]
    refine h0.imp_of_mem ?_
    intro x y hx hy hne
    obtain ⟨k, a⟩ := x
    obtain ⟨k', a'⟩ := y
    simp only [Function.comp_apply] at hne ⊢
    have hmixed : ∀ k a k' a', (k', a') ∈ l → a.blank = true → a'.blank = false → jsonHead fl (k, a) ≠ jsonHead fl (k', a') := by
      intro k a k' a' hm hb hb' e
      obtain ⟨s, hs, -, hj⟩ := hfrom k' a' hm hb'
      rw [hj] at e
      cases k with
      | none => simp [jsonHead] at e
      | some k =>
        simp only [jsonHead, Option.map_some, hb, if_true, Option.some.injEq] at e
        exact (h.heads s a' hs).2.1 (by rw [← e]; rfl)
    cases hb : a.blank with
    | true =>
      cases hb' : a'.blank with
      | true =>
        intro e
        apply hne
        cases k with
        | none => cases k' with
          | none => rfl
          | some k' => simp [jsonHead] at e
        | some k => cases k' with
          | none => simp [jsonHead] at e
          | some k' =>
            simp only [jsonHead, Option.map_some, hb, hb', if_true, Option.some.injEq, List.cons.injEq, true_and] at e
            rw [e]
      | false => exact hmixed k a k' a' hy hb hb'
    | false =>
      cases hb' : a'.blank with
      | true => exact fun e => hmixed k' a' k a hx hb' hb e.symm
      | false =>
        obtain ⟨s, -, e1, e2⟩ := hfrom k a hx hb
        obtain ⟨s', -, e1', e2'⟩ := hfrom k' a' hy hb'
        rw [e2, e2']
        intro e
        cases e
        exact hne (by rw [e1, e1'])
  · intro k a hm hb
    obtain ⟨c, hc, he⟩ := List.mem_map.1 hm
    obtain ⟨k0, a0⟩ := c
    simp only [Prod.mk.injEq] at he
    obtain ⟨rfl, rfl⟩ := he
    obtain ⟨s, hs, -, hj⟩ := hfrom k0 a0 hc hb
    exact ⟨s, a0, hj, hs, rfl⟩
  · intro s b hg hb
    have hg' : Dict.get (dropLine fl) (dropText s) = some (.leaf b) := (get_dropLine hinj _ _).2 ⟨s, rfl, hg⟩
    have hm := hr.all (dropText s) b hg' hb
    have hm : (some (dropText s), b) ∈ l := hm
    have hb : b.blank = false := hb
    refine List.mem_map.2 ⟨_, hm, ?_⟩
    simp only [jsonHead, Option.map_some, hb, Bool.false_eq_true, if_false]
    rw [unText_drop hinj (Dict.get_isSome_iff.1 (by rw [hg]; rfl))]
    rfl
  · intro rid hrid
    cases hrid

/-! ### Rows -/

/-- The row with the headings of JSON mode; the cells keep their places. -/
def jsonRow (fl : FLine) (r : RowIn) : RowIn :=
  ⟨⟨r.sheet.name, some (r.sheet.headings.getD (r.line.map (·.1))), []⟩, r.number, jsonLine fl r.line⟩

theorem cells_json {n : Str} {conv : ConvEnv} {fl : FLine} {sheet : Str} {hs : Option (List (Option Str))} {j : Nat} {l : Line} :
    ∀ (pre rest : Line), l = pre ++ rest →
    (∀ k a, (k, a) ∈ rest → a.blank = false → ∃ s, jsonHead fl (k, a) = some s ∧ k = some (dropText s) ∧ XComps n (pathList (dropText s)) (pathList s) ∧
      (∀ d, a ≠ .datetime d) ∧ convertType conv .untyped a = .ok (.atom a, [])) →
    XCells n conv (lineCells sheet hs j pre.length rest) (lineCells sheet (some (hs.getD (l.map (·.1)))) j pre.length (jsonLine fl rest)) := by
  intro pre rest
  induction rest generalizing pre with
  | nil => intro _ _; exact .nil
  | cons c rest ih =>
    intro he h
    obtain ⟨k, a⟩ := c
    have ih := ih (pre ++ [(k, a)]) (by simp [he]) (fun k' a' hm => h k' a' (by simp [hm]))
    simp only [List.length_append, List.length_cons, List.length_nil, Nat.zero_add] at ih
    obtain ⟨loc, e1, e2⟩ : ∃ loc : Loc, lineCells sheet hs j pre.length ((k, a) :: rest) = (k.getD s%"None", ⟨.atom a, loc, []⟩) :: lineCells sheet hs j (pre.length + 1) rest ∧
        lineCells sheet (some (hs.getD (l.map (·.1)))) j pre.length (jsonLine fl ((k, a) :: rest)) =
          ((jsonHead fl (k, a)).getD s%"None", ⟨.atom a, loc, []⟩) :: lineCells sheet (some (hs.getD (l.map (·.1)))) j (pre.length + 1) (jsonLine fl rest) := by
      cases hs with
      | some hs => exact ⟨_, rfl, rfl⟩
      | none =>
        refine ⟨_, rfl, ?_⟩
        simp [jsonLine, lineCells, he]
    rw [e1, e2]
    by_cases hb : a.blank = true
    · refine XCells.blank ?_ ih
      exact hb
    · have hb' : a.blank = false := by simpa using hb
      obtain ⟨s, h1, h2, h3, h4, h5⟩ := h k a (by simp) hb'
      refine XCells.cell ?_ ?_ ih
      · exact ⟨⟨a, rfl, hb', h4, h5⟩, rfl⟩
      · rw [h1, h2]
        exact h3

theorem row_sim {n : Str} (hn : isAttribute n = false ∧ n ≠ s%"text()") {cfg cfg' : UnCfg} (hc : XRun n cfg cfg') {fl : FLine}
    (h : TextLine n cfg.row.conv fl) {r : RowIn} (hr : (xmlTrip cfg.row.conv n).ReadBack (dropLine fl) r.line) {y : Row}
    (hy : rowAlone cfg' (jsonRow fl r) = .ok y) (hw : y.warns = []) : rowAlone cfg r = .ok (wRow n y) := by
  obtain ⟨-, hfrom⟩ := readBack_json hn.1 h hr
  unfold rowAlone at hy ⊢
  rw [hc.name'] at hy
  rw [hc.name]
  cases hu : unflattenRow cfg'.row (some n) (lineCells (jsonRow fl r).sheet.name (jsonRow fl r).sheet.headings (jsonRow fl r).number 0 (jsonRow fl r).line) with
  | error e => rw [hu] at hy; cases hy
  | ok p =>
    obtain ⟨fs, w⟩ := p
    rw [hu] at hy
    simp only [Except.ok.injEq] at hy
    subst hy
    simp only at hw
    subst hw
    have hcells : XCells n cfg.row.conv (lineCells r.sheet.name r.sheet.headings r.number 0 r.line)
        (lineCells (jsonRow fl r).sheet.name (jsonRow fl r).sheet.headings (jsonRow fl r).number 0 (jsonRow fl r).line) := by
      refine cells_json (l := r.line) [] r.line rfl ?_
      intro k a hm hb
      obtain ⟨s, h1, h2, h3⟩ := hfrom k a hm hb
      obtain ⟨g1, -, -, g2⟩ := h.heads s a h1
      exact ⟨s, h3, h2, g1, (g2 hb).1, (g2 hb).2⟩
    rw [unflattenRow_sim hn hc.xml hc.json hc.types hc.types' hc.conv hcells hu]
    simp [wRow, jsonRow, rootKey, hc.root, hc.root']

/-! ### The lines of a document -/

theorem untyped_warns {env : ConvEnv} {v : Atom} {u : Val} {w : List Warn} (h : convertType env .untyped v = .ok (u, w)) : w = [] := by
  unfold convertType at h
  split at h
  · cases h; rfl
  · simp only at h
    split at h
    · cases h; rfl
    · split at h
      · split at h <;> (cases h; rfl)
      · cases h
      · cases h
    · cases h; rfl
    · cases h; rfl

theorem returns_self {conv : ConvEnv} {n : Str} {ks : List Str} {b : Atom} (h : (xmlTrip conv n).Returns ks b (.leaf b)) :
    (∀ d, b ≠ .datetime d) ∧ convertType conv .untyped b = .ok (.atom b, []) := by
  obtain ⟨hb, -, -, v, w, h1, -, -, hng, h5⟩ := h
  have h1 : convertType conv .untyped b = .ok (v, w) := h1
  have hw := untyped_warns h1
  subst hw
  have hv : v = .atom b := by
    cases v with
    | atom a => simp only [Val.toJson, Json.leaf.injEq] at h5; rw [h5]
    | arr l => cases h5
    | arr2 l => cases h5
    | geo g => exact absurd rfl (hng g)
  subst hv
  refine ⟨?_, h1⟩
  rintro d rfl
  have hb : (Atom.datetime d).blank = false := hb
  simp [convertType, hb] at h1

theorem hasCell_self {conv : ConvEnv} {n : Str} {p : List Str} {fs : List (Str × Json)} {q : List Str} {v : Json} (h : HasCell everything p fs q v) :
    ∀ ks b, v = .leaf b → (xmlTrip conv n).FitsFields ks fs → b.blank = false → (∀ d, b ≠ .datetime d) ∧ convertType conv .untyped b = .ok (.atom b, []) := by
  induction h with
  | @scalar p fs k a hm _ =>
    intro ks b e hf hb
    cases e
    have := fitsFields_iff.1 hf _ hm
    simp only [Trip.Fits] at this
    exact returns_self this.2
  | @list p fs k l t hm _ hj =>
    intro ks b e hf hb
    cases e
    refine ⟨by simp, ?_⟩
    simp [convertType, hb, Py.str]
  | @deep p fs k gs q v hm _ _ ih =>
    intro ks b e hf hb
    have := fitsFields_iff.1 hf _ hm
    simp only [Trip.Fits] at this
    exact ih (ks ++ [k]) b e this.2.2.2 hb

theorem pathText_head {P : List PKey} (hne : P ≠ []) (hg : ∀ k ∈ keysP P, GoodKey k) : (pathText (strs P)).head? ≠ some '/' := by
  cases P with
  | nil => exact absurd rfl hne
  | cons s P =>
    have h1 : strP s ≠ [] ∧ '/' ∉ strP s := by
      cases s with
      | item l => exact ⟨by simp [strP], by simp [strP]⟩
      | field k => exact ⟨(hg k (by simp [keysP])).1, (hg k (by simp [keysP])).2.1⟩
    intro e
    cases hs : strP s with
    | nil => exact h1.1 hs
    | cons c r =>
      have : (pathText (strs (s :: P))).head? = some c := by
        simp only [strs, List.map_cons, hs, pathText]
        cases hP : P.map strP with
        | nil => simp [Py.join]
        | cons a b => simp [Py.join]
      rw [this] at e
      cases e
      exact h1.2 (by rw [hs]; simp)

theorem xmlItems_mem {n : Str} : {xml json : List Json} → XmlItems n xml json → ∀ gs, gs ∈ objects json → ∃ fs ∈ objects xml, XmlFields n fs gs
  | _, _, .nil => by intro gs h; cases h
  | _, _, .cons h1 h2 => by
    intro gs hm
    simp only [objects, List.mem_cons] at hm ⊢
    rcases hm with hm | hm
    · exact ⟨_, .inl rfl, hm ▸ h1⟩
    · obtain ⟨fs, h3, h4⟩ := xmlItems_mem h2 _ hm
      exact ⟨fs, .inr h3, h4⟩

theorem xmlFields_noText {n : Str} (hn : n ≠ s%"text()") : {fs gs : List (Str × Json)} → XmlFields n fs gs → Dict.get fs s%"#text" = none → Dict.get gs s%"text()" = none
  | _, _, .nil => by intro _; rfl
  | _, _, .attr (k := k) hk _ hr => by
    intro h
    have hk1 : k ≠ s%"text()" := by rintro rfl; revert hk; decide
    rw [Dict.get_cons, if_neg hk1]
    rw [Dict.get_cons] at h
    split at h
    · cases h
    · exact xmlFields_noText hn hr h
  | _, _, .text => by intro h; simp [Dict.get_cons] at h
  | _, _, .id hr => by
    intro h
    rw [Dict.get_cons, if_neg hn]
    rw [Dict.get_cons] at h
    split at h
    · cases h
    · exact xmlFields_noText hn hr h
  | _, _, .one hk _ hr => by
    intro h
    rw [Dict.get_cons, if_neg hk.2.2.2.2.1]
    rw [Dict.get_cons] at h
    split at h
    · cases h
    · exact xmlFields_noText hn hr h
  | _, _, .many hk _ _ hr => by
    intro h
    rw [Dict.get_cons, if_neg hk.2.2.2.2.1]
    rw [Dict.get_cons] at h
    split at h
    · cases h
    · exact xmlFields_noText hn hr h

/-- Every line of the data as JSON. -/
theorem textLine {n : Str} {conv : ConvEnv} {xml json : List Json} (hx : XmlRoot n xml json) (hf : (xmlTrip conv n).FitsRoot json) {s : Spot}
    (hs : s ∈ spots (xmlTrip conv n) json) : TextLine n conv (spotLine (xmlTrip conv n) s) := by
  have hline := spot_line hf hs
  have hfine := spot_fine hf hs
  have hm := List.mem_of_getElem? (mem_spots.1 hs).1
  obtain ⟨ho, hnm, hff, -⟩ := fitsRoot_mem hf hm
  have hlo := lineOf ho hff hfine
  have hn : isAttribute n = false ∧ n ≠ s%"text()" := ⟨hx.idName.1, hx.idName.2.2⟩
  have hni : isint n = false := goodKey_int hf.idName
  obtain ⟨fs, hfs, hxf⟩ := xmlItems_mem hx.items _ hm
  have hnt : Dict.get s.2.1 s%"text()" = none := xmlFields_noText hn.2 hxf (hx.noText fs hfs)
  have hpos : ∀ P b, OnLine (xmlTrip conv n) s.2.1 s.2.2 P b → P ≠ [] ∧ (∀ k ∈ keysP P, GoodKey k) ∧ XComps n (dropT (strs P)) (strs P) ∧ strs P ≠ [s%"text()"] := by
    intro P b hS
    obtain ⟨h1, -, -⟩ := hlo.cell P b hS
    have h2 := ((address_docT (T := xmlTrip conv n) (.obj s.2.1)).1 s.2.1 [] rfl ho hff P _ h1).2.1
    have hne : P ≠ [] := by rintro rfl; simp [Tree.sub] at h1
    have hnot : P ≠ [.field s%"text()"] := by
      rintro rfl
      simp [Tree.sub, get_docF, hnt] at h1
    refine ⟨hne, h2, (comps_fields hn hni hxf [] h2 h1).resolve_left hnot, ?_⟩
    intro e
    cases P with
    | nil => exact hne rfl
    | cons x P =>
      cases P with
      | cons y P => simp [strs] at e
      | nil =>
        cases x with
        | item l => simp [strs, strP] at e
        | field k =>
          simp only [strs, List.map_cons, List.map_nil, strP, List.cons.injEq, and_true] at e
          subst e
          exact hnot rfl
  refine ⟨?_, ?_⟩
  · intro k b hg
    obtain ⟨P, b', hS, rfl, e⟩ := hline.sound k _ hg
    cases e
    obtain ⟨hne, hgood, hcomp, hnt'⟩ := hpos P b hS
    have hpl := pathList_strs hne hgood
    have hns := strs_noSlash hgood
    refine ⟨?_, pathText_head hne hgood, by rw [hpl], ?_⟩
    · rw [hpl, dropText_path hns (by simpa [strs] using hne) hnt']
      obtain ⟨P', hP', hk'⟩ : ∃ P', strs P' = dropT (strs P) ∧ ∀ k ∈ keysP P', k ∈ keysP P := by
        unfold dropT
        split
        · refine ⟨P.dropLast, by simp [strs], ?_⟩
          intro k hk
          have hsub : ∀ (Q R : List PKey), ∀ k ∈ keysP Q, k ∈ keysP (Q ++ R) := by
            intro Q R k hk; rw [keysP_append]; simp [hk]
          have := hsub P.dropLast [P.getLast hne] k hk
          rwa [List.dropLast_concat_getLast] at this
        · exact ⟨P, rfl, fun k hk => hk⟩
      have hne' : P' ≠ [] := by
        rintro rfl
        exact hcomp.ne.1 (by rw [← hP']; rfl)
      rw [← hP', pathList_strs hne' (fun k hk => hgood k (hk' k hk)), hP']
      exact hcomp
    · intro hb
      cases hS with
      | own h => exact hasCell_self h _ b rfl hfine.fits hb
      | @anc R gs b hmem hid =>
        obtain ⟨-, -, -, -, h5, -⟩ := hfine.around _ hmem
        have := fitsFields_iff.1 h5 _ (Dict.get_eq_some_mem (idOf_get hid))
        simp only [Trip.Fits] at this
        exact returns_self this.2
      | root hr => cases hr
  · intro k j hg
    obtain ⟨P, b, -, -, rfl⟩ := hline.sound k j hg
    exact ⟨b, rfl⟩

/-- The rows of the data as JSON give no warnings. -/
theorem row_quiet {n : Str} {conv : ConvEnv} {cfg : UnCfg} (hc : (xmlTrip conv n).Reads cfg) {json : List Json} (hf : (xmlTrip conv n).FitsRoot json) {s : Spot}
    (hs : s ∈ spots (xmlTrip conv n) json) {r : RowIn} (hr : (xmlTrip conv n).ReadBack (spotLine (xmlTrip conv n) s) r.line) {y : Row}
    (hy : rowAlone cfg r = .ok y) : y.warns = [] := by
  have hfine := spot_fine hf hs
  obtain ⟨ho, hnm, hff, -⟩ := fitsRoot_mem hf (List.mem_of_getElem? (mem_spots.1 hs).1)
  obtain ⟨rf, w, hu, -, hw⟩ := row_of_line hc.xml hc.types hc.conv ho hff (lineOf ho hff hfine) (lineHas_of ho hff hfine (spot_line hf hs) hr)
    r.sheet.name r.sheet.headings r.number
  unfold rowAlone at hy
  rw [hc.idName] at hy
  rw [hu] at hy
  cases hy
  simp only
  cases w with
  | nil => rfl
  | cons x w =>
    exfalso
    obtain ⟨c, -, v, w', h1, h2⟩ := hw x (by simp)
    unfold Column.value at h1
    rw [hc.types] at h1
    have := untyped_warns h1
    rw [this] at h2
    cases h2

end Verif
