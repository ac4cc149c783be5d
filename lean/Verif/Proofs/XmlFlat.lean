import Verif.Spec.XmlTrip
import Verif.Proofs.TripRun
/-! Flattening XML data is flattening the same data as JSON, with shorter headings for texts. -/
namespace Verif
open Spec Xml

/-! ### Headings -/

/-- What follows the last slash. -/
def lastOf (h : Str) : Str := (h.reverse.takeWhile (· ≠ '/')).reverse

theorem takeWhile_eq_of_all {k r : Str} (h : '/' ∉ k) : List.takeWhile (· ≠ '/') (k ++ '/' :: r) = k := by
  induction k with
  | nil => simp
  | cons c k ih =>
    simp only [List.mem_cons, not_or] at h
    have : c ≠ '/' := fun e => h.1 e.symm
    simp only [List.cons_append]
    rw [List.takeWhile_cons_of_pos (by simpa using this), ih h.2]

theorem takeWhile_self {k : Str} (h : '/' ∉ k) : List.takeWhile (· ≠ '/') k = k := by
  induction k with
  | nil => simp
  | cons c k ih =>
    simp only [List.mem_cons, not_or] at h
    have : c ≠ '/' := fun e => h.1 e.symm
    rw [List.takeWhile_cons_of_pos (by simpa using this), ih h.2]

theorem lastOf_slash (p : Str) {k : Str} (h : '/' ∉ k) : lastOf (p ++ '/' :: k) = k := by
  unfold lastOf
  have : (p ++ '/' :: k).reverse = k.reverse ++ '/' :: p.reverse := by simp
  rw [this, takeWhile_eq_of_all (by simpa using h), List.reverse_reverse]

theorem lastOf_self {k : Str} (h : '/' ∉ k) : lastOf k = k := by
  unfold lastOf
  rw [takeWhile_self (by simpa using h), List.reverse_reverse]

/-- Headings of attributes and ids. -/
def OwnXml (n h : Str) : Prop := isAttribute (lastOf h) = true ∨ lastOf h = n

/-- Headings of the data as JSON. -/
def Head (n h : Str) : Prop := OwnXml n h ∨ ∃ p, h = p ++ s%"/text()" ∧ ¬ OwnXml n p

/-- The heading in XML mode. -/
def dropText (h : Str) : Str := if lastOf h = s%"text()" then h.take (h.length - 7) else h

theorem dropText_text (p : Str) : dropText (p ++ s%"/text()") = p := by
  have h1 : lastOf (p ++ s%"/text()") = s%"text()" := lastOf_slash p (by decide)
  unfold dropText
  rw [if_pos h1]
  have : (p ++ s%"/text()").length - 7 = p.length := by simp
  rw [this]; simp

theorem dropText_own {n h : Str} (hn : n ≠ s%"text()") (ho : OwnXml n h) : dropText h = h := by
  unfold dropText
  rw [if_neg]
  rintro e
  rcases ho with ho | ho
  · rw [e] at ho; revert ho; decide
  · exact hn (by rw [← ho, e])

theorem dropText_inj {n a b : Str} (hn : n ≠ s%"text()") (ha : Head n a) (hb : Head n b) (h : dropText a = dropText b) : a = b := by
  rcases ha with ha | ⟨p, rfl, hp⟩
  · rcases hb with hb | ⟨q, rfl, hq⟩
    · rwa [dropText_own hn ha, dropText_own hn hb] at h
    · rw [dropText_own hn ha, dropText_text] at h
      exact absurd (h ▸ ha) hq
  · rcases hb with hb | ⟨q, rfl, hq⟩
    · rw [dropText_own hn hb, dropText_text] at h
      exact absurd (h ▸ hb) hp
    · rw [dropText_text, dropText_text] at h
      rw [h]

/-! ### Lines -/

/-- The line with the headings of XML mode. -/
def dropLine (fl : FLine) : FLine := fl.map (fun e => (dropText e.1, e.2))

theorem dropLine_set {n : Str} (hn : n ≠ s%"text()") {fl : FLine} (hfl : ∀ k ∈ Dict.keys fl, Head n k) {k : Str} (hk : Head n k) (v : Json) :
    Dict.set (dropLine fl) (dropText k) v = dropLine (Dict.set fl k v) := by
  induction fl with
  | nil => rfl
  | cons e r ih =>
    obtain ⟨k', v'⟩ := e
    have ih := ih (fun x hx => hfl x (by simp only [Dict.keys, List.map_cons, List.mem_cons]; exact .inr hx))
    simp only [dropLine, List.map_cons, Dict.set] at ih ⊢
    by_cases h : k' = k
    · rw [if_pos (by rw [h]), if_pos h]; simp
    · rw [if_neg (fun e => h (dropText_inj hn (hfl k' (by simp [Dict.keys])) hk e)), if_neg h, ih]; simp

theorem head_set {n : Str} {fl : FLine} (hfl : ∀ k ∈ Dict.keys fl, Head n k) {k : Str} (hk : Head n k) (v : Json) :
    ∀ x ∈ Dict.keys (Dict.set fl k v), Head n x := by
  intro x hx
  rcases Dict.mem_keys_set.1 hx with rfl | hx
  · exact hk
  · exact hfl x hx

/-! ### Sheets -/

/-- The same lines, with the headings of XML mode. -/
def SheetSim (s s' : Sheet) : Prop := s.lines = s'.lines.map dropLine

/-- The same sheets. -/
structure StateSim (st st' : FState) : Prop where
  main : SheetSim st.main st'.main
  subs : All₂ (fun e e' : Str × Sheet => e.1 = e'.1 ∧ SheetSim e.2 e'.2) st.subs st'.subs

theorem simGet {α β κ : Type} [DecidableEq κ] {R : α → β → Prop} {d : List (κ × α)} {d' : List (κ × β)}
    (h : All₂ (fun e e' => e.1 = e'.1 ∧ R e.2 e'.2) d d') (k : κ) :
    (Dict.get d k = none ∧ Dict.get d' k = none) ∨ ∃ a b, Dict.get d k = some a ∧ Dict.get d' k = some b ∧ R a b := by
  induction h with
  | nil => left; simp
  | @cons e e' r r' h1 _ ih =>
    obtain ⟨k1, a⟩ := e
    obtain ⟨k2, b⟩ := e'
    obtain ⟨h2, h3⟩ := h1
    simp only at h2 h3
    subst h2
    simp only [Dict.get_cons]
    by_cases hk : k1 = k
    · right; rw [if_pos hk, if_pos hk]; exact ⟨a, b, rfl, rfl, h3⟩
    · rw [if_neg hk, if_neg hk]; exact ih

theorem simSet {α β κ : Type} [DecidableEq κ] {R : α → β → Prop} {d : List (κ × α)} {d' : List (κ × β)}
    (h : All₂ (fun e e' => e.1 = e'.1 ∧ R e.2 e'.2) d d') (k : κ) {a : α} {b : β} (hab : R a b) :
    All₂ (fun e e' => e.1 = e'.1 ∧ R e.2 e'.2) (Dict.set d k a) (Dict.set d' k b) := by
  induction h with
  | nil => exact .cons ⟨rfl, hab⟩ .nil
  | @cons e e' r r' h1 h2 ih =>
    obtain ⟨k1, x⟩ := e
    obtain ⟨k2, y⟩ := e'
    obtain ⟨h3, h4⟩ := h1
    simp only at h3 h4
    subst h3
    simp only [Dict.set]
    by_cases hk : k1 = k
    · rw [if_pos hk, if_pos hk]; exact .cons ⟨rfl, hab⟩ h2
    · rw [if_neg hk, if_neg hk]; exact .cons ⟨rfl, h4⟩ ih

theorem StateSim.sheet {st st' : FState} (h : StateSim st st') (ref : SheetRef) : SheetSim (st.sheet ref) (st'.sheet ref) := by
  cases ref with
  | none => exact h.main
  | some n =>
    simp only [FState.sheet]
    rcases simGet h.subs n with ⟨h1, h2⟩ | ⟨a, b, h1, h2, h3⟩
    · rw [h1, h2]; rfl
    · rw [h1, h2]; exact h3

theorem StateSim.set {st st' : FState} (h : StateSim st st') (ref : SheetRef) {s s' : Sheet} (hs : SheetSim s s') :
    StateSim (st.setSheet ref s) (st'.setSheet ref s') := by
  cases ref with
  | none => exact ⟨hs, h.subs⟩
  | some n => exact ⟨h.main, simSet h.subs n hs⟩

theorem sheetKeyField_lines (s : Sheet) (k : Str) : (sheetKeyField s k).2.lines = s.lines := by
  unfold sheetKeyField
  split
  · rfl
  · simp only [Sheet.addField]
    split <;> (try split) <;> rfl

theorem key_fst {cfg : FCfg} (ht : cfg.useTitles = false) (st : FState) (ref : SheetRef) (k : Str) : (st.key cfg ref k).1 = k := by
  simp [FState.key, sheetKey, ht, sheetKeyField]

theorem StateSim.key {cfg cfg' : FCfg} (ht : cfg.useTitles = false) (ht' : cfg'.useTitles = false) {st st' : FState} (h : StateSim st st') (ref : SheetRef)
    (k k' : Str) : StateSim (st.key cfg ref k).2 (st'.key cfg' ref k').2 := by
  simp only [FState.key, sheetKey, ht, ht', Bool.false_eq_true, if_false]
  refine h.set ref ?_
  unfold SheetSim
  rw [sheetKeyField_lines, sheetKeyField_lines]
  exact h.sheet ref

theorem StateSim.ensure {st st' : FState} (h : StateSim st st') (name : Str) : StateSim (st.ensure name) (st'.ensure name) := by
  unfold FState.ensure
  have : Dict.has st.subs name = Dict.has st'.subs name := by
    unfold Dict.has
    rcases simGet h.subs name with ⟨h1, h2⟩ | ⟨a, b, h1, h2, h3⟩ <;> rw [h1, h2]
    rfl
  rw [this]
  split
  · exact h
  · exact ⟨h.main, simSet h.subs name (rfl : SheetSim {} {})⟩

theorem StateSim.line {st st' : FState} (h : StateSim st st') (ref : SheetRef) (fl : FLine) :
    StateSim (st.setSheet ref ((st.sheet ref).appendLine (dropLine fl))) (st'.setSheet ref ((st'.sheet ref).appendLine fl)) := by
  refine h.set ref ?_
  unfold SheetSim Sheet.appendLine
  simp only [List.map_append, List.map_cons, List.map_nil]
  rw [h.sheet ref]

theorem StateSim.seen {st st' : FState} (h : StateSim st st') (a b : List Str) : StateSim { st with seen := a } { st' with seen := b } := ⟨h.main, h.subs⟩

/-! ### The run -/

/-- The ids of ancestors: an element with a text in XML mode. -/
def PidSim (n : Str) (e e' : Str × Json) : Prop := e.1 = e'.1 ∧ OwnXml n e.1 ∧ ∃ s, e.2 = .obj [(s%"#text", .leaf (.str s))] ∧ e'.2 = .leaf (.str s)

/-- Options of both runs. -/
structure Both (n : Str) (cfg cfg' : FCfg) : Prop where
  x : PlainXmlFlatten n cfg
  eq : cfg' = { cfg with xml := false }
  name : isAttribute n = false ∧ n ≠ s%"#text" ∧ n ≠ s%"text()"
  good : n ≠ [] ∧ '/' ∉ n ∧ n ≠ s%"0"

theorem Both.text {n : Str} {cfg cfg' : FCfg} (h : Both n cfg cfg') : n ≠ s%"text()" := h.name.2.2

/-- A path of elements. -/
def Above (n p : Str) : Prop := p ≠ [] ∧ p.head? ≠ some '/' ∧ p.getLast? ≠ some '/' ∧ ¬ OwnXml n p

/-- The prefix of headings: at the top (where no text is), or below an element. -/
def Prefix (n pn : Str) (fs : List (Str × Json)) : Prop := (pn = [] ∧ Dict.get fs s%"#text" = none) ∨ ∃ p, pn = p ++ s%"/" ∧ Above n p

theorem lastOf_prefix {n pn : Str} {fs : List (Str × Json)} (h : Prefix n pn fs) {k : Str} (hk : '/' ∉ k) : lastOf (pn ++ k) = k := by
  rcases h with ⟨rfl, _⟩ | ⟨p, rfl, _⟩
  · exact lastOf_self hk
  · have : p ++ s%"/" ++ k = p ++ '/' :: k := by simp
    rw [this]; exact lastOf_slash p hk

theorem rstrip_slash {p : Str} (h : p.getLast? ≠ some '/') (hp : p ≠ []) : Py.rstrip (· = '/') (p ++ s%"/") = p := by
  induction p with
  | nil => exact absurd rfl hp
  | cons c p ih =>
    cases p with
    | nil =>
      have : c ≠ '/' := by rintro rfl; simp at h
      simp [Py.rstrip, this]
    | cons d p =>
      have ih := ih (by simpa using h) (by simp)
      simp only [List.cons_append] at ih ⊢
      rw [Py.rstrip, ih]

theorem strip_above {n p : Str} (h : Above n p) : Py.strip (· = '/') (p ++ s%"/") = p := by
  obtain ⟨h1, h2, h3, _⟩ := h
  unfold Py.strip Py.lstrip
  cases p with
  | nil => exact absurd rfl h1
  | cons c p =>
    have : c ≠ '/' := by rintro rfl; simp at h2
    have e : List.dropWhile (fun x => decide (x = '/')) (c :: p ++ s%"/") = c :: p ++ s%"/" := by
      simp [this]
    rw [e]
    exact rstrip_slash h3 h1

theorem getLast_noSlash {k : Str} (h : '/' ∉ k) (x : Str) (hk : k ≠ []) : (x ++ k).getLast? ≠ some '/' := by
  intro e
  rw [List.getLast?_append] at e
  cases hl : k.getLast? with
  | none => exact hk (List.getLast?_eq_none_iff.1 hl)
  | some c =>
    rw [hl] at e
    simp only [Option.some_or, Option.some.injEq] at e
    subst e
    exact h (List.mem_of_getLast? hl)

theorem above_tag {n pn : Str} {fs : List (Str × Json)} (h : Prefix n pn fs) {k : Str} (hk : Tag n k) : Above n (pn ++ k) := by
  obtain ⟨h1, h2, h3, h4, h5, h6⟩ := hk
  refine ⟨by simp [h1], ?_, getLast_noSlash h2 pn h1, ?_⟩
  · rcases h with ⟨rfl, _⟩ | ⟨p, rfl, hp, hh, _⟩
    · intro e
      exact h2 (List.mem_of_head? e)
    · cases p with
      | nil => exact absurd rfl hp
      | cons c p => simpa using hh
  · unfold OwnXml
    rw [lastOf_prefix h h2]
    simp [h3, h6]

theorem above_zero {n p : Str} (hn : n ≠ s%"0") (h : Above n p) : Above n (p ++ s%"/0") := by
  obtain ⟨h1, h2, h3, h4⟩ := h
  refine ⟨by simp, ?_, by simp, ?_⟩
  · cases p with
    | nil => exact absurd rfl h1
    | cons c p => simpa using h2
  · unfold OwnXml
    have : lastOf (p ++ s%"/0") = s%"0" := lastOf_slash p (by decide)
    rw [this]
    rintro (h | h)
    · revert h; decide
    · exact hn h.symm

theorem put_sim {n : Str} {cfg cfg' : FCfg} (h : Both n cfg cfg') (ref : SheetRef) {k : Str} (hk : Head n k) (v : Json) {fl : FLine}
    (hfl : ∀ k ∈ Dict.keys fl, Head n k) {st st' : FState} (hs : StateSim st st') :
    (put cfg ref (dropText k) v (dropLine fl) st).1 = dropLine (put cfg' ref k v fl st').1 ∧ (∀ x ∈ Dict.keys (put cfg' ref k v fl st').1, Head n x) ∧
    StateSim (put cfg ref (dropText k) v (dropLine fl) st).2 (put cfg' ref k v fl st').2 := by
  have ht : cfg.useTitles = false := h.x.titles
  have ht' : cfg'.useTitles = false := by rw [h.eq]; exact ht
  simp only [put, key_fst ht, key_fst ht']
  exact ⟨dropLine_set h.text hfl hk v, head_set hfl hk v, hs.key ht ht' ref _ _⟩

theorem pids_sim {n : Str} {cfg cfg' : FCfg} (h : Both n cfg cfg') (ref : SheetRef) {pids pids' : List (Str × Json)} (hp : All₂ (PidSim n) pids pids') :
    ∀ {fl : FLine} {st st' : FState}, (∀ k ∈ Dict.keys fl, Head n k) → StateSim st st' →
    ∃ fl1 st1 st1', putParentIds cfg ref pids (dropLine fl) st = .ok (dropLine fl1, st1) ∧ putParentIds cfg' ref pids' fl st' = .ok (fl1, st1') ∧
      (∀ k ∈ Dict.keys fl1, Head n k) ∧ StateSim st1 st1' := by
  have hx' : cfg'.xml = false := by rw [h.eq]
  induction hp with
  | nil => intro fl st st' hfl hs; exact ⟨fl, st, st', rfl, rfl, hfl, hs⟩
  | @cons e e' r r' h1 _ ih =>
    intro fl st st' hfl hs
    obtain ⟨k, v⟩ := e
    obtain ⟨k', v'⟩ := e'
    obtain ⟨h2, h3, s, h4, h5⟩ := h1
    simp only at h2 h3 h4 h5
    subst h2 h4 h5
    obtain ⟨h6, h7, h8⟩ := put_sim h ref (.inl h3) (.leaf (.str s)) hfl hs
    rw [dropText_own h.text h3] at h6 h8
    obtain ⟨fl1, st1, st1', h9, h10, h11, h12⟩ := ih h7 h8
    refine ⟨fl1, st1, st1', ?_, ?_, h11, h12⟩
    · have : parentIdValue cfg (.obj [(s%"#text", .leaf (.str s))]) = .ok (.leaf (.str s)) := by
        simp [parentIdValue, h.x.xml, Dict.get_cons]
      simp only [putParentIds, this]
      rw [h6]; exact h9
    · have : parentIdValue cfg' (.leaf (.str s)) = .ok (.leaf (.str s)) := by simp [parentIdValue, hx']
      simp only [putParentIds, this]
      exact h10

theorem xget_id {n : Str} (hn : n ≠ s%"#text" ∧ n ≠ s%"text()" ∧ isAttribute n = false) : {fs gs : List (Str × Json)} → XmlFields n fs gs →
    (Dict.get fs n = none ∧ Dict.get gs n = none) ∨ ∃ s, Dict.get fs n = some (.obj [(s%"#text", .leaf (.str s))]) ∧ Dict.get gs n = some (.leaf (.str s))
  | _, _, .nil => by left; simp
  | _, _, .attr (k := k) h1 _ h2 => by
    have : k ≠ n := by rintro rfl; rw [hn.2.2] at h1; cases h1
    simp only [Dict.get_cons, if_neg this]
    exact xget_id hn h2
  | _, _, .text => by
    left
    simp only [Dict.get_cons, if_neg hn.1.symm, if_neg hn.2.1.symm]
    simp
  | _, _, .id (s := s) _ => by right; exact ⟨s, by simp [Dict.get_cons], by simp [Dict.get_cons]⟩
  | _, _, .one h1 _ h3 => by
    simp only [Dict.get_cons, if_neg h1.2.2.2.2.2]
    exact xget_id hn h3
  | _, _, .many h1 _ _ h3 => by
    simp only [Dict.get_cons, if_neg h1.2.2.2.2.2]
    exact xget_id hn h3

theorem own_id {n pn : Str} {fs : List (Str × Json)} (hn : '/' ∉ n) (h : Prefix n pn fs) : OwnXml n (pn ++ n) := .inr (lastOf_prefix h hn)

theorem prologue_sim {n : Str} {cfg cfg' : FCfg} (h : Both n cfg cfg') (ref : SheetRef) {pn : Str} (topSub : Bool)
    {pids pids' : List (Str × Json)} (hp : All₂ (PidSim n) pids pids') {flat : Option FLine} (hfl : ∀ k ∈ Dict.keys (flat.getD []), Head n k)
    {fs gs : List (Str × Json)} (hf : XmlFields n fs gs) (hpn : Prefix n pn fs) {st st' : FState} (hs : StateSim st st') :
    ∃ pids1 pids1' fl1 st1 st1', prologue cfg ref pn topSub pids (flat.map dropLine) fs st = .ok (.go pids1 (dropLine fl1) false st1) ∧
      prologue cfg' ref pn topSub pids' flat gs st' = .ok (.go pids1' fl1 false st1') ∧ All₂ (PidSim n) pids1 pids1' ∧
      (∀ k ∈ Dict.keys fl1, Head n k) ∧ StateSim st1 st1' := by
  have e1 : ∀ (c : FCfg) fl gs st, c.wkt = false → geoStage c ref pn fl gs st = .ok (some (fl, false), st) := by
    intro c fl gs st hc; simp [geoStage, hc]
  have e2 : ∀ (c : FCfg) gs, c.filter = none → filteredOut c pn gs = false := by intro c gs hc; simp [filteredOut, hc]
  have ht : cfg.useTitles = false := h.x.titles
  have ht' : cfg'.useTitles = false := by rw [h.eq]; exact ht
  have hid : cfg'.idName = cfg.idName := by rw [h.eq]
  have hstart : ∃ fl1 st1 st1', startLine cfg ref topSub pids ((flat.map dropLine).getD []) st = .ok (dropLine fl1, st1) ∧
      startLine cfg' ref topSub pids' (flat.getD []) st' = .ok (fl1, st1') ∧ (∀ k ∈ Dict.keys fl1, Head n k) ∧ StateSim st1 st1' := by
    have : (flat.map dropLine).getD [] = dropLine (flat.getD []) := by cases flat <;> rfl
    rw [this]
    unfold startLine
    cases topSub with
    | true => exact pids_sim h ref hp hfl hs
    | false => exact ⟨_, st, st', rfl, rfl, hfl, hs⟩
  obtain ⟨fl1, st1, st1', h1, h2, h3, h4⟩ := hstart
  have hadd : ∃ q q' s s', addId cfg ref (pn ++ cfg.idName) cfg.idName fs pids st1 = (q, s) ∧ addId cfg' ref (pn ++ cfg.idName) cfg.idName gs pids' st1' = (q', s') ∧
      All₂ (PidSim n) q q' ∧ StateSim s s' := by
    rw [h.x.idName]
    unfold addId
    rcases xget_id ⟨h.name.2.1, h.name.2.2, h.name.1⟩ hf with ⟨h5, h6⟩ | ⟨s, h5, h6⟩
    · rw [h5, h6]; exact ⟨_, _, _, _, rfl, rfl, hp, h4⟩
    · rw [h5, h6]
      refine ⟨_, _, _, _, rfl, rfl, ?_, h4.key ht ht' ref _ _⟩
      rw [key_fst ht, key_fst ht']
      have ho : OwnXml n (pn ++ n) := own_id h.good.2.1 hpn
      clear h5 h6 hf hs h1 h2
      induction hp with
      | nil => exact .cons ⟨rfl, ho, s, rfl, rfl⟩ .nil
      | @cons e e' r r' g1 g2 ih =>
        obtain ⟨k1, x⟩ := e
        obtain ⟨k2, y⟩ := e'
        have g3 := g1.1
        simp only at g3
        subst g3
        simp only [Dict.set]
        by_cases hk : k1 = pn ++ n
        · rw [if_pos hk, if_pos hk]; exact .cons ⟨rfl, hk ▸ ho, s, rfl, rfl⟩ g2
        · rw [if_neg hk, if_neg hk]; exact .cons g1 ih
  obtain ⟨q, q', s, s', h5, h6, h7, h8⟩ := hadd
  refine ⟨q, q', fl1, s, s', ?_, ?_, h7, h3, h8⟩
  · unfold prologue
    simp only [e1 cfg _ _ _ h.x.wkt, e2 cfg _ h.x.filter, Bool.false_eq_true, if_false, h1, addRootId, h.x.rootId, h5]
  · have w' : cfg'.wkt = false := by rw [h.eq]; exact h.x.wkt
    have f' : cfg'.filter = none := by rw [h.eq]; exact h.x.filter
    have r' : cfg'.rootId = none := by rw [h.eq]; exact h.x.rootId
    unfold prologue
    simp only [e1 cfg' _ _ _ w', e2 cfg' _ f', Bool.false_eq_true, if_false, h2, addRootId, r', hid, h6]

theorem joinArray_objs (fs : List (Str × Json)) (l : List Json) : joinArray (.obj fs :: l) = none := by
  simp [joinArray, basicStr, innerJoin]

theorem dropped_none {cfg : FCfg} (h : cfg.preserve = []) (pn key : Str) : dropped cfg pn key = false := by simp [dropped, h]

theorem Prefix.tail {n pn : Str} {e : Str × Json} {r : List (Str × Json)} (h : Prefix n pn (e :: r)) : Prefix n pn r := by
  rcases h with ⟨rfl, h⟩ | h
  · left
    refine ⟨rfl, ?_⟩
    rw [Dict.get_cons] at h
    split at h
    · cases h
    · exact h
  · exact .inr h

theorem isAttribute_ne {k x : Str} (h : isAttribute k = true) (hx : isAttribute x = false) : k ≠ x := by
  rintro rfl; rw [h] at hx; cases hx

mutual
theorem fields_sim {n : Str} {cfg cfg' : FCfg} (h : Both n cfg cfg') : {fs gs : List (Str × Json)} → XmlFields n fs gs →
    ∀ (ref : SheetRef) {pn : Str} {pids pids' : List (Str × Json)} {fl : FLine} {st st' : FState}, All₂ (PidSim n) pids pids' →
    (∀ k ∈ Dict.keys fl, Head n k) → Prefix n pn fs → StateSim st st' →
    ∃ fl1 st1 st1', parseFields cfg ref pn pids false fs (dropLine fl) st = .ok (dropLine fl1, st1) ∧
      parseFields cfg' ref pn pids' false gs fl st' = .ok (fl1, st1') ∧ (∀ k ∈ Dict.keys fl1, Head n k) ∧ StateSim st1 st1'
  | _, _, .nil => by
    intro ref pn pids pids' fl st st' hp hfl hpn hs
    exact ⟨fl, st, st', by simp [parseFields], by simp [parseFields], hfl, hs⟩
  | _, _, .attr (k := k) (s := s) (fs := fs) (gs := gs) hk hsl hr => by
    intro ref pn pids pids' fl st st' hp hfl hpn hs
    have hd : dropped cfg pn k = false := dropped_none h.x.preserve pn k
    have hd' : dropped cfg' pn k = false := dropped_none (by rw [h.eq]; exact h.x.preserve) pn k
    have ho : OwnXml n (pn ++ k) := .inl (by rw [lastOf_prefix hpn hsl]; exact hk)
    have hs1 := hs.seen (st.seen ++ [Py.replaceAll s%"/0" [] pn ++ k]) (st'.seen ++ [Py.replaceAll s%"/0" [] pn ++ k])
    obtain ⟨h1, h2, h3⟩ := put_sim h ref (.inl ho) (.leaf (.str s)) hfl hs1
    rw [dropText_own h.text ho] at h1 h3
    obtain ⟨fl1, st1, st1', h4, h5, h6, h7⟩ := fields_sim h hr ref hp h2 hpn.tail h3
    refine ⟨fl1, st1, st1', ?_, ?_, h6, h7⟩
    · have hne : k ≠ s%"#text" := isAttribute_ne hk (by decide)
      simp only [parseFields, Bool.false_and, Bool.false_eq_true, if_false, hd, parseValue, Atom.basic, if_true, h.x.xml, hne, decide_false, Bool.and_false, andThen]
      rw [h1]; exact h4
    · have hx' : cfg'.xml = false := by rw [h.eq]
      simp only [parseFields, Bool.false_and, Bool.false_eq_true, if_false, hd', parseValue, Atom.basic, if_true, hx', andThen]
      exact h5
  | _, _, .text (s := s) => by
    intro ref pn pids pids' fl st st' hp hfl hpn hs
    have hd : dropped cfg pn s%"#text" = false := dropped_none h.x.preserve pn _
    have hd' : dropped cfg' pn s%"text()" = false := dropped_none (by rw [h.eq]; exact h.x.preserve) pn _
    rcases hpn with ⟨-, hg⟩ | ⟨p, rfl, hab⟩
    · simp [Dict.get_cons] at hg
    · have hs1 := hs.seen (st.seen ++ [Py.replaceAll s%"/0" [] (p ++ s%"/") ++ s%"#text"]) (st'.seen ++ [Py.replaceAll s%"/0" [] (p ++ s%"/") ++ s%"text()"])
      have hh : Head n (p ++ s%"/text()") := .inr ⟨p, rfl, hab.2.2.2⟩
      obtain ⟨h1, h2, h3⟩ := put_sim h ref hh (.leaf (.str s)) hfl hs1
      rw [dropText_text] at h1 h3
      refine ⟨_, _, _, ?_, ?_, h2, h3⟩
      · simp only [parseFields, Bool.false_and, Bool.false_eq_true, if_false, hd, parseValue, Atom.basic, if_true, h.x.xml, decide_true, Bool.and_true, andThen, strip_above hab]
        rw [h1]
      · have hx' : cfg'.xml = false := by rw [h.eq]
        have e : p ++ s%"/" ++ s%"text()" = p ++ s%"/text()" := by simp
        simp only [parseFields, Bool.false_and, Bool.false_eq_true, if_false, hd', parseValue, Atom.basic, if_true, hx', andThen, e]
  | _, _, .id (s := s) (fs := fs) (gs := gs) hr => by
    intro ref pn pids pids' fl st st' hp hfl hpn hs
    have hd : dropped cfg pn n = false := dropped_none h.x.preserve pn _
    have hd' : dropped cfg' pn n = false := dropped_none (by rw [h.eq]; exact h.x.preserve) pn _
    have hdt : dropped cfg (pn ++ (n ++ s%"/")) s%"#text" = false := dropped_none h.x.preserve _ _
    have ho : OwnXml n (pn ++ n) := own_id h.good.2.1 hpn
    have hs1 := (hs.seen (st.seen ++ [Py.replaceAll s%"/0" [] pn ++ n]) (st'.seen ++ [Py.replaceAll s%"/0" [] pn ++ n])).seen
      (st.seen ++ [Py.replaceAll s%"/0" [] pn ++ n] ++ [Py.replaceAll s%"/0" [] (pn ++ (n ++ s%"/")) ++ s%"#text"]) (st'.seen ++ [Py.replaceAll s%"/0" [] pn ++ n])
    obtain ⟨h1, h2, h3⟩ := put_sim h ref (.inl ho) (.leaf (.str s)) hfl hs1
    rw [dropText_own h.text ho] at h1 h3
    obtain ⟨fl1, st1, st1', h4, h5, h6, h7⟩ := fields_sim h hr ref hp h2 hpn.tail h3
    refine ⟨fl1, st1, st1', ?_, ?_, h6, h7⟩
    · have hstrip : Py.strip (· = '/') (pn ++ (n ++ s%"/")) = pn ++ n := by
        have hne : pn ++ n ≠ [] := by simp [h.good.1]
        have hl := getLast_noSlash h.good.2.1 pn h.good.1
        have hh : (pn ++ n).head? ≠ some '/' := by
          rcases hpn with ⟨rfl, -⟩ | ⟨p, rfl, hp, hh, -⟩
          · intro e; exact h.good.2.1 (List.mem_of_head? e)
          · cases p with
            | nil => exact absurd rfl hp
            | cons c p => simpa using hh
        rw [← List.append_assoc]
        unfold Py.strip Py.lstrip
        cases e : pn ++ n with
        | nil => exact absurd e hne
        | cons c p =>
          rw [e] at hh hl
          have : c ≠ '/' := by rintro rfl; simp at hh
          have e2 : List.dropWhile (fun x => decide (x = '/')) (c :: p ++ s%"/") = c :: p ++ s%"/" := by simp [this]
          rw [e2]
          exact rstrip_slash hl (by simp)
      have hpro : ∀ st0 fl0, prologue cfg ref (pn ++ (n ++ s%"/")) false pids (some fl0) [(s%"#text", .leaf (.str s))] st0 = .ok (.go pids fl0 false st0) := by
        intro st0 fl0
        have : Dict.get [(s%"#text", Json.leaf (.str s))] n = none := by simp [Dict.get_cons, h.name.2.1.symm]
        simp [prologue, geoStage, h.x.wkt, filteredOut, h.x.filter, startLine, addRootId, h.x.rootId, addId, h.x.idName, this]
      simp only [parseFields, Bool.false_and, Bool.false_eq_true, if_false, hd, parseValue, hpro, hdt, Atom.basic, if_true, h.x.xml, decide_true, Bool.and_true,
        andThen, hstrip]
      rw [h1]; exact h4
    · have hx' : cfg'.xml = false := by rw [h.eq]
      simp only [parseFields, Bool.false_and, Bool.false_eq_true, if_false, hd', parseValue, Atom.basic, if_true, hx', andThen]
      exact h5
  | _, _, .one (k := k) (fs := fs) (gs := gs) (r := r) (t := t) hk hf hr => by
    intro ref pn pids pids' fl st st' hp hfl hpn hs
    have hd : dropped cfg pn k = false := dropped_none h.x.preserve pn k
    have hd' : dropped cfg' pn k = false := dropped_none (by rw [h.eq]; exact h.x.preserve) pn k
    have hs1 := hs.seen (st.seen ++ [Py.replaceAll s%"/0" [] pn ++ k]) (st'.seen ++ [Py.replaceAll s%"/0" [] pn ++ k])
    have hpre : Prefix n (pn ++ (k ++ s%"/")) fs := .inr ⟨pn ++ k, by simp, above_tag hpn hk⟩
    obtain ⟨q, q', fl1, st1, st1', h1, h2, h3, h4, h5⟩ := prologue_sim h ref (pn := pn ++ (k ++ s%"/")) false hp (flat := some fl) hfl hf hpre hs1
    obtain ⟨fl2, st2, st2', h6, h7, h8, h9⟩ := fields_sim h hf ref h3 h4 hpre h5
    obtain ⟨fl3, st3, st3', h10, h11, h12, h13⟩ := fields_sim h hr ref hp h8 hpn.tail h9
    simp only [Option.map_some] at h1
    refine ⟨fl3, st3, st3', ?_, ?_, h12, h13⟩
    · simp only [parseFields, Bool.false_and, Bool.false_eq_true, if_false, hd, parseValue, h1, andThen, h6, h10]
    · simp only [parseFields, Bool.false_and, Bool.false_eq_true, if_false, hd', parseValue, h2, andThen, h7, h11]
  | _, _, .many (k := k) (l := l) (m := m) (r := r) (t := t) hk hne hi hr => by
    intro ref pn pids pids' fl st st' hp hfl hpn hs
    have hd : dropped cfg pn k = false := dropped_none h.x.preserve pn k
    have hd' : dropped cfg' pn k = false := dropped_none (by rw [h.eq]; exact h.x.preserve) pn k
    have hs1 := hs.seen (st.seen ++ [Py.replaceAll s%"/0" [] pn ++ k]) (st'.seen ++ [Py.replaceAll s%"/0" [] pn ++ k])
    have hab : Above n (pn ++ k ++ s%"/0") := above_zero h.good.2.2 (above_tag hpn hk)
    have hpre : ∀ fs, Prefix n (pn ++ (k ++ s%"/0/")) fs := fun fs => .inr ⟨pn ++ k ++ s%"/0", by simp, hab⟩
    have hnm : subSheetName cfg pn k = subSheetName cfg' pn k := by
      rw [h.eq]; simp [subSheetName, h.x.titles]
    obtain ⟨st1, st1', h1, h2, h3⟩ := items_sim h hi (subSheetName cfg pn k) hp hpre (hs1.ensure (subSheetName cfg pn k))
    obtain ⟨fl3, st3, st3', h10, h11, h12, h13⟩ := fields_sim h hr ref hp hfl hpn.tail h3
    have hr1 : ∀ is fl st, rollupStage cfg ref pn k is fl st = .ok (fl, st) := by intro is fl st; simp [rollupStage, h.x.rollup]
    have hr2 : ∀ is fl st, rollupStage cfg' ref pn k is fl st = .ok (fl, st) := by
      have : cfg'.rollup = [] := by rw [h.eq]; exact h.x.rollup
      intro is fl st; simp [rollupStage, this]
    have hj : joinArray l = none ∧ joinArray m = none := by
      cases hi with
      | nil => exact absurd rfl hne
      | cons _ _ => exact ⟨joinArray_objs _ _, joinArray_objs _ _⟩
    refine ⟨fl3, st3, st3', ?_, ?_, h12, h13⟩
    · simp only [parseFields, Bool.false_and, Bool.false_eq_true, if_false, hd, parseValue, hj.1, hr1, andThen, h1, h10]
    · simp only [parseFields, Bool.false_and, Bool.false_eq_true, if_false, hd', parseValue, hj.2, hr2, andThen, ← hnm, h2, h11]
theorem items_sim {n : Str} {cfg cfg' : FCfg} (h : Both n cfg cfg') : {l m : List Json} → XmlItems n l m →
    ∀ (name : Str) {pn : Str} {pids pids' : List (Str × Json)} {st st' : FState}, All₂ (PidSim n) pids pids' →
    (∀ fs, Prefix n pn fs) → StateSim st st' →
    ∃ st1 st1', parseItems cfg name pn pids l st = .ok ((), st1) ∧ parseItems cfg' name pn pids' m st' = .ok ((), st1') ∧ StateSim st1 st1'
  | _, _, .nil => by
    intro name pn pids pids' st st' hp hpn hs
    exact ⟨st, st', by simp [parseItems], by simp [parseItems], hs⟩
  | _, _, .cons (fs := fs) (gs := gs) (l := l) (m := m) hf hr => by
    intro name pn pids pids' st st' hp hpn hs
    obtain ⟨q, q', fl1, st1, st1', h1, h2, h3, h4, h5⟩ := prologue_sim h (some name) (pn := pn) true hp (flat := none) (by simp [Dict.keys]) hf (hpn fs) hs
    obtain ⟨fl2, st2, st2', h6, h7, h8, h9⟩ := fields_sim h hf (some name) h3 h4 (hpn fs) h5
    obtain ⟨st3, st3', h10, h11, h12⟩ := items_sim h hr name hp hpn (h9.line (some name) fl2)
    simp only [Option.map_none] at h1
    refine ⟨st3, st3', ?_, ?_, h12⟩
    · simp only [parseItems, h1, andThen, h6, h10]
    · simp only [parseItems, h2, andThen, h7, h11]
end

theorem root_sim {n : Str} {cfg cfg' : FCfg} (h : Both n cfg cfg') : {l m : List Json} → XmlItems n l m →
    (∀ fs ∈ objects l, Dict.get fs s%"#text" = none) → ∀ (i : Nat) {st st' : FState}, StateSim st st' →
    ∃ st1 st1', parseRootList cfg i l st = .ok ((), st1) ∧ parseRootList cfg' i m st' = .ok ((), st1') ∧ StateSim st1 st1'
  | _, _, .nil => by
    intro _ i st st' hs
    exact ⟨st, st', rfl, rfl, hs⟩
  | _, _, .cons (fs := fs) (gs := gs) (l := l) (m := m) hf hr => by
    intro ht i st st' hs
    have hpre : Prefix n [] fs := .inl ⟨rfl, ht fs (by simp [objects])⟩
    obtain ⟨q, q', fl1, st1, st1', h1, h2, h3, h4, h5⟩ := prologue_sim h none (pn := []) false (pids := []) (pids' := []) .nil (flat := none) (by simp [Dict.keys]) hf hpre hs
    obtain ⟨fl2, st2, st2', h6, h7, h8, h9⟩ := fields_sim h hf none h3 h4 hpre h5
    obtain ⟨st3, st3', h10, h11, h12⟩ := root_sim h hr (fun x hx => ht x (by simp only [objects, List.mem_cons]; exact .inr hx)) (i + 1) (h9.line none fl2)
    simp only [Option.map_none] at h1
    refine ⟨st3, st3', ?_, ?_, h12⟩
    · simp only [parseRootList, parseRootItem, h1, andThen, h6]
      exact h10
    · simp only [parseRootList, parseRootItem, h2, andThen, h7]
      exact h11

/-- Flattening in XML mode succeeds, and gives the lines of the data as JSON with the headings of XML mode. -/
theorem xml_lines {n : Str} {cfg cfg' : FCfg} (h : Both n cfg cfg') {l m : List Json} (hx : XmlRoot n l m) :
    ∃ st st', flatten cfg l = .ok st ∧ flatten cfg' m = .ok st' ∧ (sheetsOf st).flatMap (·.lines) = ((sheetsOf st').flatMap (·.lines)).map dropLine := by
  have e1 : initState cfg = {} := by simp [initState, h.x.schema]
  have e2 : initState cfg' = {} := by rw [h.eq]; simp [initState, h.x.schema]
  have hsim : StateSim {} {} := ⟨rfl, .nil⟩
  obtain ⟨st, st', h1, h2, h3⟩ := root_sim h hx.items hx.noText 0 hsim
  refine ⟨finish cfg st, finish cfg' st', by simp only [flatten, e1, h1], by simp only [flatten, e2, h2], ?_⟩
  have hd : ∀ (c : FCfg) s, c.schema = none → (dropEmptySheets c s).main = s.main ∧ (dropEmptySheets c s).subs = s.subs := by
    intro c s hc
    unfold dropEmptySheets
    split
    · refine ⟨rfl, ?_⟩
      simp [isSchemaSheet, hc]
    · exact ⟨rfl, rfl⟩
  have hw : ∀ (c : FCfg) s, (warnMissing c s).main = s.main ∧ (warnMissing c s).subs = s.subs := by
    intro c s
    simp only [warnMissing]
    split <;> exact ⟨rfl, rfl⟩
  have hsame : ∀ (c : FCfg) s, c.schema = none → sheetsOf (finish c s) = sheetsOf s := by
    intro c s hc
    simp only [sheetsOf, finish, (hw _ _).1, (hw _ _).2, (hd c s hc).1, (hd c s hc).2]
  rw [hsame cfg st h.x.schema, hsame cfg' st' (by rw [h.eq]; exact h.x.schema)]
  simp only [sheetsOf, List.flatMap_cons, List.map_append]
  rw [h3.main]
  congr 1
  have := h3.subs
  clear h1 h2 h3 hx
  generalize st.subs = a at this
  generalize st'.subs = b at this
  induction this with
  | nil => rfl
  | cons h1 _ ih =>
    simp only [List.map_cons, List.flatMap_cons, List.map_append]
    rw [ih, h1.2]

end Verif
