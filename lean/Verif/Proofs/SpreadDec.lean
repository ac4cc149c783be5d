import Verif.Proofs.SpreadRun
import Verif.Proofs.DecEq
/-! Checking the hypotheses of C78 on concrete spreadsheets. -/
namespace Verif
open Spec

/-- The positions a line fills, with their values. -/
def entries (cfg : RowCfg) (l : Line) : List (Addr × Val) :=
  (columns l).filterMap (fun c => match c.addr cfg, c.value cfg with
    | some a, .ok (v, _) => some (a, v)
    | _, _ => none)

theorem contentOf_entries {cfg : RowCfg} {l : Line} {a : Addr} {v : Val} (h : contentOf cfg (columns l) a = some v) : (a, v) ∈ entries cfg l := by
  obtain ⟨c, hc, ha, w, hw⟩ := contentOf_addr h
  exact List.mem_filterMap.2 ⟨c, hc, by rw [ha, hw]⟩

def compatibleB : Addr → Addr → Bool
  | (k, none) :: p, (k', none) :: q => k != k' || compatibleB p q
  | (k, some i) :: p, (k', some j) :: q => k != k' || i != j || compatibleB p q
  | (k, _) :: _, (k', _) :: _ => k != k'
  | _, _ => false

def splits {α : Type} : List α → List (List α × List α)
  | [] => [([], [])]
  | x :: r => ([], x :: r) :: (splits r).map (fun p => (x :: p.1, p.2))

theorem splits_mem {α : Type} : ∀ a b : List α, (a, b) ∈ splits (a ++ b)
  | [], b => by cases b <;> simp [splits]
  | x :: a, b => by
    simp only [List.cons_append, splits, List.mem_cons, List.mem_map]
    exact .inr ⟨(a, b), splits_mem a b, rfl⟩

def itemOkB (m : Str) (f : Content) (a : Addr) : Bool :=
  (splits a).all (fun p => match p.2 with
    | (k, some i) :: _ => (match f (p.1 ++ [(k, some i), (m, none)]) with
      | some w => w.hashable
      | none => false)
    | _ => true)

/-- The last two steps of a position. -/
def lastTwo (a : Addr) : Option (Addr × Str × Int × Str) :=
  match a.reverse with
  | (m, none) :: (k, some i) :: r => some (r.reverse, k, i, m)
  | _ => none

theorem lastTwo_eq (A : Addr) (k : Str) (i : Int) (m : Str) : lastTwo (A ++ [(k, some i), (m, none)]) = some (A, k, i, m) := by
  simp [lastTwo]

def distinctB (m : Str) (es : List (Addr × Val)) : Bool :=
  es.all (fun x => es.all (fun y => match lastTwo x.1, lastTwo y.1 with
    | some (A, k, i, n), some (A', k', j, n') => !(n == m && n' == m && A == A' && k == k' && i != j) || !x.2.pyEq y.2
    | _, _ => true))

def pairwiseB {α : Type} (R : α → α → Bool) : List α → Bool
  | [] => true
  | x :: r => r.all (R x) && pairwiseB R r

theorem pairwiseB_spec {α : Type} {R : α → α → Bool} {S : α → α → Prop} (h : ∀ x y, R x y = true → S x y) : ∀ l, pairwiseB R l = true → l.Pairwise S
  | [], _ => .nil
  | x :: r, e => by
    simp only [pairwiseB, Bool.and_eq_true, List.all_eq_true] at e
    exact .cons (fun y hy => h _ _ (e.1 y hy)) (pairwiseB_spec h r e.2)

def namesAllB (cfg : UnCfg) (m : Str) (l : Line) : Bool :=
  (columns l).all (fun c => (c.addr cfg.row).isSome) &&
  pairwiseB compatibleB ((columns l).map (fun c => (c.addr cfg.row).getD [])) &&
  (columns l).all (fun c => match c.value cfg.row with
    | .ok (.geo _, _) => false
    | .ok (v, _) => !v.blank && v.pyEq v
    | .error _ => false) &&
  (match contentOf cfg.row (columns l) [(m, none)] with
    | some v => v.hashable
    | none => false) &&
  (entries cfg.row l).all (fun x => itemOkB m (contentOf cfg.row (columns l)) x.1) &&
  distinctB m (entries cfg.row l) &&
  atomEq (rootCell cfg.rootId l) (rootCell cfg.rootId l)

theorem compatibleB_spec : ∀ a b, compatibleB a b = true → Compatible a b := by
  intro a b h
  fun_induction compatibleB a b with
  | _ => simp_all [Compatible] <;> grind

theorem namesAllB_spec {cfg : UnCfg} {m : Str} {l : Line} (h : namesAllB cfg m l = true) : NamesAll cfg m l := by
  simp only [namesAllB, Bool.and_eq_true] at h
  obtain ⟨⟨⟨⟨⟨⟨h1, h2⟩, h3⟩, h4⟩, h5⟩, h6⟩, h7⟩ := h
  refine ⟨?_, pairwiseB_spec compatibleB_spec _ h2, ?_, ?_, ?_, ?_, h7⟩
  · intro c hc e
    have := List.all_eq_true.1 h1 c hc
    rw [e] at this; cases this
  · intro c hc
    have := List.all_eq_true.1 h3 c hc
    cases hv : c.value cfg.row with
    | error e => rw [hv] at this; cases this
    | ok p =>
      obtain ⟨v, w⟩ := p
      rw [hv] at this
      refine ⟨v, w, rfl, ?_⟩
      cases v with
      | geo _ => cases this
      | _ => simp only [Bool.and_eq_true, Bool.not_eq_true'] at this; exact ⟨this.1, this.2, by intro g e; cases e⟩
  · cases hv : contentOf cfg.row (columns l) [(m, none)] with
    | none => rw [hv] at h4; cases h4
    | some v => rw [hv] at h4; exact ⟨v, rfl, h4⟩
  · intro A k i B v hv
    have := List.all_eq_true.1 h5 _ (contentOf_entries hv)
    have := List.all_eq_true.1 this _ (splits_mem A ((k, some i) :: B))
    simp only at this
    cases hw : contentOf cfg.row (columns l) (A ++ [(k, some i), (m, none)]) with
    | none => rw [hw] at this; cases this
    | some w => rw [hw] at this; exact ⟨w, rfl, this⟩
  · intro above key i j n a b hn hij ha hb
    cases hn
    have := List.all_eq_true.1 (List.all_eq_true.1 h6 _ (contentOf_entries ha)) _ (contentOf_entries hb)
    simp only [lastTwo_eq] at this
    simpa [hij] using this

/-- What a line says. -/
def factsOf (cfg : UnCfg) (m : Str) (l : Line) : List Fact :=
  match contentOf cfg.row (columns l) [(m, none)] with
  | none => []
  | some i => (entries cfg.row l).filterMap (fun x => (namedPos m (contentOf cfg.row (columns l)) x.1).map (fun p => ⟨rootCell cfg.rootId l, i, p, x.2⟩))

theorem says_facts {cfg : UnCfg} {m : Str} {l : Line} {x : Fact} (h : Says cfg m l x) : x ∈ factsOf cfg m l := by
  obtain ⟨h1, h2, a, h3, h4⟩ := h
  simp only [factsOf, h2]
  refine List.mem_filterMap.2 ⟨_, contentOf_entries h3, ?_⟩
  simp only [h4, Option.map_some, Option.some.injEq]
  obtain ⟨r, i, p, v⟩ := x
  simp_all

/-- The entries are the content (this is checked, on concrete lines). -/
def truthful (cfg : UnCfg) (l : Line) : Bool := (entries cfg.row l).all (fun x => contentOf cfg.row (columns l) x.1 == some x.2)

theorem facts_says {cfg : UnCfg} {m : Str} {l : Line} (ht : truthful cfg l = true) {x : Fact} (h : x ∈ factsOf cfg m l) : Says cfg m l x := by
  unfold factsOf at h
  split at h
  · cases h
  · rename_i i hi
    obtain ⟨e, he, hx⟩ := List.mem_filterMap.1 h
    obtain ⟨p, hp, rfl⟩ := Option.map_eq_some_iff.1 hx
    have := List.all_eq_true.1 ht e he
    exact ⟨rfl, hi, e.1, by simpa using this, hp⟩

def sameNamedB : NamedPos → NamedPos → Bool
  | [], [] => true
  | (k, some v) :: p, (k', some w) :: q => k == k' && v.pyEq w && sameNamedB p q
  | (k, none) :: p, (k', none) :: q => k == k' && sameNamedB p q
  | _, _ => false

theorem sameNamedB_iff : ∀ p q, sameNamedB p q = true ↔ SameNamed p q := by
  intro p q
  unfold SameNamed
  fun_induction sameNamedB p q with
  | case1 => simp [All₂.nil]
  | case2 k v p k' w q ih =>
    simp only [Bool.and_eq_true, beq_iff_eq, ih]
    exact ⟨fun h => .cons h.1 h.2, fun h => by cases h with | cons h1 h2 => exact ⟨h1, h2⟩⟩
  | case3 k p k' q ih =>
    simp only [Bool.and_eq_true, beq_iff_eq, ih]
    exact ⟨fun h => .cons ⟨h.1, trivial⟩ h.2, fun h => by cases h with | cons h1 h2 => exact ⟨h1.1, h2⟩⟩
  | case4 p q h1 h2 h3 =>
    simp only [Bool.false_eq_true, false_iff]
    intro h
    cases h with
    | nil => exact h1 rfl rfl
    | @cons s t l m h h' =>
      obtain ⟨k, v⟩ := s
      obtain ⟨k', w⟩ := t
      cases v <;> cases w
      · exact h3 _ _ _ _ rfl rfl
      · exact absurd h.2 id
      · exact absurd h.2 id
      · exact h2 _ _ _ _ _ _ rfl rfl

def fitNamedB : NamedPos → NamedPos → Bool
  | [], [] => true
  | (k, none) :: p, (k', none) :: q => k != k' || fitNamedB p q
  | (k, some v) :: p, (k', some w) :: q => k != k' || !v.pyEq w || fitNamedB p q
  | (k, _) :: _, (k', _) :: _ => k != k'
  | _, _ => false

theorem fitNamedB_spec : ∀ p q, fitNamedB p q = true → FitNamed p q := by
  intro p q h
  fun_induction fitNamedB p q with
  | _ => simp_all [FitNamed] <;> grind

def Spec.Fact.sameB (x y : Fact) : Bool := atomEq x.root y.root && x.id.pyEq y.id && sameNamedB x.pos y.pos && x.value.pyEq y.value

def Spec.Fact.agreeB (x y : Fact) : Bool :=
  !(atomEq x.root y.root && x.id.pyEq y.id) || fitNamedB x.pos y.pos && (!sameNamedB x.pos y.pos || x.value.pyEq y.value)

theorem sameB_spec {x y : Fact} (h : x.sameB y = true) : x.Same y := by
  simp only [Spec.Fact.sameB, Bool.and_eq_true, sameNamedB_iff] at h
  exact ⟨h.1.1, h.1.2, h.2⟩

theorem agreeB_spec {x y : Fact} (h : x.agreeB y = true) : x.Agree y := by
  intro ⟨h1, h2⟩
  simp only [Spec.Fact.agreeB, h1, h2, Bool.and_eq_true, Bool.or_eq_true, Bool.not_eq_true', Bool.true_and, Bool.not_true, Bool.false_or, Bool.and_self] at h
  refine ⟨fitNamedB_spec _ _ h.1, fun hs => ?_⟩
  rw [← sameNamedB_iff] at hs
  rcases h.2 with h | h
  · rw [hs] at h; cases h
  · exact h

def allFacts (cfg : UnCfg) (m : Str) (sheets : List SheetIn) : List Fact := (rowsIn sheets).flatMap (fun r => factsOf cfg m r.line)

theorem said_facts {cfg : UnCfg} {m : Str} {sheets : List SheetIn} {x : Fact} (h : Said cfg m sheets x) : x ∈ allFacts cfg m sheets := by
  obtain ⟨r, hr, hx⟩ := h
  exact List.mem_flatMap.2 ⟨r, hr, says_facts hx⟩

theorem facts_said {cfg : UnCfg} {m : Str} {sheets : List SheetIn} (ht : (rowsIn sheets).all (fun r => truthful cfg r.line) = true) {x : Fact}
    (h : x ∈ allFacts cfg m sheets) : Said cfg m sheets x := by
  obtain ⟨r, hr, hx⟩ := List.mem_flatMap.1 h
  exact ⟨r, hr, facts_says (List.all_eq_true.1 ht r hr) hx⟩

theorem namesAll_all {cfg : UnCfg} {m : Str} {sheets : List SheetIn} (h : (rowsIn sheets).all (fun r => namesAllB cfg m r.line) = true) :
    ∀ r ∈ rowsIn sheets, NamesAll cfg m r.line := fun r hr => namesAllB_spec (List.all_eq_true.1 h r hr)

theorem agree_all {cfg : UnCfg} {m : Str} {sheets : List SheetIn}
    (h : (allFacts cfg m sheets).all (fun x => (allFacts cfg m sheets).all (fun y => x.agreeB y)) = true) :
    ∀ x y, Said cfg m sheets x → Said cfg m sheets y → x.Agree y := fun x y hx hy =>
  agreeB_spec (List.all_eq_true.1 (List.all_eq_true.1 h x (said_facts hx)) y (said_facts hy))

def coveredB (cfg : UnCfg) (m : Str) (sheets sheets' : List SheetIn) : Bool :=
  (allFacts cfg m sheets).all (fun x => (allFacts cfg m sheets').any (fun y => x.sameB y))

theorem sameSaid_all {cfg : UnCfg} {m : Str} {sheets sheets' : List SheetIn}
    (ht : (rowsIn sheets).all (fun r => truthful cfg r.line) = true) (ht' : (rowsIn sheets').all (fun r => truthful cfg r.line) = true)
    (h : coveredB cfg m sheets sheets' = true) (h' : coveredB cfg m sheets' sheets = true) : SameSaid cfg m sheets sheets' := by
  constructor
  · intro x hx
    obtain ⟨y, hy, he⟩ := List.any_eq_true.1 (List.all_eq_true.1 h x (said_facts hx))
    exact ⟨y, facts_said ht' hy, sameB_spec he⟩
  · intro x hx
    obtain ⟨y, hy, he⟩ := List.any_eq_true.1 (List.all_eq_true.1 h' x (said_facts hx))
    exact ⟨y, facts_said ht hy, sameB_spec he⟩

end Verif
