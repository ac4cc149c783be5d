import Verif.Spec.TitledTrip
import Verif.Proofs.EmitTitled
import Verif.Proofs.SchemaTitles
/-! Documents that the schema describes: every cell has a title. -/
namespace Verif
open Spec

theorem described_get {cfg : SchemaCfg} {q : Schema} {fs : List (Str × Json)} (h : DescribedFields cfg q fs) {k : Str} {v : Json}
    (hg : Dict.get fs k = some v) : ∃ p, Field cfg q k p ∧ Described cfg p v := by
  induction fs with
  | nil => cases hg
  | cons e r ih =>
    obtain ⟨k', w⟩ := e
    simp only [DescribedFields] at h
    simp only [Dict.get_cons] at hg
    by_cases hk : k' = k
    · subst hk
      simp only [if_true, Option.some.injEq] at hg
      subst hg
      exact h.1
    · simp only [hk, if_false] at hg
      exact ih h.2 hg

/-- The way to a cell. -/
def CellAt (cfg : SchemaCfg) (q : Schema) (p c : List Str) : Prop :=
  ∃ suf q' n x ty, Trail cfg q suf q' ∧ (∀ y ∈ suf, y.list = false) ∧ Field cfg q' n x ∧ kind cfg.wkt x = .column ty ∧ titleOf x ≠ none ∧
    c = p ++ indexed suf ++ [n]

theorem CellAt.step {cfg : SchemaCfg} {q x : Schema} {p c : List Str} {k : Str} (hf : Field cfg q k x) (hk : kind cfg.wkt x = .object)
    (h : CellAt cfg x (p ++ [k]) c) : CellAt cfg q p c := by
  obtain ⟨suf, q', n, y, ty, h1, h2, h3, h4, h5, h6⟩ := h
  refine ⟨⟨k, x, false⟩ :: suf, q', n, y, ty, .object hf hk h1, ?_, h3, h4, h5, ?_⟩
  · intro z hz
    rcases List.mem_cons.1 hz with rfl | hz
    · rfl
    · exact h2 z hz
  · rw [h6]; simp [indexed]

mutual
theorem cells_described {cfg : SchemaCfg} (q : Schema) (p : List Str) (fs : List (Str × Json)) (h : DescribedFields cfg q fs) :
    ∀ c ∈ cells everything p fs, CellAt cfg q p c.1 := by
  cases fs with
  | nil => simp [cells]
  | cons e r =>
    obtain ⟨k, v⟩ := e
    simp only [DescribedFields] at h
    obtain ⟨⟨x, hf, hd⟩, hr⟩ := h
    intro c hc
    simp only [cells, everything, if_true, List.mem_append] at hc
    rcases hc with hc | hc
    · exact value_described q x p k v hf hd c hc
    · exact cells_described q p r hr c hc
termination_by structural fs
theorem value_described {cfg : SchemaCfg} (q x : Schema) (p : List Str) (k : Str) (v : Json) (hf : Field cfg q k x) (h : Described cfg x v) :
    ∀ c ∈ valueCells everything (p ++ [k]) v, CellAt cfg q p c.1 := by
  cases v with
  | leaf a =>
    simp only [Described] at h
    obtain ⟨⟨ty, h1⟩, h2⟩ := h
    intro c hc
    simp only [valueCells, List.mem_singleton] at hc
    subst hc
    exact ⟨[], q, k, x, ty, .here q, by simp, hf, h1, h2, by simp [indexed]⟩
  | obj fs =>
    simp only [Described] at h
    intro c hc
    simp only [valueCells] at hc
    exact (cells_described x (p ++ [k]) fs h.2 c hc).step hf h.1
  | arr l =>
    simp only [Described] at h
    intro c hc
    simp only [valueCells] at hc
    rcases h with ⟨h0, ⟨ty, h1⟩, h2⟩ | ⟨h0, _⟩
    · split at hc
      · simp only [List.mem_singleton] at hc
        subst hc
        exact ⟨[], q, k, x, ty, .here q, by simp, hf, h1, h2, by simp [indexed]⟩
      · cases hc
    · rw [h0] at hc; cases hc
termination_by structural v
end

theorem Trail.append {cfg : SchemaCfg} {s q q' : Schema} {a b : List Hop} (h1 : Trail cfg s a q) (h2 : Trail cfg q b q') : Trail cfg s (a ++ b) q' := by
  induction h1 with
  | here => exact h2
  | object hf hk _ ih => exact .object hf hk (ih h2)
  | list hf hk hi _ ih => exact .list hf hk hi (ih h2)

/-- An object of the document and the schema that describes it. -/
def AroundAt (T : Trip) (cfg : SchemaCfg) (s : Schema) (a : List Str × List (Str × Json)) : Prop :=
  ∃ steps q, Trail cfg s steps q ∧ a.1 = indexed steps ∧ DescribedFields cfg q a.2 ∧ T.Object a.2 ∧ (steps = [] ∨ T.NoRoot a.2)

/-- The way to an object in an array. -/
def ItemAt (T : Trip) (cfg : SchemaCfg) (s : Schema) (i : Item) : Prop :=
  (∃ pre y m x it, Trail cfg s pre y ∧ Field cfg y m x ∧ kind cfg.wkt x = .objects ∧ x.items = some it ∧ i.array = indexed pre ++ [m] ∧
    DescribedFields cfg it i.fields) ∧ ∀ a ∈ i.around, AroundAt T cfg s a

mutual
theorem items_described {T : Trip} {cfg : SchemaCfg} (ks : List Str) (s q : Schema) (steps : List Hop) (around : List (List Str × List (Str × Json))) (fs : List (Str × Json))
    (ht : Trail cfg s steps q) (ha : ∀ a ∈ around, AroundAt T cfg s a) (h : DescribedFields cfg q fs) (hF : T.FitsFields ks fs) :
    ∀ i ∈ items everything (indexed steps) around fs, ItemAt T cfg s i := by
  cases fs with
  | nil => simp [items]
  | cons e r =>
    obtain ⟨k, v⟩ := e
    simp only [DescribedFields] at h
    simp only [Trip.FitsFields] at hF
    obtain ⟨⟨x, hf, hd⟩, hr⟩ := h
    intro i hi
    simp only [items, everything, if_true, List.mem_append] at hi
    rcases hi with hi | hi
    · exact valueItems_described (ks ++ [k]) s q x steps around k v ht ha hf hd hF.1 i hi
    · exact items_described ks s q steps around r ht ha hr hF.2 i hi
termination_by structural fs
theorem valueItems_described {T : Trip} {cfg : SchemaCfg} (ks : List Str) (s q x : Schema) (steps : List Hop) (around : List (List Str × List (Str × Json))) (k : Str) (v : Json)
    (ht : Trail cfg s steps q) (ha : ∀ a ∈ around, AroundAt T cfg s a) (hf : Field cfg q k x) (h : Described cfg x v) (hF : T.Fits ks v) :
    ∀ i ∈ valueItems everything (indexed steps ++ [k]) around v, ItemAt T cfg s i := by
  cases v with
  | leaf a => simp [valueItems]
  | obj fs =>
    simp only [Described] at h
    simp only [Trip.Fits] at hF
    intro i hi
    simp only [valueItems] at hi
    have ht' : Trail cfg s (steps ++ [⟨k, x, false⟩]) x := Trail.append ht (.object hf h.1 (.here x))
    have e : indexed steps ++ [k] = indexed (steps ++ [⟨k, x, false⟩]) := by rw [indexed_append]; simp [indexed]
    rw [e] at hi
    refine items_described ks s x _ _ fs ht' ?_ h.2 hF.2.2.2 i hi
    intro a ham
    rcases List.mem_append.1 ham with ham | ham
    · exact ha a ham
    · simp only [List.mem_singleton] at ham
      subst ham
      exact ⟨_, x, ht', rfl, h.2, hF.2.1, .inr hF.2.2.1⟩
  | arr l =>
    simp only [Described] at h
    simp only [Trip.Fits] at hF
    intro i hi
    simp only [valueItems] at hi
    rcases h with ⟨h0, _⟩ | ⟨h0, h1, it, h2, h3⟩
    · split at hi
      · cases hi
      · next hj => exact absurd hj h0
    · rw [h0] at hi
      rcases hF with ⟨t, hF, _⟩ | hF
      · rw [h0] at hF; cases hF
      exact arrayItems_described ks s q x it steps around k l ht ha hf h1 h2 h3 hF.2.2.1 i hi
termination_by structural v
theorem arrayItems_described {T : Trip} {cfg : SchemaCfg} (ks : List Str) (s q x it : Schema) (steps : List Hop) (around : List (List Str × List (Str × Json))) (k : Str) (l : List Json)
    (ht : Trail cfg s steps q) (ha : ∀ a ∈ around, AroundAt T cfg s a) (hf : Field cfg q k x) (hk : kind cfg.wkt x = .objects) (hit : x.items = some it)
    (h : DescribedItems cfg it l) (hF : T.FitsItems ks l) : ∀ i ∈ arrayItems everything (indexed steps ++ [k]) around l, ItemAt T cfg s i := by
  cases l with
  | nil => simp [arrayItems]
  | cons j r =>
    cases j with
    | leaf a => simp [DescribedItems] at h
    | arr a => simp [DescribedItems] at h
    | obj fs =>
      simp only [DescribedItems] at h
      simp only [Trip.FitsItems] at hF
      intro i hi
      simp only [arrayItems, List.mem_append, List.mem_cons] at hi
      have ht' : Trail cfg s (steps ++ [⟨k, x, true⟩]) it := Trail.append ht (.list hf hk hit (.here it))
      have e : indexed steps ++ [k] ++ [s%"0"] = indexed (steps ++ [⟨k, x, true⟩]) := by rw [indexed_append]; simp [indexed]
      rcases hi with hi | hi | hi
      · rw [e] at hi
        refine items_described ks s it _ _ fs ht' ?_ h.1 hF.1.2.2.2 i hi
        intro a ham
        rcases List.mem_append.1 ham with ham | ham
        · exact ha a ham
        · simp only [List.mem_singleton] at ham
          subst ham
          exact ⟨_, it, ht', rfl, h.1, hF.1.1, .inr hF.1.2.1⟩
      · subst hi
        exact ⟨⟨steps, q, k, x, it, ht, hf, hk, hit, rfl, h.1⟩, ha⟩
      · exact arrayItems_described ks s q x it steps around k r ht ha hf hk hit h.2 hF.2 i hi
termination_by structural l
end

end Verif
