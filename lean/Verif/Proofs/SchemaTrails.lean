import Verif.Proofs.SchemaTrack
import Verif.Proofs.EmitPlain
import Verif.Proofs.Str
/-! What the schema parser adds, in terms of trails through the schema. -/
namespace Verif
open Spec

/-- The schema a step leads to. -/
def stepTo (x : Hop) : Schema := if x.list then x.prop.items.getD x.prop else x.prop

/-- The context of the parser after some steps. -/
def ctxAt (cfg : SchemaCfg) : SCtx → Schema → List Hop → SCtx
  | ctx, _, [] => ctx
  | ctx, s, x :: r =>
    ctxAt cfg (childCtx ctx (ctx.parentPath ++ (if x.list then x.name ++ s%"/0" else x.name)) (idsBelow cfg ctx s) (titleOf x.prop))
      (stepTo x) r

theorem pev_trail {cfg : SchemaCfg} {ctx : SCtx} {s : Schema} {e : SEv} :
    PEv cfg ctx s e ↔ ∃ steps q n p, Trail cfg s steps q ∧ Field cfg q n p ∧
      LEv cfg (ctxAt cfg ctx s steps) (idsBelow cfg (ctxAt cfg ctx s steps) q) n p e := by
  constructor
  · intro h
    induction h with
    | here h1 h2 => exact ⟨[], _, _, _, .here _, h1, h2⟩
    | object h1 h2 _ ih =>
      obtain ⟨steps, q, n, p, ht, hf, hl⟩ := ih
      exact ⟨_ :: steps, q, n, p, .object h1 h2 ht, hf, hl⟩
    | list h1 h2 h3 _ ih =>
      obtain ⟨steps, q, n, p, ht, hf, hl⟩ := ih
      refine ⟨_ :: steps, q, n, p, .list h1 h2 h3 ht, hf, ?_⟩
      simpa [ctxAt, stepTo, h3] using hl
  · rintro ⟨steps, q, n, p, ht, hf, hl⟩
    induction ht generalizing ctx with
    | here => exact .here hf hl
    | object h1 h2 _ ih => exact .object h1 h2 (ih hf (by simpa [ctxAt, stepTo] using hl))
    | list h1 h2 h3 _ ih => exact .list h1 h2 h3 (ih hf (by simpa [ctxAt, stepTo, h3] using hl))

theorem indexed_append (a b : List Hop) : indexed (a ++ b) = indexed a ++ indexed b := by
  induction a with
  | nil => rfl
  | cons x r ih => simp only [List.cons_append, indexed, ih]; split <;> simp

theorem columnPath_eq (steps : List Hop) (n : Str) : columnPath steps n = pnOf (indexed steps) ++ n := by
  rw [← pathText_snoc]; rfl

theorem plainPath_eq (steps : List Hop) (n : Str) : plainPath steps n = pnOf (steps.map (·.name)) ++ n := by
  rw [← pathText_snoc]; rfl

theorem ctxAt_path (cfg : SchemaCfg) (steps : List Hop) (ctx : SCtx) (s : Schema) (h : ∀ x ∈ steps, x.name ≠ []) :
    (ctxAt cfg ctx s steps).parentPath = ctx.parentPath ++ pnOf (indexed steps) := by
  induction steps generalizing ctx s with
  | nil => simp [ctxAt, indexed, pnOf]
  | cons x r ih =>
    have hx := h x (by simp)
    rw [ctxAt, ih _ _ (fun y hy => h y (by simp [hy]))]
    simp only [childCtx, indexed]
    split
    · have : (ctx.parentPath ++ (x.name ++ s%"/0")).isEmpty = false := by simp
      rw [this]
      simp [pnOf]
    · have : (ctx.parentPath ++ x.name).isEmpty = false := by simp [hx]
      rw [this]
      simp [pnOf]

theorem ctxAt_title (cfg : SchemaCfg) (steps : List Hop) (ctx : SCtx) (s : Schema) :
    (ctxAt cfg ctx s steps).parentTitle = steps.foldl (fun t x => t.bind (fun a => (titleOf x.prop).map (fun b => a ++ (b ++ s%":")))) ctx.parentTitle := by
  induction steps generalizing ctx s with
  | nil => rfl
  | cons x r ih =>
    rw [ctxAt, ih]
    simp only [List.foldl_cons, childCtx]
    congr 1
    cases ctx.parentTitle <;> cases titleOf x.prop <;> rfl

theorem idsBelow_mem {cfg : SchemaCfg} (hu : cfg.useTitles = false) (ctx : SCtx) (s : Schema) (f : Str) :
    f ∈ idsBelow cfg ctx s ↔ f ∈ ctx.idFields ∨ (s%"id" ∈ names s ∧ f = ctx.parentPath ++ s%"id") := by
  unfold idsBelow childIds
  cases hg : Dict.get (s.properties.getD []) s%"id" with
  | none =>
    have : s%"id" ∉ names s := Dict.get_none_iff.1 hg
    simp [this]
  | some x =>
    have : s%"id" ∈ names s := Dict.get_isSome_iff.1 (by simp [hg])
    simp [hu, this]

theorem ctxAt_ids {cfg : SchemaCfg} (hu : cfg.useTitles = false) {s : Schema} {steps : List Hop} {q : Schema} (ht : Trail cfg s steps q)
    (ctx : SCtx) (h : ∀ x ∈ steps, x.name ≠ []) (f : Str) :
    f ∈ idsBelow cfg (ctxAt cfg ctx s steps) q ↔ f ∈ ctx.idFields ∨ ∃ above below x, steps = above ++ below ∧
      Trail cfg s above x ∧ Trail cfg x below q ∧ s%"id" ∈ names x ∧ f = ctx.parentPath ++ columnPath above s%"id" := by
  induction ht generalizing ctx with
  | here s =>
    rw [ctxAt, idsBelow_mem hu]
    constructor
    · rintro (h | ⟨h1, h2⟩)
      · exact .inl h
      · exact .inr ⟨[], [], s, rfl, .here s, .here s, h1, h2⟩
    · rintro (h | ⟨a, b, x, hab, ht, _, h1, h2⟩)
      · exact .inl h
      · simp only [List.nil_eq, List.append_eq_nil_iff] at hab
        obtain ⟨rfl, rfl⟩ := hab
        cases ht
        exact .inr ⟨h1, h2⟩
  | @object s p q n r h1 h2 h3 ih =>
    have hx : n ≠ [] := h _ (List.mem_cons_self ..)
    rw [ctxAt]
    have := ih (childCtx ctx (ctx.parentPath ++ n) (idsBelow cfg ctx s) (titleOf p)) (fun y hy => h y (by simp [hy]))
    simp only [stepTo, Bool.false_eq_true, if_false] at this ⊢
    rw [this]
    have hpp : (childCtx ctx (ctx.parentPath ++ n) (idsBelow cfg ctx s) (titleOf p)).parentPath = ctx.parentPath ++ (n ++ s%"/") := by
      simp [childCtx, hx]
    have hid : (childCtx ctx (ctx.parentPath ++ n) (idsBelow cfg ctx s) (titleOf p)).idFields = idsBelow cfg ctx s := rfl
    rw [hpp, hid, idsBelow_mem hu]
    constructor
    · rintro ((hf | ⟨hn, hf⟩) | ⟨a, b, x, hab, ht, hb, h4, h5⟩)
      · exact .inl hf
      · exact .inr ⟨[], _, s, rfl, .here s, .object h1 h2 h3, hn, hf⟩
      · refine .inr ⟨⟨n, p, false⟩ :: a, b, x, by rw [hab]; rfl, .object h1 h2 ht, hb, h4, ?_⟩
        rw [h5, columnPath_eq, columnPath_eq]
        simp [indexed, pnOf]
    · rintro (hf | ⟨a, b, x, hab, ht, hb, h4, h5⟩)
      · exact .inl (.inl hf)
      · cases ht with
        | here => exact .inl (.inr ⟨h4, h5⟩)
        | object g1 g2 g3 =>
          simp only [List.cons_append, List.cons.injEq, Hop.mk.injEq, and_true, true_and] at hab
          obtain ⟨⟨rfl, rfl⟩, hab⟩ := hab
          refine .inr ⟨_, b, x, hab, g3, hb, h4, ?_⟩
          rw [h5, columnPath_eq, columnPath_eq]
          simp [indexed, pnOf]
        | list g1 g2 g3 g4 => simp at hab
  | @list s p i q n r h1 h2 h0 h3 ih =>
    rw [ctxAt]
    have := ih (childCtx ctx (ctx.parentPath ++ (n ++ s%"/0")) (idsBelow cfg ctx s) (titleOf p)) (fun y hy => h y (by simp [hy]))
    simp only [stepTo, h0, if_true, Option.getD_some] at this ⊢
    rw [this]
    have hpp : (childCtx ctx (ctx.parentPath ++ (n ++ s%"/0")) (idsBelow cfg ctx s) (titleOf p)).parentPath = ctx.parentPath ++ (n ++ s%"/0/") := by
      simp [childCtx]
    have hid : (childCtx ctx (ctx.parentPath ++ (n ++ s%"/0")) (idsBelow cfg ctx s) (titleOf p)).idFields = idsBelow cfg ctx s := rfl
    rw [hpp, hid, idsBelow_mem hu]
    constructor
    · rintro ((hf | ⟨hn, hf⟩) | ⟨a, b, x, hab, ht, hb, h4, h5⟩)
      · exact .inl hf
      · exact .inr ⟨[], _, s, rfl, .here s, .list h1 h2 h0 h3, hn, hf⟩
      · refine .inr ⟨⟨n, p, true⟩ :: a, b, x, by rw [hab]; rfl, .list h1 h2 h0 ht, hb, h4, ?_⟩
        rw [h5, columnPath_eq, columnPath_eq]
        simp [indexed, pnOf]
    · rintro (hf | ⟨a, b, x, hab, ht, hb, h4, h5⟩)
      · exact .inl (.inl hf)
      · cases ht with
        | here => exact .inl (.inr ⟨h4, h5⟩)
        | object g1 g2 g3 => simp at hab
        | list g1 g2 g3 g4 =>
          simp only [List.cons_append, List.cons.injEq, Hop.mk.injEq, and_true, true_and] at hab
          obtain ⟨⟨rfl, rfl⟩, hab⟩ := hab
          rw [h0] at g3; cases g3
          refine .inr ⟨_, b, x, hab, g4, hb, h4, ?_⟩
          rw [h5, columnPath_eq, columnPath_eq]
          simp [indexed, pnOf]

/-! ### Texts -/

/-- A name of an object or array that does not upset paths. -/
def NameOK (n : Str) : Prop := n ≠ [] ∧ '/' ∉ n ∧ n ≠ s%"0"

theorem replaceSlash_pass {old : Str} {x : Str} (new : Str) (h : '/' ∉ x) (r : Str) :
    Py.replaceAux ('/' :: old) new 0 (x ++ r) = x ++ Py.replaceAux ('/' :: old) new 0 r := by
  induction x with
  | nil => rfl
  | cons c t ih =>
    simp only [List.mem_cons, not_or] at h
    rw [List.cons_append, Py.replaceAux]
    have : ('/' :: old).isPrefixOf (c :: (t ++ r)) = false := by
      simp only [List.isPrefixOf, Bool.and_eq_false_iff, beq_eq_false_iff_ne]
      exact Or.inl h.1
    rw [if_neg (by simp [this]), ih h.2]
    rfl

theorem noIndex_steps (steps : List Hop) (h : ∀ x ∈ steps, NameOK x.name) :
    noIndex (pnOf (indexed steps)) = pnOf (steps.map (·.name)) := by
  unfold noIndex Py.replaceAll
  induction steps with
  | nil => rfl
  | cons x r ih =>
    replace ih := ih (fun y hy => h y (by simp [hy]))
    obtain ⟨h1, h2, h3⟩ := h x (by simp)
    rw [List.map_cons]
    have e1 : pnOf (x.name :: r.map (·.name)) = x.name ++ ('/' :: pnOf (r.map (·.name))) := by simp [pnOf]
    rw [e1, indexed]
    split
    · have e2 : pnOf (x.name :: s%"0" :: indexed r) = x.name ++ ('/' :: '0' :: '/' :: pnOf (indexed r)) := by simp [pnOf]
      rw [e2, replaceSlash_pass _ h2]
      congr 1
      rw [← ih]
      simp [Py.replaceAux]
    · have e2 : pnOf (x.name :: indexed r) = x.name ++ ('/' :: pnOf (indexed r)) := by simp [pnOf]
      rw [e2, replaceSlash_pass _ h2]
      congr 1
      rw [Py.replaceAux]
      have hnp : (s%"/0/").isPrefixOf ('/' :: pnOf (indexed r)) = false := by
        cases r with
        | nil => rfl
        | cons y t =>
          obtain ⟨g1, g2, g3⟩ := h y (by simp)
          have : ∃ u, pnOf (indexed (y :: t)) = y.name ++ ('/' :: u) := by
            rw [indexed]; split <;> exact ⟨_, by simp [pnOf]; rfl⟩
          obtain ⟨u, hu⟩ := this
          rw [hu]
          cases hy : y.name with
          | nil => exact absurd hy g1
          | cons c v =>
            rw [hy] at g2 g3
            simp only [List.mem_cons, not_or] at g2
            by_cases hc : c = '0'
            · subst hc
              cases v with
              | nil => exact absurd rfl g3
              | cons d w =>
                have : '/' ≠ d := fun hd => g2.2 (by rw [hd]; simp)
                simp [List.isPrefixOf, this]
            · simp [List.isPrefixOf]; intro hc'; exact absurd hc'.symm hc
      rw [if_neg (by simp [hnp]), ih]

theorem indexed_filter (steps : List Hop) (h : ∀ x ∈ steps, NameOK x.name) :
    (indexed steps).filter (· ≠ s%"0") = steps.map (·.name) := by
  induction steps with
  | nil => rfl
  | cons x r ih =>
    replace ih := ih (fun y hy => h y (by simp [hy]))
    obtain ⟨h1, h2, h3⟩ := h x (by simp)
    rw [indexed]
    split
    · rw [List.filter_cons_of_pos (by simpa using h3), List.filter_cons_of_neg (by simp), ih, List.map_cons]
    · rw [List.filter_cons_of_pos (by simpa using h3), ih, List.map_cons]

theorem indexed_slash (steps : List Hop) (h : ∀ x ∈ steps, NameOK x.name) : ∀ y ∈ indexed steps, '/' ∉ y := by
  induction steps with
  | nil => simp [indexed]
  | cons x r ih =>
    replace ih := ih (fun y hy => h y (by simp [hy]))
    obtain ⟨h1, h2, h3⟩ := h x (by simp)
    intro y hy
    rw [indexed] at hy
    split at hy
    · simp only [List.mem_cons] at hy
      rcases hy with rfl | rfl | hy
      · exact h2
      · decide
      · exact ih y hy
    · simp only [List.mem_cons] at hy
      rcases hy with rfl | hy
      · exact h2
      · exact ih y hy

theorem join_snoc (sep : Str) (l : List Str) (n : Str) : Py.join sep (l ++ [[]]) ++ n = Py.join sep (l ++ [n]) := by
  induction l with
  | nil => simp [Py.join]
  | cons x r ih =>
    cases r with
    | nil => simp [Py.join]
    | cons y t => simp only [List.cons_append, Py.join, List.append_assoc] at ih ⊢; rw [ih]

theorem subName_eq (cfg : SchemaCfg) (steps : List Hop) (h : ∀ x ∈ steps, NameOK x.name) (n : Str) :
    makeSubSheetName (pnOf (indexed steps)) n cfg.trunc = tableName cfg steps n := by
  unfold makeSubSheetName tableName
  congr 1
  have e : pnOf (indexed steps) = Py.join s%"/" (indexed steps ++ [[]]) := by
    have := pathText_snoc (indexed steps) []
    rw [List.append_nil] at this
    exact this.symm
  rw [e, Verif.Py.split_join (by simp) (fun p hp => by
    rcases List.mem_append.1 hp with hp | hp
    · exact indexed_slash steps h p hp
    · rw [List.mem_singleton.1 hp]; simp)]
  rw [List.filter_append, indexed_filter steps h]
  have : List.filter (fun x => decide (x ≠ s%"0")) [([] : Str)] = [[]] := by decide
  rw [this, List.map_append]
  simp only [List.map_cons, List.map_nil, List.take_nil]
  rw [join_snoc, List.map_map]
  rfl

/-! ### Main sheet -/

theorem mainFields_cols {cfg : SchemaCfg} (hu : cfg.useTitles = false) (ys : List Yield) (sh : Sheet) (w : List SWarn) (c : Str) :
    c ∈ (mainFields cfg ys (sh, w)).1.columns ↔ c ∈ sh.columns ∨ ∃ t, (c, t) ∈ ys := by
  induction ys generalizing sh w with
  | nil => simp [mainFields]
  | cons y r ih =>
    obtain ⟨f, t⟩ := y
    simp only [mainFields, hu, Bool.false_eq_true, if_false]
    rw [ih, addField_cols]
    simp only [List.mem_cons, Prod.mk.injEq, exists_or, exists_and_left, exists_eq, and_true, or_assoc]

theorem mainFields_titles {cfg : SchemaCfg} (hu : cfg.useTitles = true) (ys : List Yield) (hy : ∀ f t, (f, t) ∈ ys → t ≠ some [])
    (sh : Sheet) (w : List SWarn) (c : Str) :
    c ∈ (mainFields cfg ys (sh, w)).1.columns ↔ c ∈ sh.columns ∨ ∃ f, (f, some c) ∈ ys := by
  induction ys generalizing sh w with
  | nil => simp [mainFields]
  | cons y r ih =>
    obtain ⟨f, t⟩ := y
    replace ih := ih (fun f t h => hy f t (by simp [h]))
    simp only [mainFields, hu, if_true]
    have ht := hy f t (by simp)
    split
    · next d ds =>
      rw [ih]
      rw [show ({ sh.addField (d :: ds) with titles := Dict.set sh.titles f (d :: ds) } : Sheet).columns = (sh.addField (d :: ds)).columns from rfl,
        addField_cols]
      simp only [List.mem_cons, Prod.mk.injEq, Option.some.injEq, exists_or, or_assoc]
      constructor
      · rintro (h | h | h)
        · exact .inl h
        · exact .inr (.inl ⟨f, rfl, h⟩)
        · exact .inr (.inr h)
      · rintro (h | ⟨f', h1, h⟩ | h)
        · exact .inl h
        · exact .inr (.inl h)
        · exact .inr (.inr h)
    · next hno =>
      rw [ih]
      have : t = none := by
        cases t with
        | none => rfl
        | some x =>
          cases x with
          | nil => exact absurd rfl ht
          | cons d ds => exact absurd rfl (hno d ds)
      subst this
      simp

end Verif
