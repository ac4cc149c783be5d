import Verif.Proofs.EmitPlain
import Verif.Spec.Columns
/-! Every column that flattening adds has a value. -/
namespace Verif
open Spec

/-- The columns asked for by the events are those of lines that are added, or of the line under construction. -/
def Explained (ref : SheetRef) (ev : List Ev) (fl : FLine) : Prop :=
  ∀ r k, Ev.key r k ∈ ev → (r = ref ∧ k ∈ Dict.keys fl) ∨ ∃ l, Ev.line r l ∈ ev ∧ k ∈ Dict.keys l

/-- The columns asked for by the events are those of lines that are added. -/
def Explained0 (ev : List Ev) : Prop := ∀ r k, Ev.key r k ∈ ev → ∃ l, Ev.line r l ∈ ev ∧ k ∈ Dict.keys l

theorem Explained0.append {a b : List Ev} (ha : Explained0 a) (hb : Explained0 b) : Explained0 (a ++ b) := by
  intro r k h
  rcases List.mem_append.1 h with h | h
  · obtain ⟨l, h1, h2⟩ := ha r k h; exact ⟨l, by simp [h1], h2⟩
  · obtain ⟨l, h1, h2⟩ := hb r k h; exact ⟨l, by simp [h1], h2⟩

theorem Explained0.none {ev : List Ev} (h : ∀ r k, Ev.key r k ∉ ev) : Explained0 ev := fun r k hk => absurd hk (h r k)

theorem Explained.append {ref : SheetRef} {a b : List Ev} {f g : FLine} (ha : Explained ref a f) (hb : Explained ref b g)
    (hs : ∀ k ∈ Dict.keys f, k ∈ Dict.keys g) : Explained ref (a ++ b) g := by
  intro r k h
  rcases List.mem_append.1 h with h | h
  · rcases ha r k h with ⟨h1, h2⟩ | ⟨l, h1, h2⟩
    · exact Or.inl ⟨h1, hs _ h2⟩
    · exact Or.inr ⟨l, by simp [h1], h2⟩
  · rcases hb r k h with h1 | ⟨l, h1, h2⟩
    · exact Or.inl h1
    · exact Or.inr ⟨l, by simp [h1], h2⟩

theorem Explained0.explained {ref : SheetRef} {a : List Ev} {f : FLine} (ha : Explained0 a) : Explained ref a f :=
  fun r k h => Or.inr (ha r k h)

theorem Explained.closed {ref : SheetRef} {a : List Ev} {f : FLine} (ha : Explained ref a f) : Explained0 (a ++ [.line ref f]) := by
  intro r k h
  simp only [List.mem_append, List.mem_singleton, reduceCtorEq, or_false] at h
  rcases ha r k h with ⟨rfl, h2⟩ | ⟨l, h1, h2⟩
  · exact ⟨f, by simp, h2⟩
  · exact ⟨l, by simp [h1], h2⟩

theorem explained_parentIds {cfg : FCfg} (h : Plain cfg) (ref : SheetRef) (ps : List (Str × Json)) (flat fl : FLine) (ev : List Ev)
    (he : emitParentIds cfg ref ps flat = .ok (fl, ev)) : Explained ref ev fl ∧ ∀ k ∈ Dict.keys flat, k ∈ Dict.keys fl := by
  induction ps generalizing flat ev with
  | nil =>
    simp only [emitParentIds, Except.ok.injEq, Prod.mk.injEq] at he
    obtain ⟨rfl, rfl⟩ := he
    exact ⟨fun r k hk => by simp at hk, fun k hk => hk⟩
  | cons e r ih =>
    obtain ⟨k, v⟩ := e
    have hv : parentIdValue cfg v = .ok v := by simp [parentIdValue, h.xml]
    simp only [emitParentIds, hv, rn_plain h] at he
    obtain ⟨e1, h1, rfl⟩ := Out.after_ok.1 he
    obtain ⟨h2, h3⟩ := ih _ _ h1
    refine ⟨?_, fun x hx => h3 x (Dict.mem_keys_set.2 (Or.inr hx))⟩
    intro r' k' hk
    simp only [List.cons_append, List.nil_append, List.mem_cons, Ev.key.injEq] at hk
    rcases hk with ⟨rfl, rfl⟩ | hk
    · exact Or.inl ⟨rfl, h3 _ (Dict.mem_keys_set.2 (Or.inl rfl))⟩
    · rcases h2 r' k' hk with h4 | ⟨l, h4, h5⟩
      · exact Or.inl h4
      · exact Or.inr ⟨l, by simp [h4], h5⟩

theorem keys_addId {cfg : FCfg} {ref : SheetRef} {name field : Str} {fs pids : List (Str × Json)} {r : SheetRef} {k : Str}
    (h : Ev.key r k ∈ (emitAddId cfg ref name field fs pids).2) : r = ref ∧ k = name ∧ Dict.get fs field ≠ none := by
  unfold emitAddId at h
  split at h
  · simp at h
  · next v hv => simp at h; exact ⟨h.1, h.2, by simp [hv]⟩

/-- The columns of the ids. -/
theorem keys_emitIds {cfg : FCfg} {ref : SheetRef} {pn : Str} {pids fs : List (Str × Json)} {r : SheetRef} {k : Str}
    (h : Ev.key r k ∈ (emitIds cfg ref pn pids fs).2) : r = ref ∧
      ((k = pn ++ cfg.idName ∧ Dict.get fs cfg.idName ≠ none) ∨ ∃ rid, cfg.rootId = some rid ∧ k = rid ∧ Dict.get fs rid ≠ none) := by
  unfold emitIds at h
  rcases List.mem_append.1 h with h | h
  · unfold emitRootId at h
    split at h
    · simp at h
    · next rid hr =>
      obtain ⟨h1, h2, h3⟩ := keys_addId h
      exact ⟨h1, Or.inr ⟨rid, hr, h2, h3⟩⟩
  · obtain ⟨h1, h2, h3⟩ := keys_addId h
    exact ⟨h1, Or.inl ⟨h2, h3⟩⟩

/-- Before the fields: the columns of the ancestors' ids are filled; those of the ids will be. -/
theorem explained_prologue {cfg : FCfg} (h : Plain cfg) (ref : SheetRef) (pn : Str) (topSub : Bool) (pids fs : List (Str × Json))
    (flat : Option FLine) (s : Start) (ev : List Ev) (he : emitPrologue cfg ref pn topSub pids flat fs = .ok (s, ev)) :
    (s = none → ev = []) ∧ ∀ pids' fl skip, s = some (pids', fl, skip) → skip = false ∧ (∀ k ∈ Dict.keys (flat.getD []), k ∈ Dict.keys fl) ∧
      ∃ e1, Explained ref e1 fl ∧ ev = e1 ++ (emitIds cfg ref pn pids fs).2 := by
  unfold emitPrologue emitGeo at he
  simp only [h.wkt, Bool.false_and, Bool.false_eq_true, if_false] at he
  obtain ⟨g, e1, e2, h1, h2, rfl⟩ := Out.bind_ok.1 he
  simp only [Except.ok.injEq, Prod.mk.injEq] at h1
  obtain ⟨rfl, rfl⟩ := h1
  simp only [emitStart] at h2
  split at h2
  · simp only [Except.ok.injEq, Prod.mk.injEq] at h2
    obtain ⟨rfl, rfl⟩ := h2
    exact ⟨fun _ => rfl, by simp⟩
  · obtain ⟨fl1, e3, e4, h3, h4, rfl⟩ := Out.bind_ok.1 h2
    simp only [Except.ok.injEq, Prod.mk.injEq] at h4
    obtain ⟨rfl, rfl⟩ := h4
    refine ⟨by simp, ?_⟩
    intro pids' fl skip hs
    simp only [Option.some.injEq, Prod.mk.injEq] at hs
    obtain ⟨-, rfl, rfl⟩ := hs
    unfold emitStartLine at h3
    split at h3
    · obtain ⟨h5, h6⟩ := explained_parentIds h _ _ _ _ _ h3
      exact ⟨rfl, h6, e3, h5, rfl⟩
    · simp only [Except.ok.injEq, Prod.mk.injEq] at h3
      obtain ⟨rfl, rfl⟩ := h3
      exact ⟨rfl, fun k hk => hk, [], fun r k hk => by simp at hk, rfl⟩

/-- What flattening an object's fields achieves. -/
structure FieldsDone (cfg : FCfg) (ref : SheetRef) (pn : Str) (fs : List (Str × Json)) (flat fl : FLine) (ev : List Ev) : Prop where
  kept : ∀ k ∈ Dict.keys flat, k ∈ Dict.keys fl
  scalars : ∀ k a, (k, Json.leaf a) ∈ fs → dropped cfg pn k = false → pn ++ k ∈ Dict.keys fl
  explained : Explained ref ev fl

theorem FieldsDone.ids {cfg : FCfg} {ref : SheetRef} {pn : Str} {fs pids : List (Str × Json)} {flat fl : FLine} {e1 ev : List Ev}
    (hd : FieldsDone cfg ref pn fs flat fl ev) (hk : ∀ p k, dropped cfg p k = false) (hex : Explained ref e1 flat)
    {top : Bool} (ht : pn.isEmpty = top) (hi : HasPlainIds (idOpts cfg) top fs) :
    Explained ref ((e1 ++ (emitIds cfg ref pn pids fs).2) ++ ev) fl := by
  refine (Explained.append hex ?_ hd.kept).append hd.explained (fun k h => h)
  intro r k h
  obtain ⟨h1, h2⟩ := keys_emitIds h
  refine Or.inl ⟨h1, ?_⟩
  rcases h2 with ⟨rfl, h3⟩ | ⟨rid, hr, rfl, h3⟩
  · cases hg : Dict.get fs cfg.idName with
    | none => exact absurd hg h3
    | some v =>
      obtain ⟨a, rfl⟩ := hi.1 v hg
      exact hd.scalars _ _ (Dict.get_eq_some_mem hg) (hk _ _)
  · have h4 := hi.2 k hr
    subst ht
    cases hg : Dict.get fs k with
    | none => exact absurd hg h3
    | some v =>
      cases pn with
      | nil =>
        simp only [List.isEmpty_nil, if_true] at h4
        obtain ⟨a, rfl⟩ := h4 v hg
        have := hd.scalars _ _ (Dict.get_eq_some_mem hg) (hk _ _)
        simpa using this
      | cons c r =>
        simp only [List.isEmpty_cons, Bool.false_eq_true, if_false] at h4
        exact absurd h4 h3

theorem explained_put {cfg : FCfg} (h : Plain cfg) (ref : SheetRef) (k : Str) (v : Json) (flat : FLine) :
    Explained ref [.key ref k] (Dict.set flat (rn cfg ref k) v) := by
  intro r k' hk
  simp only [List.mem_singleton, Ev.key.injEq] at hk
  obtain ⟨rfl, rfl⟩ := hk
  exact Or.inl ⟨rfl, by rw [rn_plain h]; exact Dict.mem_keys_set.2 (Or.inl rfl)⟩

mutual
theorem fieldsDone {cfg : FCfg} (h : Plain cfg) (hk : ∀ p k, dropped cfg p k = false) (ref : SheetRef) (pn : Str)
    (pids fs : List (Str × Json)) (hi : PlainIdsFields (idOpts cfg) fs) (flat fl : FLine) (ev : List Ev)
    (he : emitFields cfg ref pn pids false fs flat = .ok (fl, ev)) : FieldsDone cfg ref pn fs flat fl ev := by
  match fs, hi with
  | [], _ =>
    rw [emitFields] at he
    simp only [Except.ok.injEq, Prod.mk.injEq] at he
    obtain ⟨rfl, rfl⟩ := he
    exact ⟨fun k hk => hk, by simp, fun r k hk => by simp at hk⟩
  | (key, value) :: rest, hi =>
    rw [PlainIdsFields] at hi
    rw [emitFields] at he
    simp only [Bool.false_and, Bool.false_eq_true, if_false, hk] at he
    obtain ⟨e0, h0, rfl⟩ := Out.after_ok.1 he
    obtain ⟨⟨pn', fl1⟩, e1, e2, h1, h2, rfl⟩ := Out.bind_ok.1 h0
    obtain ⟨rfl, h3, h4, h5⟩ := valueDone h hk ref pn pids key value hi.1 flat pn' fl1 e1 h1
    have h6 := fieldsDone h hk ref pn' pids rest hi.2 fl1 fl e2 h2
    refine ⟨fun k hk => h6.kept k (h3 k hk), ?_, ?_⟩
    · intro k a hm hd
      simp only [List.mem_cons, Prod.mk.injEq] at hm
      rcases hm with ⟨rfl, rfl⟩ | hm
      · exact h6.kept _ (h4 a rfl)
      · exact h6.scalars k a hm hd
    · refine Explained.append (f := flat) (fun r k hk => by simp at hk) (h5.append h6.explained h6.kept) (fun k hk => h6.kept _ (h3 k hk))
termination_by structural fs
theorem valueDone {cfg : FCfg} (h : Plain cfg) (hk : ∀ p k, dropped cfg p k = false) (ref : SheetRef) (pn : Str)
    (pids : List (Str × Json)) (key : Str) (v : Json) (hi : PlainIds (idOpts cfg) false v) (flat : FLine) (pn' : Str) (fl : FLine) (ev : List Ev)
    (he : emitValue cfg ref pn pids key v flat = .ok ((pn', fl), ev)) :
    pn' = pn ∧ (∀ k ∈ Dict.keys flat, k ∈ Dict.keys fl) ∧ (∀ a, v = .leaf a → pn ++ key ∈ Dict.keys fl) ∧ Explained ref ev fl := by
  have hput : ∀ w, (emitPut cfg ref (pn ++ key) w flat).bind (fun fl => .ok ((pn, fl), [])) = .ok ((pn', fl), ev) →
      pn' = pn ∧ (∀ k ∈ Dict.keys flat, k ∈ Dict.keys fl) ∧ (pn ++ key ∈ Dict.keys fl) ∧ Explained ref ev fl := by
    intro w h1
    simp only [emitPut, Out.bind, Except.ok.injEq, Prod.mk.injEq, List.append_nil] at h1
    obtain ⟨⟨rfl, rfl⟩, rfl⟩ := h1
    refine ⟨rfl, fun k hk => Dict.mem_keys_set.2 (Or.inr hk), ?_, explained_put h _ _ _ _⟩
    rw [rn_plain h]
    exact Dict.mem_keys_set.2 (Or.inl rfl)
  match v, hi with
  | .leaf a, _ =>
    rw [emitValue] at he
    split at he
    · simp only [h.xml, Bool.false_and, Bool.false_eq_true, if_false] at he
      obtain ⟨h1, h2, h3, h4⟩ := hput _ he
      exact ⟨h1, h2, fun _ _ => h3, h4⟩
    · cases he
  | .obj gs, hi =>
    rw [PlainIds] at hi
    rw [emitValue] at he
    obtain ⟨s, e1, e2, h1, h2, rfl⟩ := Out.bind_ok.1 he
    obtain ⟨h3, h4⟩ := explained_prologue h _ _ _ _ _ _ _ _ h1
    split at h2
    · simp only [Except.ok.injEq, Prod.mk.injEq] at h2
      obtain ⟨⟨rfl, rfl⟩, rfl⟩ := h2
      rw [h3 rfl]
      exact ⟨rfl, fun k hk => hk, by simp, fun r k hk => by simp at hk⟩
    · next pids' fl0 skip' =>
      obtain ⟨fl1, e3, e4, h5, h6, rfl⟩ := Out.bind_ok.1 h2
      simp only [Except.ok.injEq, Prod.mk.injEq] at h6
      obtain ⟨⟨rfl, rfl⟩, rfl⟩ := h6
      obtain ⟨rfl, h7, e0, h8, rfl⟩ := h4 _ _ _ rfl
      have h9 := fieldsDone h hk ref _ pids' gs hi.2 fl0 _ _ h5
      refine ⟨rfl, fun k hk => h9.kept k (h7 k hk), by simp, ?_⟩
      rw [List.append_nil]
      exact h9.ids hk h8 (by simp [List.isEmpty_iff]) hi.1
  | .arr items, hi =>
    rw [PlainIds] at hi
    rw [emitValue] at he
    split at he
    · obtain ⟨h1, h2, h3, h4⟩ := hput _ he
      exact ⟨h1, h2, by simp, h4⟩
    · obtain ⟨fl1, e1, e2, h1, h2, rfl⟩ := Out.bind_ok.1 he
      have hr : emitRollup cfg ref pn key items flat = .ok (flat, []) := by simp [emitRollup, h.rollup]
      rw [hr] at h1
      simp only [Except.ok.injEq, Prod.mk.injEq] at h1
      obtain ⟨rfl, rfl⟩ := h1
      obtain ⟨e3, h5, rfl⟩ := Out.after_ok.1 h2
      obtain ⟨⟨⟩, e5, e6, h6, h7, rfl⟩ := Out.bind_ok.1 h5
      simp only [Except.ok.injEq, Prod.mk.injEq] at h7
      obtain ⟨⟨rfl, rfl⟩, rfl⟩ := h7
      refine ⟨rfl, fun k hk => hk, by simp, ?_⟩
      have h8 := itemsDone h hk _ (pn ++ key) pids items hi _ (by rw [List.append_assoc]; exact h6)
      exact Explained0.explained ((Explained0.none (by simp)).append ((Explained0.none (by simp)).append (h8.append (Explained0.none (by simp)))))
termination_by structural v
theorem itemsDone {cfg : FCfg} (h : Plain cfg) (hk : ∀ p k, dropped cfg p k = false) (name pn : Str)
    (pids : List (Str × Json)) (items : List Json) (hi : PlainIdsItems (idOpts cfg) items) (ev : List Ev)
    (he : emitItems cfg name (pn ++ s%"/0/") pids items = .ok ((), ev)) : Explained0 ev := by
  match items, hi with
  | [], _ =>
    rw [emitItems] at he
    simp only [Except.ok.injEq, Prod.mk.injEq, true_and] at he
    rw [← he]; exact Explained0.none (by simp)
  | .leaf a :: r, hi =>
    rw [PlainIdsItems] at hi
    rw [emitItems] at he
    split at he
    · exact itemsDone h hk name pn pids r hi.2 ev he
    · cases he
  | .arr _ :: r, _ => rw [emitItems] at he; cases he
  | .obj fs :: r, hi =>
    rw [PlainIdsItems, PlainIds] at hi
    rw [emitItems] at he
    obtain ⟨s, e1, e2, h1, h2, rfl⟩ := Out.bind_ok.1 he
    obtain ⟨h3, h4⟩ := explained_prologue h _ _ _ _ _ _ _ _ h1
    split at h2
    · rw [h3 rfl]
      exact itemsDone h hk name pn pids r hi.2 _ h2
    · next pids' fl0 skip' =>
      obtain ⟨fl1, e3, e4, h5, h6, rfl⟩ := Out.bind_ok.1 h2
      obtain ⟨e5, h7, rfl⟩ := Out.after_ok.1 h6
      obtain ⟨rfl, h8, e0, h9, rfl⟩ := h4 _ _ _ rfl
      have h10 := fieldsDone h hk (some name) (pn ++ s%"/0/") pids' fs hi.1.2 fl0 _ _ h5
      have h11 := (h10.ids (pids := pids) hk h9 (by simp [List.isEmpty_iff]) hi.1.1).closed
      have h12 := h11.append (itemsDone h hk name pn pids r hi.2 _ h7)
      simpa using h12
termination_by structural items
end

theorem rootDone {cfg : FCfg} (h : Plain cfg) (hk : ∀ p k, dropped cfg p k = false) (n : Nat) (l : List Json)
    (hi : ∀ j ∈ l, PlainIds (idOpts cfg) true j) (ev : List Ev) (he : emitRootList cfg n l = .ok ((), ev)) : Explained0 ev := by
  induction l generalizing n ev with
  | nil =>
    rw [emitRootList] at he
    simp only [Except.ok.injEq, Prod.mk.injEq, true_and] at he
    subst he; exact Explained0.none (by simp)
  | cons j r ih =>
    rw [emitRootList] at he
    obtain ⟨⟨⟩, e1, e2, h1, h2, rfl⟩ := Out.bind_ok.1 he
    refine Explained0.append ?_ (ih (n + 1) (fun j hj => hi j (by simp [hj])) _ h2)
    have hj := hi j (by simp)
    unfold emitRootItem at h1
    split at h1
    · simp only [Except.ok.injEq, Prod.mk.injEq, true_and] at h1
      subst h1; exact Explained0.none (by intro r l; split <;> simp)
    · simp only [Except.ok.injEq, Prod.mk.injEq, true_and] at h1
      subst h1; exact Explained0.none (by simp)
    · next fs =>
      rw [PlainIds] at hj
      obtain ⟨s, e1, e2, h1', h2, rfl⟩ := Out.bind_ok.1 h1
      clear h1
      obtain ⟨h3, h4⟩ := explained_prologue h _ _ _ _ _ _ _ _ h1'
      split at h2
      · simp only [Except.ok.injEq, Prod.mk.injEq, true_and] at h2
        subst h2; rw [h3 rfl]; exact Explained0.none (by simp)
      · next pids' fl0 skip' =>
        obtain ⟨fl1, e3, e4, h5, h6, rfl⟩ := Out.bind_ok.1 h2
        simp only [Except.ok.injEq, Prod.mk.injEq, true_and] at h6
        subst h6
        obtain ⟨rfl, h8, e0, h9, rfl⟩ := h4 _ _ _ rfl
        have h10 := fieldsDone h hk none [] pids' fs hj.2 fl0 _ _ h5
        have h11 := (h10.ids (pids := []) hk h9 rfl hj.1).closed
        simpa using h11

end Verif
