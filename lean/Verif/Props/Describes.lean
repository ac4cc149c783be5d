import Verif.Proofs.Describes
import Verif.Proofs.RowFlat
/-! C80: every spreadsheet that describes a document gives that document. -/
namespace Verif
open Spec

theorem convert_nonempty {env : ConvEnv} {ty : CType} {a : Atom} {v : Val} {w : List Warn} (h : convertType env ty a = .ok (v, w)) : v ≠ .arr2 [] := by
  rintro rfl
  have hs : ∀ s, stringArray s ≠ .arr2 [] := by
    intro s h
    unfold stringArray at h
    split at h
    · simp only [Val.arr2.injEq, List.map_eq_nil_iff] at h; exact Py.split_ne_nil _ _ h
    · cases h
  have hn : ∀ s, numberArray s ≠ some (.arr2 []) := by
    intro s h
    unfold numberArray at h
    split at h
    · simp only [Option.map_eq_some_iff, Val.arr2.injEq, List.map_eq_nil_iff] at h
      obtain ⟨l, h1, rfl⟩ := h
      cases hl : Py.split ';' s with
      | nil => exact Py.split_ne_nil _ _ hl
      | cons x r =>
        rw [hl, List.mapM_cons] at h1
        simp only [Option.bind_eq_bind, Option.bind_eq_some_iff, Option.pure_def, Option.some.injEq, reduceCtorEq, and_false, exists_false] at h1
    · simp only [Option.map_eq_some_iff] at h
      obtain ⟨l, -, h⟩ := h
      cases h
  unfold convertType at h
  split at h
  · simp at h
  · cases ty <;> simp only at h <;> (repeat' split at h) <;> simp_all

theorem said_nonempty {cfg : UnCfg} {m : Str} {sheets : List SheetIn} {x : Fact} (h : Said cfg m sheets x) : x.value ≠ .arr2 [] := by
  obtain ⟨r, -, -, -, a, ha, -⟩ := h
  obtain ⟨c, -, -, w, hc⟩ := contentOf_addr ha
  exact convert_nonempty hc

theorem toJson_canon {v w : Val} (hv : v.pyEq v = true) (hw : w.pyEq w = true) (h2 : v ≠ .arr2 []) (h3 : w ≠ .arr2 []) (h : v.toJson = w.toJson) : v = w := by
  have hl : ∀ {l m : List Atom}, l.map Json.leaf = m.map .leaf → l = m := by
    intro l
    induction l with
    | nil => intro m h; cases m with | nil => rfl | cons => simp at h
    | cons x r ih =>
      intro m h
      cases m with
      | nil => simp at h
      | cons y s => simp only [List.map_cons, List.cons.injEq, Json.leaf.injEq] at h; rw [h.1, ih h.2]
  have hll : ∀ {l m : List (List Atom)}, l.map (fun r => Json.arr (r.map .leaf)) = m.map (fun r => Json.arr (r.map .leaf)) → l = m := by
    intro l
    induction l with
    | nil => intro m h; cases m with | nil => rfl | cons => simp at h
    | cons x r ih =>
      intro m h
      cases m with
      | nil => simp at h
      | cons y s => simp only [List.map_cons, List.cons.injEq, Json.arr.injEq] at h; rw [hl h.1, ih h.2]
  cases v with
  | geo g => simp [Val.pyEq, Val.canon] at hv
  | atom a =>
    cases w with
    | geo g => simp [Val.pyEq, Val.canon] at hw
    | atom b => simp only [Val.toJson, Json.leaf.injEq] at h; rw [h]
    | arr l => simp [Val.toJson] at h
    | arr2 l => simp [Val.toJson] at h
  | arr l =>
    cases w with
    | geo g => simp [Val.pyEq, Val.canon] at hw
    | atom b => simp [Val.toJson] at h
    | arr l' => simp only [Val.toJson, Json.arr.injEq] at h; rw [hl h]
    | arr2 l' =>
      cases l' with
      | nil => exact absurd rfl h3
      | cons x r => cases l <;> simp [Val.toJson] at h
  | arr2 l =>
    cases w with
    | geo g => simp [Val.pyEq, Val.canon] at hw
    | atom b => simp [Val.toJson] at h
    | arr l' =>
      cases l with
      | nil => exact absurd rfl h2
      | cons x r => cases l' <;> simp [Val.toJson] at h
    | arr2 l' => simp only [Val.toJson, Json.arr.injEq] at h; rw [hll h]

theorem pyEq_nonempty {v w : Val} (h : v.pyEq w = true) (hw : w ≠ .arr2 []) : v ≠ .arr2 [] := by
  rintro rfl
  apply hw
  cases w with
  | arr2 l =>
    cases l with
    | nil => rfl
    | cons x r =>
      exfalso
      simp only [Val.pyEq, Val.canon, List.mapM_nil] at h
      cases hx : (x :: r).mapM (fun (r : List Atom) => r.mapM Atom.canon) with
      | none => simp [hx] at h
      | some c =>
        simp only [hx, Option.map_some, Option.pure_def, beq_iff_eq, VCanon.arr2.injEq] at h
        subst h
        rw [List.mapM_cons] at hx
        simp [Option.bind_eq_some_iff] at hx
  | atom a =>
    exfalso
    cases ha : a.canon <;> simp [Val.pyEq, Val.canon, ha] at h
  | arr l =>
    exfalso
    cases ha : l.mapM Atom.canon <;> simp [Val.pyEq, Val.canon, ha] at h
  | geo g => simp [Val.pyEq, Val.canon] at h

theorem shows_same {j : Json} {v w : Val} (h : ShowsVal j v) (h' : ShowsVal j w) (hv : v ≠ .arr2 []) (hw : w ≠ .arr2 []) : v.pyEq w = true := by
  obtain ⟨a, rfl, a2⟩ := h
  obtain ⟨b, b1, b2⟩ := h'
  have := toJson_canon (Val.pyEq_left a2) (Val.pyEq_left b2) (pyEq_nonempty a2 hv) (pyEq_nonempty b2 hw) b1.symm
  subst this
  exact Val.pyEq_trans (Val.pyEq_symm a2) b2

theorem shows_json {j j' : Json} {v w : Val} (h : ShowsVal j v) (h' : ShowsVal j' w) (hv : v.pyEq w = true) : SameJson j j' := by
  obtain ⟨a, rfl, a2⟩ := h
  obtain ⟨b, rfl, b2⟩ := h'
  exact sameJson_val (Val.pyEq_trans a2 (Val.pyEq_trans hv (Val.pyEq_symm b2)))

theorem SameNamed.symm {p q : NamedPos} (h : SameNamed p q) : SameNamed q p := by
  unfold SameNamed at h ⊢
  induction h with
  | nil => exact .nil
  | @cons s t _ _ h _ ih =>
    refine .cons ⟨h.1.symm, ?_⟩ ih
    have h2 := h.2
    cases hs : s.2 <;> cases ht : t.2 <;> simp only [hs, ht] at h2 ⊢
    · exact Val.pyEq_symm h2

theorem SameNamed.trans {p q r : NamedPos} (h : SameNamed p q) (h' : SameNamed q r) : SameNamed p r := by
  unfold SameNamed at h h' ⊢
  induction h generalizing r with
  | nil => cases h'; exact .nil
  | @cons s t _ _ h _ ih =>
    cases h' with
    | @cons _ u _ _ h1 h2 =>
      refine .cons ⟨h.1.trans h1.1, ?_⟩ (ih h2)
      have e1 := h.2
      have e2 := h1.2
      cases hs : s.2 <;> cases ht : t.2 <;> cases hu : u.2 <;> simp only [hs, ht, hu] at e1 e2 ⊢
      exact Val.pyEq_trans e1 e2

/-- The rows do not contradict each other. -/
theorem Spec.Describes.agree {cfg : UnCfg} {m : Str} {sheets : List SheetIn} {docs : List (Atom × List (Str × Json))} (h : Describes cfg m sheets docs) :
    ∀ x y, Said cfg m sheets x → Said cfg m sheets y → x.Agree y := by
  intro x y hx hy ⟨s1, s2⟩
  obtain ⟨d, hd, d1, d2, j, d3, d4⟩ := h.only x hx
  obtain ⟨e, he, e1, e2, j', e3, e4⟩ := h.only y hy
  have hde : d = e := by
    have r1 : atomEq d.1 e.1 = true := Val.pyEq_trans (Val.pyEq_symm d1) (Val.pyEq_trans s1 e1)
    have r2 : HasId m x.id e.2 := hasId_congr e2 (Val.pyEq_symm s2)
    rcases pairwise_either h.distinct hd he with h | h | h
    · exact h
    · exact absurd r2 (h _ r1 d2)
    · exact absurd d2 (h _ (Val.pyEq_symm r1) r2)
  subst hde
  have ht := (h.tidy d hd).1
  simp only [Tidy] at ht
  obtain ⟨f1, f2⟩ := holds_fit d3 ht.2.1 ht.2.2 e3
  refine ⟨f1, fun hs => ?_⟩
  have := f2 hs
  subst this
  exact shows_same d4 e4 (said_nonempty hx) (said_nonempty hy)

/-- C80: if the rows of a spreadsheet, naming everything they speak about, describe a list of objects - they say all that the objects hold, in whatever rows and sheets, and
nothing else - then unflattening gives these objects, up to the order of objects, fields and items. -/
theorem C80_describes (cfg : UnCfg) (hx : cfg.row.xml = false) (m : Str) (hm : cfg.idName = some m) (sheets : List SheetIn)
    (h : ∀ r ∈ rowsIn sheets, NamesAll cfg m r.line) (docs : List (Atom × List (Str × Json))) (hd : Describes cfg m sheets docs) :
    ∃ out w, unflatten cfg sheets = .ok (out, w) ∧ SameJson (.arr (docs.map (fun d => .obj d.2))) (.arr out) := by
  obtain ⟨out, w, keys, h1, h2, h3, h4⟩ := C80_exactly cfg hx m hm sheets h hd.agree
  refine ⟨out, w, h1, ?_⟩
  -- the pairs of keys and objects
  obtain ⟨outs, e1, e2, e3⟩ : ∃ outs : List ((Atom × Val) × List (Str × Json)), outs.map (fun o => .obj o.2) = out ∧ outs.map (·.1) = keys ∧
      ∀ o ∈ outs, IsSaid cfg m sheets o.1.1 o.1.2 o.2 := by
    clear h1 h3 h4
    induction h2 with
    | nil => exact ⟨[], rfl, rfl, by simp⟩
    | @cons k j _ _ hk _ ih =>
      obtain ⟨fs, rfl, hk⟩ := hk
      obtain ⟨outs, e1, e2, e3⟩ := ih
      refine ⟨(k, fs) :: outs, by simp [e1], by simp [e2], ?_⟩
      intro o ho
      rcases List.mem_cons.1 ho with rfl | ho
      · exact hk
      · exact e3 o ho
  subst e1 e2
  rw [List.pairwise_map] at h3
  -- an object of the document and an object of the output with the same key
  have hR : ∀ d ∈ docs, ∀ o ∈ outs, atomEq d.1 o.1.1 = true → HasId m o.1.2 d.2 → SameJson (.obj d.2) (.obj o.2) := by
    intro d hdm o ho r1 r2
    have t1 := (hd.tidy d hdm).1
    have t2 := (e3 o ho).tidy
    simp only [Tidy] at t1 t2
    refine same_of_holds _ _ t1.2.1 t1.2.2 t2.2.1 t2.2.2 ?_ ?_
    · intro p j hp
      obtain ⟨x, x1, x2, x3, x4, x5⟩ := hd.all d hdm p j hp
      obtain ⟨j', g1, g2⟩ := (e3 o ho).holds x x1 (Val.pyEq_trans x2 r1) (hasId_same t1.2.1 x3 r2)
      exact ⟨_, _, g1, x4, shows_json x5 g2 (by obtain ⟨a, -, ha⟩ := x5; exact Val.pyEq_right ha)⟩
    · intro p j hp
      obtain ⟨x, x1, x2, x3, x4, x5⟩ := (e3 o ho).said p j hp
      obtain ⟨d', hd', y1, y2, j', y3, y4⟩ := hd.only x x1
      have : d = d' := by
        have q1 : atomEq d.1 d'.1 = true := Val.pyEq_trans r1 (Val.pyEq_trans (Val.pyEq_symm x2) y1)
        have q2 : HasId m o.1.2 d'.2 := hasId_congr y2 x3
        rcases pairwise_either hd.distinct hdm hd' with h | h | h
        · exact h
        · exact absurd q2 (h _ q1 r2)
        · exact absurd r2 (h _ (Val.pyEq_symm q1) q2)
      subst this
      exact ⟨_, _, y3, x4, shows_json x5 y4 (by obtain ⟨a, -, ha⟩ := x5; exact Val.pyEq_right ha)⟩
  obtain ⟨m', q1, q2⟩ := match_perm (R := fun d (o : (Atom × Val) × List (Str × Json)) => SameJson (.obj d.2) (.obj o.2) ∧ atomEq d.1 o.1.1 = true ∧ HasId m o.1.2 d.2) docs outs
    (by
      intro d hdm
      obtain ⟨v, a, hv, hv'⟩ := (hd.tidy d hdm).2.1
      obtain ⟨x, x1, x2, x3, -, -⟩ := hd.all d hdm _ _ (.value hv (by simp [Composite]))
      obtain ⟨key, k1, k2, k3⟩ := h4 x x1
      obtain ⟨o, ho, rfl⟩ := List.mem_map.1 k1
      have r1 : atomEq d.1 o.1.1 = true := Val.pyEq_trans (Val.pyEq_symm x2) k2
      have r2 := hasId_congr x3 k3
      exact ⟨o, ho, hR d hdm o ho r1 r2, r1, r2⟩)
    (by
      intro o ho
      obtain ⟨a, hv, hv'⟩ := (e3 o ho).named
      obtain ⟨x, x1, x2, x3, -, -⟩ := (e3 o ho).said _ _ (.value hv (by simp [Composite]))
      obtain ⟨d, hdm, y1, y2, -⟩ := hd.only x x1
      have r1 : atomEq d.1 o.1.1 = true := Val.pyEq_trans (Val.pyEq_symm y1) x2
      have r2 := hasId_congr y2 x3
      exact ⟨d, hdm, hR d hdm o ho r1 r2, r1, r2⟩)
    (by
      refine hd.distinct.imp ?_
      rintro d e hde o ho ⟨⟨-, r1, r2⟩, -, s1, s2⟩
      exact hde _ (Val.pyEq_trans r1 (Val.pyEq_symm s1)) r2 s2)
    (by
      refine h3.imp ?_
      rintro o o' hoo d hdm ⟨⟨-, r1, r2⟩, -, s1, s2⟩
      have t1 := (hd.tidy d hdm).1
      simp only [Tidy] at t1
      exact hoo ⟨Val.pyEq_trans (Val.pyEq_symm r1) s1, hasId_same t1.2.1 r2 s2⟩)
  refine .arr (hs := m'.map (fun o => .obj o.2)) (sameItems_all (All₂.map _ _ q1 (fun _ _ h => h.1))) (q2.map _)

/-- The hypotheses are met: rows that name what they speak about, and agree, describe what they give. -/
theorem describes_own (cfg : UnCfg) (hx : cfg.row.xml = false) (m : Str) (hm : cfg.idName = some m) (sheets : List SheetIn)
    (h : ∀ r ∈ rowsIn sheets, NamesAll cfg m r.line) (hag : ∀ x y, Said cfg m sheets x → Said cfg m sheets y → x.Agree y) :
    ∃ out w docs, unflatten cfg sheets = .ok (out, w) ∧ docs.map (fun d => .obj d.2) = out ∧ Describes cfg m sheets docs := by
  obtain ⟨out, w, keys, h1, h2, h3, h4⟩ := C80_exactly cfg hx m hm sheets h hag
  obtain ⟨outs, e1, e2, e3⟩ : ∃ outs : List ((Atom × Val) × List (Str × Json)), outs.map (fun o => .obj o.2) = out ∧ outs.map (·.1) = keys ∧
      ∀ o ∈ outs, IsSaid cfg m sheets o.1.1 o.1.2 o.2 := by
    clear h1 h3 h4
    induction h2 with
    | nil => exact ⟨[], rfl, rfl, by simp⟩
    | @cons k j _ _ hk _ ih =>
      obtain ⟨fs, rfl, hk⟩ := hk
      obtain ⟨outs, e1, e2, e3⟩ := ih
      refine ⟨(k, fs) :: outs, by simp [e1], by simp [e2], ?_⟩
      intro o ho
      rcases List.mem_cons.1 ho with rfl | ho
      · exact hk
      · exact e3 o ho
  subst e1 e2
  rw [List.pairwise_map] at h3
  refine ⟨_, w, outs.map (fun o => (o.1.1, o.2)), h1, by simp [List.map_map, Function.comp_def], ?_, ?_, ?_, ?_⟩
  · intro d hd
    obtain ⟨o, ho, rfl⟩ := List.mem_map.1 hd
    have hs := e3 o ho
    refine ⟨hs.tidy, ⟨_, hs.named⟩, ?_⟩
    obtain ⟨a, hv, hv'⟩ := hs.named
    obtain ⟨x, x1, x2, -⟩ := hs.said _ _ (.value hv (by simp [Composite]))
    exact Val.pyEq_right x2
  · rw [List.pairwise_map]
    refine List.Pairwise.imp_of_mem ?_ h3
    intro o o' ho ho' hoo v r1 r2 r3
    have t1 := (e3 o ho).tidy
    have t2 := (e3 o' ho').tidy
    simp only [Tidy] at t1 t2
    exact hoo ⟨r1, Val.pyEq_trans (hasId_same t1.2.1 (e3 o ho).named r2) (hasId_same t2.2.1 r3 (e3 o' ho').named)⟩
  · intro x hxs
    obtain ⟨key, k1, k2, k3⟩ := h4 x hxs
    obtain ⟨o, ho, rfl⟩ := List.mem_map.1 k1
    exact ⟨_, List.mem_map_of_mem ho, k2, hasId_congr (e3 o ho).named (Val.pyEq_symm k3), (e3 o ho).holds x hxs k2 k3⟩
  · intro d hd p j hp
    obtain ⟨o, ho, rfl⟩ := List.mem_map.1 hd
    obtain ⟨x, x1, x2, x3, x4, x5⟩ := (e3 o ho).said p j hp
    exact ⟨x, x1, x2, hasId_congr (e3 o ho).named (Val.pyEq_symm x3), x4, x5⟩

namespace SpreadEx
/-- The object that `wide` and `tall` describe. -/
def object : List (Str × Json) := [(s%"id", .leaf (.str s%"A")), (s%"t", .leaf (.str s%"T")),
    (s%"l", .arr [.obj [(s%"id", .leaf (.int 1)), (s%"x", .obj [(s%"y", .leaf (.str s%"p"))])],
      .obj [(s%"id", .leaf (.int 2)), (s%"x", .obj [(s%"y", .leaf (.str s%"q"))]), (s%"m", .arr [.obj [(s%"id", .leaf (.str s%"n")), (s%"z", .leaf (.str s%"r"))]])]])]

set_option synthInstance.maxSize 2000 in
/-- A concrete case of the hypotheses. -/
example : (∀ r ∈ rowsIn wide, NamesAll cfg s%"id" r.line) ∧ ∃ root, Describes cfg s%"id" wide [(root, object)] := by
  refine ⟨namesAll_all (by decide +kernel), ?_⟩
  obtain ⟨out, w, docs, h1, h2, h3⟩ := describes_own cfg rfl s%"id" rfl wide (namesAll_all (by decide +kernel)) (agree_all (by decide +kernel))
  have h : unflatten cfg wide = .ok ([.obj object], []) := by decide +kernel
  rw [h] at h1
  simp only [Except.ok.injEq, Prod.mk.injEq] at h1
  rw [← h1.1] at h2
  cases docs with
  | nil => cases h2
  | cons d r =>
    simp only [List.map_cons, List.cons.injEq, Json.obj.injEq, List.map_eq_nil_iff] at h2
    obtain ⟨h2, rfl⟩ := h2
    obtain ⟨root, fs⟩ := d
    simp only at h2
    subst h2
    exact ⟨root, h3⟩
end SpreadEx

end Verif
