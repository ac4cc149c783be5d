import Verif.Props.Titles
/-! C34 with titles: the sub-sheets, their columns and their id columns. -/
namespace Verif
open Spec

theorem titlePrefix_steps (l : List Hop) (a : Str) :
    titlePrefix (some a) l = (stepTitles l).map (fun ts => a ++ (ts.map (· ++ s%":")).flatten) := by
  induction l generalizing a with
  | nil => simp [titlePrefix, stepTitles]
  | cons x r ih =>
    cases hx : titleOf x.prop with
    | none =>
      have : titlePrefix (some a) (x :: r) = titlePrefix none r := by simp [titlePrefix, hx]
      rw [this, titlePrefix_none, stepTitles, hx]; rfl
    | some b =>
      have : titlePrefix (some a) (x :: r) = titlePrefix (some (a ++ (b ++ s%":"))) r := by simp [titlePrefix, hx]
      rw [this, ih, stepTitles, hx]
      cases stepTitles r <;> simp

theorem stepTitles_mem {l : List Hop} {ts : List Str} (h : stepTitles l = some ts) : ∀ t ∈ ts, ∃ x ∈ l, titleOf x.prop = some t := by
  induction l generalizing ts with
  | nil => simp [stepTitles] at h; subst h; simp
  | cons x r ih =>
    cases hx : titleOf x.prop with
    | none => simp [stepTitles, hx] at h
    | some b =>
      cases hr : stepTitles r with
      | none => simp [stepTitles, hx, hr] at h
      | some us =>
        simp [stepTitles, hx, hr] at h
        subst h
        intro t ht
        rcases List.mem_cons.1 ht with rfl | ht
        · exact ⟨x, List.mem_cons_self .., hx⟩
        · obtain ⟨y, hy, e⟩ := ih hr t ht
          exact ⟨y, List.mem_cons_of_mem _ hy, e⟩

theorem join_ends (c : Char) (ts : List Str) (n : Str) : Py.join [c] (ts ++ [n]) = (ts.map (· ++ [c])).flatten ++ n := by
  induction ts with
  | nil => simp [Py.join]
  | cons x r ih =>
    cases r with
    | nil => simp [Py.join]
    | cons y t =>
      simp only [List.cons_append, Py.join, List.map_cons, List.flatten_cons, List.append_assoc] at ih ⊢
      rw [ih]

theorem subName_titles (trunc : Nat) (ts : List Str) (h : ∀ t ∈ ts, ':' ∉ t ∧ t ≠ s%"0") (n : Str) :
    makeSubSheetName ((ts.map (· ++ s%":")).flatten) n trunc ':' = Py.replaceAll s%":" s%"-" (Py.join s%"_" (ts.map (·.take trunc) ++ [n])) := by
  unfold makeSubSheetName
  congr 1
  have e : (ts.map (· ++ s%":")).flatten = Py.join s%":" (ts ++ [[]]) := by
    have := join_ends ':' ts []
    rw [List.append_nil] at this
    exact this.symm
  rw [e, Verif.Py.split_join (by simp) (fun p hp => by
    rcases List.mem_append.1 hp with hp | hp
    · exact (h p hp).1
    · rw [List.mem_singleton.1 hp]; simp)]
  rw [List.filter_append]
  have h1 : List.filter (fun x => decide (x ≠ s%"0")) [([] : Str)] = [[]] := by decide
  have h2 : List.filter (fun x => decide (x ≠ s%"0")) ts = ts := List.filter_eq_self.2 (fun t ht => by simpa using (h t ht).2)
  rw [h1, h2, List.map_append]
  simp only [List.map_cons, List.map_nil, List.take_nil]
  exact (join_snoc _ _ _)

theorem ctx_title (cfg : SchemaCfg) (r : Schema) (steps : List Hop) :
    (ctxAt cfg {} r steps).parentTitle = (stepTitles steps).map (fun ts => (ts.map (· ++ s%":")).flatten) := by
  rw [ctxAt_title]
  exact (titlePrefix_steps steps []).trans (by simp)

theorem titled_name {cfg : SchemaCfg} {s r q : Schema} (hu : cfg.useTitles = true) (hw : WellNamed cfg s) (hp : PlainTitles cfg s) (hr : Starts s r)
    {steps : List Hop} (h : Trail cfg r steps q) (n : Str) (p : Schema) :
    subNameOf cfg (ctxAt cfg {} r steps) n (titleOf p) = titledTableName cfg steps n p := by
  have hn := names_ok hw hr h
  unfold subNameOf titledTableName
  rw [hu, ctx_title]
  cases hs : stepTitles steps with
  | none =>
    simp only [Option.map_none]
    rw [ctxAt_path cfg steps {} r (fun x hx => (hn x hx).1)]
    exact subName_eq cfg steps hn n
  | some ts =>
    simp only [Option.map_some]
    refine subName_titles cfg.trunc ts (fun t ht => ?_) _
    obtain ⟨x, hx, e⟩ := stepTitles_mem hs t ht
    obtain ⟨a, b, y, rfl, h1, h2⟩ := h.fields x hx
    obtain ⟨g1, g2⟩ := hp a x.name x.prop t ⟨r, y, hr, h1, h2⟩ e
    refine ⟨g1, fun e => ?_⟩
    subst e
    revert g2; decide

/-- C34 with titles, sheets: there is a sub-sheet for exactly the arrays of objects of the
schema, under the name by titles. -/
theorem C34_sheets_titles (cfg : SchemaCfg) (s : Schema) (sp : Parsed) (h : parseRoot cfg s = .ok sp) (hu : cfg.useTitles = true)
    (hw : WellNamed cfg s) (hp : PlainTitles cfg s) (nm : Str) :
    nm ∈ Dict.keys sp.subs ↔ ∃ steps n p, Reached cfg s steps n p ∧ kind cfg.wkt p = .objects ∧ nm = titledTableName cfg steps n p := by
  have h1 := (sub_event h nm).1
  rw [← Dict.get_isSome_iff, Option.isSome_iff_exists, h1]
  constructor
  · rintro ⟨r, hr, he⟩
    obtain ⟨steps, q, n, p, ht, hf, hl⟩ := pev_trail.1 he
    cases hl with
    | sheet hk => exact ⟨steps, n, p, ⟨r, q, hr, ht, hf⟩, hk, titled_name hu hw hp hr ht n p⟩
  · rintro ⟨steps, n, p, ⟨r, q, hr, ht, hf⟩, hk, rfl⟩
    refine ⟨r, hr, pev_trail.2 ⟨steps, q, n, p, ht, hf, ?_⟩⟩
    rw [← titled_name hu hw hp hr ht n p]
    exact .sheet hk

/-- C34 with titles, columns of a sub-sheet: exactly the headings by titles of the fields
shown for the items of the arrays of objects with that sheet name, of those that have
one (a title for the field and for everything above it). -/
theorem C34_columns_titles (cfg : SchemaCfg) (s : Schema) (sp : Parsed) (h : parseRoot cfg s = .ok sp) (hu : cfg.useTitles = true)
    (hw : WellNamed cfg s) (hp : PlainTitles cfg s) (nm : Str) (sh : Sheet) (hsh : Dict.get sp.subs nm = some sh) (c : Str) :
    c ∈ sh.columns ↔ ∃ steps n p i f t, Reached cfg s steps n p ∧ kind cfg.wkt p = .objects ∧ p.items = some i ∧
      nm = titledTableName cfg steps n p ∧ Shown cfg i f (some t) ∧
      ∃ a, titlePath steps p = some a ∧ c = a ++ s%":" ++ t := by
  have h1 := (sub_event h nm).2.1 c
  have h2 : c ∈ sh.columns ↔ ∃ sh, Dict.get sp.subs nm = some sh ∧ c ∈ sh.columns :=
    ⟨fun hc => ⟨sh, hsh, hc⟩, fun ⟨sh', hs', hc⟩ => by rw [hsh] at hs'; cases hs'; exact hc⟩
  rw [h2, h1]
  have path : ∀ (l : List Hop) (p : Schema) (a : Str), titlePath l p = some a ↔
      ∃ ts b, stepTitles l = some ts ∧ titleOf p = some b ∧ a = (ts.map (· ++ s%":")).flatten ++ b := by
    intro l
    induction l with
    | nil => intro p a; simp [titlePath, titlesText, stepTitles, eq_comm]
    | cons x r ih =>
      intro p a
      rw [titlePath_cons, stepTitles]
      cases hx : titleOf x.prop with
      | none => simp
      | some y =>
        simp only [Option.bind_some]
        constructor
        · intro e
          cases hr : titlePath r p with
          | none => rw [hr] at e; cases e
          | some z =>
            rw [hr] at e
            obtain ⟨ts, b, h1, h2, h3⟩ := (ih p z).1 hr
            refine ⟨y :: ts, b, by rw [h1]; rfl, h2, ?_⟩
            simp at e
            rw [← e, h3]; simp
        · rintro ⟨ts, b, h1, h2, h3⟩
          cases hr : stepTitles r with
          | none => rw [hr] at h1; cases h1
          | some us =>
            rw [hr] at h1
            simp at h1
            subst h1
            rw [(ih p _).2 ⟨us, b, hr, h2, rfl⟩, h3]
            simp
  constructor
  · rintro ⟨r, hr, he⟩
    obtain ⟨steps, q, n, p, ht, hf, hl⟩ := pev_trail.1 he
    cases hl with
    | @col i f _ t hk hi hs hc =>
      cases hc with
      | plain hc => rw [hu] at hc; cases hc
      | @titled pt a b _ hpt ha hb =>
        subst hb
        refine ⟨steps, n, p, i, f, b, ⟨r, q, hr, ht, hf⟩, hk, hi, titled_name hu hw hp hr ht n p, hs, pt ++ a, ?_, by simp⟩
        rw [ctx_title] at hpt
        cases hst : stepTitles steps with
        | none => rw [hst] at hpt; cases hpt
        | some ts =>
          rw [hst] at hpt
          injection hpt with hpt
          exact (path steps p _).2 ⟨ts, a, hst, ha, by rw [← hpt]⟩
  · rintro ⟨steps, n, p, i, f, t, ⟨r, q, hr, ht, hf⟩, hk, hi, rfl, hs, a, ha, rfl⟩
    refine ⟨r, hr, pev_trail.2 ⟨steps, q, n, p, ht, hf, ?_⟩⟩
    obtain ⟨ts, b, e1, e2, rfl⟩ := (path steps p a).1 ha
    rw [← titled_name hu hw hp hr ht n p]
    refine .col hk hi hs ?_
    have := ColOf.titled (cfg := cfg) (pp := (ctxAt cfg {} r steps).parentPath) (name := n) (title := titleOf p) (pt := (ctxAt cfg {} r steps).parentTitle)
      (f := f) (t := some t) (p := (ts.map (· ++ s%":")).flatten) (a := b) (b := t) hu (by rw [ctx_title, e1]; rfl) e2 rfl
    simpa using this

/-- The id columns passed down, with titles. -/
theorem ctxAt_ids_titles {cfg : SchemaCfg} (hu : cfg.useTitles = true) {s : Schema} {steps : List Hop} {q : Schema} (ht : Trail cfg s steps q)
    (ctx : SCtx) (f : Str) :
    f ∈ idsBelow cfg (ctxAt cfg ctx s steps) q ↔ f ∈ ctx.idFields ∨ ∃ above below x i, steps = above ++ below ∧
      Trail cfg s above x ∧ Trail cfg x below q ∧ Dict.get (x.properties.getD []) s%"id" = some i ∧
      f = ((ctxAt cfg ctx s above).parentTitle.getD (ctxAt cfg ctx s above).parentPath) ++
        (match i.info.title with | some [] => s%"id" | some t => t | none => s%"id") := by
  have one : ∀ (ctx : SCtx) (x : Schema) (f : Str), f ∈ idsBelow cfg ctx x ↔ f ∈ ctx.idFields ∨ ∃ i, Dict.get (x.properties.getD []) s%"id" = some i ∧
      f = (ctx.parentTitle.getD ctx.parentPath) ++ (match i.info.title with | some [] => s%"id" | some t => t | none => s%"id") := by
    intro ctx x f
    unfold idsBelow childIds
    cases hg : Dict.get (x.properties.getD []) s%"id" with
    | none => simp
    | some i =>
      simp only [hu, if_true, List.mem_append, List.mem_singleton]
      constructor
      · rintro (h | h)
        · exact .inl h
        · exact .inr ⟨i, rfl, h⟩
      · rintro (h | ⟨i', e, h⟩)
        · exact .inl h
        · cases e; exact .inr h
  induction ht generalizing ctx with
  | here s =>
    rw [ctxAt, one]
    constructor
    · rintro (h | ⟨i, h1, h2⟩)
      · exact .inl h
      · exact .inr ⟨[], [], s, i, rfl, .here s, .here s, h1, h2⟩
    · rintro (h | ⟨a, b, x, i, hab, ht, _, h1, h2⟩)
      · exact .inl h
      · simp only [List.nil_eq, List.append_eq_nil_iff] at hab
        obtain ⟨rfl, rfl⟩ := hab
        cases ht
        exact .inr ⟨i, h1, h2⟩
  | @object s p q n r h1 h2 h3 ih =>
    rw [ctxAt]
    simp only [stepTo, Bool.false_eq_true, if_false]
    refine (ih _).trans ?_
    constructor
    · rintro (hf | ⟨a, b, x, i, hab, ht, hb, h4, h5⟩)
      · rcases (one ctx s f).1 hf with hf | ⟨i, hi, hf⟩
        · exact .inl hf
        · exact .inr ⟨[], _, s, i, rfl, .here s, .object h1 h2 h3, hi, hf⟩
      · refine .inr ⟨⟨n, p, false⟩ :: a, b, x, i, by rw [hab]; rfl, .object h1 h2 ht, hb, h4, ?_⟩
        rw [h5]; simp [ctxAt, stepTo]
    · rintro (hf | ⟨a, b, x, i, hab, ht, hb, h4, h5⟩)
      · exact .inl ((one ctx s f).2 (.inl hf))
      · cases ht with
        | here => exact .inl ((one ctx s f).2 (.inr ⟨i, h4, h5⟩))
        | object g1 g2 g3 =>
          simp only [List.cons_append, List.cons.injEq, Hop.mk.injEq, and_true, true_and] at hab
          obtain ⟨⟨rfl, rfl⟩, hab⟩ := hab
          refine .inr ⟨_, b, x, i, hab, g3, hb, h4, ?_⟩
          rw [h5]; simp [ctxAt, stepTo]
        | list g1 g2 g3 g4 => simp at hab
  | @list s p j q n r h1 h2 hj h3 ih =>
    rw [ctxAt]
    simp only [stepTo, if_true, hj, Option.getD_some]
    refine (ih _).trans ?_
    constructor
    · rintro (hf | ⟨a, b, x, i, hab, ht, hb, h4, h5⟩)
      · rcases (one ctx s f).1 hf with hf | ⟨i, hi, hf⟩
        · exact .inl hf
        · exact .inr ⟨[], _, s, i, rfl, .here s, .list h1 h2 hj h3, hi, hf⟩
      · refine .inr ⟨⟨n, p, true⟩ :: a, b, x, i, by rw [hab]; rfl, .list h1 h2 hj ht, hb, h4, ?_⟩
        rw [h5]; simp [ctxAt, stepTo, hj]
    · rintro (hf | ⟨a, b, x, i, hab, ht, hb, h4, h5⟩)
      · exact .inl ((one ctx s f).2 (.inl hf))
      · cases ht with
        | here => exact .inl ((one ctx s f).2 (.inr ⟨i, h4, h5⟩))
        | list g1 g2 g3 g4 =>
          simp only [List.cons_append, List.cons.injEq, Hop.mk.injEq, and_true, true_and] at hab
          obtain ⟨⟨rfl, rfl⟩, hab⟩ := hab
          rw [hj] at g3; cases g3
          refine .inr ⟨_, b, x, i, hab, g4, hb, h4, ?_⟩
          rw [h5]; simp [ctxAt, stepTo, hj]
        | object g1 g2 g3 => simp at hab

theorem titledId_eq {cfg : SchemaCfg} {s r q : Schema} (hw : WellNamed cfg s) (hr : Starts s r) {steps : List Hop} (h : Trail cfg r steps q) (i : Schema) :
    ((ctxAt cfg {} r steps).parentTitle.getD (ctxAt cfg {} r steps).parentPath) ++
      (match i.info.title with | some [] => s%"id" | some t => t | none => s%"id") = titledId steps i := by
  have hn := names_ok hw hr h
  rw [ctx_title, ctxAt_path cfg steps {} r (fun x hx => (hn x hx).1)]
  unfold titledId
  cases hs : stepTitles steps with
  | none =>
    cases ht : i.info.title with
    | none => simp [columnPath_eq]
    | some t => cases t <;> simp [columnPath_eq]
  | some ts =>
    cases ht : i.info.title with
    | none => simp [join_ends]
    | some t => cases t <;> simp [join_ends]

/-- C34 with titles, id columns of a sub-sheet: exactly those for the `id` of the objects
that enclose an array with that sheet name, for those of them that have an `id`
property. -/
theorem C34_id_columns_titles (cfg : SchemaCfg) (s : Schema) (sp : Parsed) (h : parseRoot cfg s = .ok sp) (hu : cfg.useTitles = true)
    (hw : WellNamed cfg s) (hp : PlainTitles cfg s) (nm : Str) (sh : Sheet) (hsh : Dict.get sp.subs nm = some sh) (c : Str) :
    c ∈ sh.idColumns ↔ ∃ r above below x q n p i, Starts s r ∧ Trail cfg r above x ∧ Trail cfg x below q ∧ Field cfg q n p ∧
      kind cfg.wkt p = .objects ∧ nm = titledTableName cfg (above ++ below) n p ∧
      Dict.get (x.properties.getD []) s%"id" = some i ∧ c = titledId above i := by
  have h1 := (sub_event h nm).2.2 c
  have h2 : c ∈ sh.idColumns ↔ ∃ sh, Dict.get sp.subs nm = some sh ∧ c ∈ sh.idColumns :=
    ⟨fun hc => ⟨sh, hsh, hc⟩, fun ⟨sh', hs', hc⟩ => by rw [hsh] at hs'; cases hs'; exact hc⟩
  rw [h2, h1]
  constructor
  · rintro ⟨r, hr, he⟩
    obtain ⟨steps, q, n, p, ht, hf, hl⟩ := pev_trail.1 he
    cases hl with
    | id hk hm =>
      rcases (ctxAt_ids_titles hu ht {} c).1 hm with hm | ⟨a, b, x, i, rfl, ha, hb, hid, rfl⟩
      · simp at hm
      · exact ⟨r, a, b, x, q, n, p, i, hr, ha, hb, hf, hk, titled_name hu hw hp hr ht n p, hid, titledId_eq hw hr ha i⟩
  · rintro ⟨r, a, b, x, q, n, p, i, hr, ha, hb, hf, hk, rfl, hid, rfl⟩
    have ht := ha.append hb
    refine ⟨r, hr, pev_trail.2 ⟨a ++ b, q, n, p, ht, hf, ?_⟩⟩
    rw [← titled_name hu hw hp hr ht n p]
    exact .id hk ((ctxAt_ids_titles hu ht {} _).2 (.inr ⟨a, b, x, i, rfl, ha, hb, hid, (titledId_eq hw hr ha i).symm⟩))

/-! ### The hypotheses are met -/

/-- Arrays inside of arrays, with and without titles; the `id` of the records has a title
beside its reference and another one of its own. -/
def titledNest : Schema :=
  .mk { type := .one s%"object" } (some [
    (s%"id", .mk { type := .one s%"string", title := some s%"Own", refTitle := some (some s%"Beside") } none none none),
    (s%"lines", .mk { type := .one s%"array", title := some s%"Order Lines" } none (some
      (.mk { type := .one s%"object" } (some [
        (s%"id", .mk { type := .one s%"string", title := some s%"Line Id" } none none none),
        (s%"parts", .mk { type := .one s%"array" } none (some
          (.mk { type := .one s%"object" } (some [
            (s%"count", .mk { type := .one s%"integer", title := some s%"Count" } none none none),
            (s%"more", .mk { type := .one s%"array", title := some s%"More" } none (some
              (.mk { type := .one s%"object" } (some [
                (s%"x", .mk { type := .one s%"integer", title := some s%"X" } none none none)]) none none)) none)]) none none)) none),
        (s%"taxes", .mk { type := .one s%"array", title := some s%"Taxes" } none (some
          (.mk { type := .one s%"object" } (some [
            (s%"rate", .mk { type := .one s%"number", title := some s%"Rate" } none none none)]) none none)) none)]) none none)) none)]) none none

example (cfg : SchemaCfg) : WellNamed cfg titledNest ∧ PlainTitles cfg titledNest :=
  ⟨wellNamed_of_inside (by decide +kernel), plainTitles_of_inside (by decide +kernel)⟩

/-- The heading of the `id` of the records is `Beside` on the main sheet and `Own` on the
others: a sheet flattened with titles has two spellings of the same column. -/
example : templateOf { useTitles := true } titledNest = some
    ([s%"Beside"],
     [(s%"Order Lines", [s%"Own", s%"Order Lines:Line Id"]), (s%"Ord_parts", [s%"Own", s%"Order Lines:Line Id"]),
      (s%"lin_par_more", [s%"Own", s%"Order Lines:Line Id"]),
      (s%"Ord_Taxes", [s%"Own", s%"Order Lines:Line Id", s%"Order Lines:Taxes:Rate"])]) := by decide +kernel

end Verif
