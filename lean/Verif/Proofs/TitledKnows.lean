import Verif.Proofs.TitledBack
/-! What the parsed schema of the reader knows, and the headings of the sheets that are written. -/
namespace Verif
open Spec

variable {scfg ucfg : SchemaCfg} {s : Schema} {idName : Str} {rootId : Option Str} {sp su : Parsed}

/-- The titles of the properties of the root are in the lookup. -/
theorem root_learned {cfg : SchemaCfg} (h : parseRoot cfg s = .ok su) (hs : Starts s s) (hg : GoodTitles cfg s) {n a : Str} {p : Schema}
    (hf : Field cfg s n p) (ha : titleOf p = some a) : su.lookup.children ≠ [] := by
  obtain ⟨ys, st, h1, _, _, _, h2⟩ := parseRoot_ok h
  have hno := not_oneOf_of_starts hs
  obtain ⟨info, props, items, one⟩ := s
  simp only [Schema.info, Schema.items] at hno
  simp only [parseSchema, hno] at h1
  cases props with
  | none => have := hf.1; simp [Schema.properties] at this
  | some ps =>
    simp only [parseBody, if_neg Bool.false_ne_true] at h1
    obtain ⟨cs', e1, _, e5⟩ := learn_props hg ps (fun x hx => hx) (hg.dict [] _ (.here _)) (fun n p _ => ⟨learns cfg p, fun i _ => learns cfg i⟩) _ _ _ [] [] h1 rfl
    obtain ⟨c, hc, _⟩ := e5 n p hf.1 hf.2 a ha
    rw [h2, e1]
    simp only [putTree, TitleTree.children]
    intro e
    rw [e] at hc
    cases hc

/-- The reader knows the titles. -/
theorem knows (hret : TitlesReturn scfg s idName rootId) (hp : parseRoot scfg s = .ok sp) (hp' : parseRoot ucfg s = .ok su)
    (h1 : ucfg.noDeprecated = scfg.noDeprecated) (h2 : ucfg.wkt = scfg.wkt) : Knows scfg s idName rootId sp su := by
  have hg := good_cfg h1 h2 hret.good
  have hw : WellNamed ucfg s := fun steps n p hr => hret.named steps n p (reached_cfg h1.symm h2.symm hr)
  have hty := typesOf_parsed hp' hw (noClash_of_dicts (fun r hr => starts_only hret.start hr) hg.dict)
  refine ⟨hret, hp, ?_, ⟨?_, ?_, ?_⟩, ?_⟩
  · intro steps n p c hr hc
    exact C36_titles_to_path ucfg s su hp' hret.start hg (plain_cfg h1 h2 hret.plain) steps n p (reached_cfg h1 h2 hr) c hc
  · intro steps n p ty hr hk
    exact hty.column steps n p ty (reached_cfg h1 h2 hr) (by rw [h2]; exact hk)
  · intro steps n p hr hk
    exact hty.objects steps n p (reached_cfg h1 h2 hr) (by rw [h2]; exact hk)
  · intro steps n p hr hk
    exact hty.object steps n p (reached_cfg h1 h2 hr) (by rw [h2]; exact hk)
  · rintro k ⟨steps, n, p, c, ty, hr, hc, _, _⟩
    obtain ⟨r, q, hr0, ht, hf⟩ := hr
    obtain rfl := starts_only hret.start hr0
    have : ∃ m x a, Field scfg r m x ∧ titleOf x = some a := by
      cases ht with
      | here =>
        have ha : titleOf p = some c := by simpa [titlePath, titlesText] using hc
        exact ⟨n, p, c, hf, ha⟩
      | @object _ x _ m t f1 f2 f3 =>
        obtain ⟨a, ha⟩ := hret.good.titled [] _ _ _ (.here _) f1 (.inl f2)
        exact ⟨_, _, a, f1, ha⟩
      | @list _ x i _ m t f1 f2 f2' f3 =>
        obtain ⟨a, ha⟩ := hret.good.titled [] _ _ _ (.here _) f1 (.inr f2)
        exact ⟨_, _, a, f1, ha⟩
    obtain ⟨m, x, a, f1, ha⟩ := this
    exact root_learned hp' hret.start hg (field_cfg h1 f1) ha

/-! ### Headings -/

theorem atPlace_trail (h : TitlesReturn scfg s idName rootId) (hu : scfg.useTitles = true) {x q : Schema} {suf : List Hop} (ht : Trail scfg x suf q) :
    ∀ {ctx : SCtx}, AtPlace scfg s ctx x → AtPlace scfg s (ctxAt scfg ctx x suf) q := by
  induction ht with
  | here => intro ctx hc; exact hc
  | object h1 h2 h3 ih =>
    intro ctx hc
    have := (walk_titles_place h hu hc).1 h1 h2
    simpa [ctxAt, stepTo] using ih this
  | @list _ _ i _ _ _ h1 h2 h0 h3 ih =>
    intro ctx hc
    have := (walk_titles_place h hu hc).2 i h1 h2 h0
    simpa [ctxAt, stepTo, h0] using ih this

/-- The id columns of sub-sheets. -/
theorem idColumns_isId (h : TitlesReturn scfg s idName rootId) (hu : scfg.useTitles = true) (hp : parseRoot scfg s = .ok sp) {nm : Str} {sh : Sheet}
    (hs : Dict.get sp.subs nm = some sh) {c : Str} (hc : c ∈ sh.idColumns) : IsId scfg s c := by
  obtain ⟨r, hr, he⟩ := ((sub_event hp nm).2.2 c).1 ⟨sh, hs, hc⟩
  obtain rfl := starts_only h.start hr
  obtain ⟨steps, q, n, p, ht, hf, hl⟩ := pev_trail.1 he
  cases hl with
  | id hk hm => exact isId_below h hu (atPlace_trail h hu ht ⟨⟨[], .here _, rfl⟩, fun f hf => by cases hf⟩) c hm

theorem titlePrefix_titles (l : List Hop) : ∀ (a pt : Str) (p : Schema) (t : Str), titlePrefix (some a) l = some pt → titleOf p = some t →
    ∃ c, titlePath l p = some c ∧ pt ++ t = a ++ c := by
  induction l with
  | nil =>
    intro a pt p t h1 h2
    simp only [titlePrefix, List.foldl_nil, Option.some.injEq] at h1
    exact ⟨t, by simp [titlePath, titlesText, h2], by rw [h1]⟩
  | cons x r ih =>
    intro a pt p t h1 h2
    cases hx : titleOf x.prop with
    | none =>
      have : titlePrefix none r = some pt := by simpa [titlePrefix, hx] using h1
      rw [titlePrefix_none] at this; cases this
    | some b =>
      have h1' : titlePrefix (some (a ++ (b ++ s%":"))) r = some pt := by simpa [titlePrefix, hx] using h1
      obtain ⟨c, h3, h4⟩ := ih _ _ p t h1' h2
      exact ⟨b ++ s%":" ++ c, by rw [titlePath_cons, hx, h3]; rfl, by rw [h4]; simp⟩

/-- Headings by titles of the writer. -/
def ByTitle (scfg : SchemaCfg) (s : Schema) (c : Str) : Prop := ∃ steps n p, Reached scfg s steps n p ∧ titlePath steps p = some c

/-- Different headings by titles are converted to different paths. -/
theorem Knows.apart (h : Knows scfg s idName rootId sp su) {a b : Str} (ha : ByTitle scfg s a) (hb : ByTitle scfg s b)
    (e : lookupHeader su.lookup a = lookupHeader su.lookup b) : a = b := by
  obtain ⟨x, n, p, h1, h2⟩ := ha
  obtain ⟨y, m, q, g1, g2⟩ := hb
  rw [h.paths _ _ _ _ h1 h2, h.paths _ _ _ _ g1 g2, plainPath_eq, plainPath_eq] at e
  obtain ⟨hn, hx⟩ := reached_name h.returns h1
  obtain ⟨hm, hy⟩ := reached_name h.returns g1
  obtain ⟨rfl, rfl, rfl⟩ := reached_unique h.returns h1 g1 (plain_inj hx hy hn hm e)
  rw [h2] at g2
  exact Option.some.inj g2

theorem HasTitle.byTitle (h : TitlesReturn scfg s idName rootId) {x : Str} (hx : HasTitle scfg s x) : ByTitle scfg s (tau scfg s x) := by
  obtain ⟨steps, n, p, c, ty, h1, h2, h3, _⟩ := hx
  rw [tau_of h ⟨steps, n, p, h1, h2, h3⟩]
  exact ⟨steps, n, p, h1, h2⟩

/-- The columns that the schema gives are the root id, and headings by titles. -/
theorem template_titles (h : Knows scfg s idName rootId sp su) (hu : scfg.useTitles = true)
    (hid : ∀ steps n p, Reached scfg s steps n p → n = s%"id" → titleOf p ≠ none) {cfg : FCfg} (hs : cfg.schema = some sp) (name : Option Str) :
    ∃ hd tl, templateColumns cfg name = hd ++ tl ∧ hd.length ≤ 1 ∧ ∀ c ∈ tl, ByTitle scfg s c := by
  have key : ∀ sh : Sheet, (∀ c ∈ sh.idColumns, ByTitle scfg s c) → (∀ c ∈ sh.columns, ByTitle scfg s c) →
      ∃ hd tl, keptColumns cfg sh = hd ++ tl ∧ hd.length ≤ 1 ∧ ∀ c ∈ tl, ByTitle scfg s c := by
    intro sh h1 h2
    refine ⟨_, _, rfl, ?_, ?_⟩
    · split <;> simp
    · intro c hc
      rcases List.mem_append.1 hc with hc | hc
      · exact h1 c hc
      · split at hc
        · cases hc
        · exact h2 c hc
  have hcol : ∀ c, (c ∈ sp.main.columns ∨ ∃ nm sh, (nm, sh) ∈ sp.subs ∧ c ∈ sh.columns) → ByTitle scfg s c := by
    intro c hc
    obtain ⟨steps, n, p, h1, h2⟩ := columns_stand_for scfg s sp h.wrote h.returns.named c hc
    unfold StandsFor at h2
    rw [if_pos hu] at h2
    exact ⟨steps, n, p, h1, h2⟩
  unfold templateColumns
  rw [hs]
  cases name with
  | none =>
    refine key sp.main ?_ (fun c hc => hcol c (.inl hc))
    intro c hc
    have : sp.main.idColumns = [] := parseRoot_main (P := fun s => s.idColumns = []) (fun s f ts hs => by rw [← hs]; exact addField_ids s f)
      (fun s f hs => by rw [← hs]; exact addField_ids s f) rfl h.wrote
    rw [this] at hc
    cases hc
  | some nm =>
    dsimp only
    cases hg : Dict.get sp.subs nm with
    | none => exact ⟨[], [], rfl, by simp, by simp⟩
    | some sh =>
      refine key sh ?_ (fun c hc => hcol c (.inr ⟨nm, sh, Dict.get_eq_some_mem hg, hc⟩))
      intro c hc
      obtain ⟨steps, q, p, pt, h1, h2, h3, h4⟩ := idColumns_isId h.returns hu h.wrote hg hc
      have hr := reached_of h.returns.start h1 (h.returns.ids _ _ _ h1 h2).1
      cases ht : titleOf p with
      | none => exact absurd ht (hid _ _ _ hr rfl)
      | some t =>
        obtain ⟨c', g1, g2⟩ := titlePrefix_titles steps [] pt p t h3 ht
        rw [ht] at h4
        simp only [Option.getD_some, List.nil_append] at h4 g2
        rw [h4, g2]
        exact ⟨steps, s%"id", p, hr, g1⟩

/-- No column with data is followed by a column that is converted to the same path. -/
theorem headings_apart (h : Knows scfg s idName rootId sp su) {hs hd tl : List Str} (hn : hs.Nodup) (e : hs = hd ++ tl) (hl : hd.length ≤ 1)
    (ht : ∀ c ∈ tl, ByTitle scfg s c) :
    hs.Pairwise (fun a b => lookupHeader su.lookup a = lookupHeader su.lookup b → ¬ ByTitle scfg s a) := by
  have htl : tl.Nodup → tl.Pairwise (fun a b => lookupHeader su.lookup a = lookupHeader su.lookup b → ¬ ByTitle scfg s a) := by
    intro hn
    refine List.Pairwise.imp_of_mem ?_ hn
    intro a b ha hb hne e
    exact absurd (h.apart (ht a ha) (ht b hb) e) hne
  subst e
  match hd, hl with
  | [], _ => exact htl hn
  | [r], _ =>
    simp only [List.cons_append, List.nil_append, List.nodup_cons] at hn ⊢
    refine .cons ?_ (htl hn.2)
    intro b hb e hr
    exact hn.1 (by rw [h.apart hr (ht b hb) e]; exact hb)

end Verif
