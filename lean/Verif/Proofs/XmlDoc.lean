import Verif.Spec.XmlDoc
import Verif.Spec.XmlTrip
import Verif.Props.XmlLists
import Verif.Props.XmlRender
/-! XML elements and the dicts that show them. -/
namespace Verif
open Spec Xml

mutual
/-- The dict has the attributes, the text (under `tk`) and the elements of `e`. -/
def Shows (tk : Str) (fs : List (Str × Json)) : Elem → Prop
  | .mk _ a x cs =>
    (fs.filter (fun f => isAttribute f.1)).Perm (atAttribs a) ∧
    fs.filter (fun f => f.1 = tk) = (stripText x).toList.map (fun s => (tk, .leaf (.str s))) ∧
    (∀ f ∈ fs, isAttribute f.1 = false → f.1 ≠ tk → scalarsOf f.2 = [] ∧ ∀ l m, f.2 = .arr l → .arr m ∉ l) ∧
    ∃ ks, (kids fs).Perm ks ∧ ShowsAll tk ks cs
/-- The same for a list of dicts with their tags. -/
def ShowsAll (tk : Str) : List (Str × List (Str × Json)) → List Elem → Prop
  | [], [] => True
  | kg :: r, c :: cs => (kg.1 = c.tag ∧ Shows tk kg.2 c) ∧ ShowsAll tk r cs
  | _, _ => False
end

theorem showsAll_iff {tk : Str} {ks : List (Str × List (Str × Json))} {cs : List Elem} :
    ShowsAll tk ks cs ↔ All₂ (fun kg c => kg.1 = Elem.tag c ∧ Shows tk kg.2 c) ks cs := by
  induction ks generalizing cs with
  | nil =>
    cases cs with
    | nil => simp only [ShowsAll, true_iff]; exact .nil
    | cons c cs => simp only [ShowsAll, false_iff]; intro h; cases h
  | cons k ks ih =>
    cases cs with
    | nil => simp only [ShowsAll, false_iff]; intro h; cases h
    | cons c cs =>
      simp only [ShowsAll, ih]
      constructor
      · intro h; exact .cons h.1 h.2
      · intro h; cases h with | cons h1 h2 => exact ⟨h1, h2⟩

theorem all₂_perm {α β : Type} {R : α → β → Prop} {l l' : List α} (hp : l.Perm l') : ∀ {m : List β}, All₂ R l m → ∃ m', m.Perm m' ∧ All₂ R l' m' := by
  induction hp with
  | nil => intro m h; exact ⟨m, .refl _, h⟩
  | cons x _ ih =>
    intro m h
    cases h with
    | cons h1 h2 =>
      obtain ⟨m', h3, h4⟩ := ih h2
      exact ⟨_, h3.cons _, .cons h1 h4⟩
  | swap x y r =>
    intro m h
    cases h with
    | cons h1 h2 =>
      cases h2 with
      | cons h2 h3 => exact ⟨_, .swap _ _ _, .cons h2 (.cons h1 h3)⟩
  | trans _ _ ih1 ih2 =>
    intro m h
    obtain ⟨m1, h1, h2⟩ := ih1 h
    obtain ⟨m2, h3, h4⟩ := ih2 h2
    exact ⟨m2, h1.trans h3, h4⟩

theorem all₂_right' {α β : Type} {R : α → β → Prop} {l : List α} {m : List β} (h : All₂ R l m) : ∀ y ∈ m, ∃ x ∈ l, R x y := by
  induction h with
  | nil => intro x hx; cases hx
  | cons h1 _ ih =>
    intro x hx
    rcases List.mem_cons.1 hx with rfl | hx
    · exact ⟨_, by simp, h1⟩
    · obtain ⟨y, hy, h2⟩ := ih x hx
      exact ⟨y, by simp [hy], h2⟩

/-- Of dicts that show elements. -/
def Plainly (tk : Str) (fs : List (Str × Json)) : Prop := ∀ f ∈ fs, isAttribute f.1 = true ∨ f.1 = tk → ∃ s, f.2 = .leaf (.str s)

/-- A change of dicts that does not change what they show. -/
structure Keeps (tk tk' : Str) (Rel : List (Str × Json) → List (Str × Json) → Prop) : Prop where
  attrs : ∀ {fs gs}, Rel fs gs → Plainly tk fs → (gs.filter (fun f => isAttribute f.1)).Perm (fs.filter (fun f => isAttribute f.1))
  text : ∀ {fs gs}, Rel fs gs → Plainly tk fs → ∀ x : Option Str, fs.filter (fun f => f.1 = tk) = x.toList.map (fun s => (tk, .leaf (.str s))) →
    gs.filter (fun f => f.1 = tk') = x.toList.map (fun s => (tk', .leaf (.str s)))
  others : ∀ {fs gs}, Rel fs gs → (∀ f ∈ fs, isAttribute f.1 = false → f.1 ≠ tk → scalarsOf f.2 = [] ∧ ∀ l m, f.2 = .arr l → .arr m ∉ l) →
    ∀ f ∈ gs, isAttribute f.1 = false → f.1 ≠ tk' → scalarsOf f.2 = [] ∧ ∀ l m, f.2 = .arr l → .arr m ∉ l
  kids : ∀ {fs gs}, Rel fs gs → Plainly tk fs → ∃ ks, (kids gs).Perm ks ∧ All₂ (fun x y => x.1 = y.1 ∧ Rel x.2 y.2) (kids fs) ks

theorem plainly_of {tk : Str} {a : List (Str × Str)} {x : Option Str} {fs : List (Str × Json)} (h : (fs.filter (fun f => isAttribute f.1)).Perm (atAttribs a))
    (h2 : fs.filter (fun f => f.1 = tk) = x.toList.map (fun s => (tk, .leaf (.str s)))) : Plainly tk fs := by
  intro f hf ha
  rcases ha with ha | ha
  · have := h.mem_iff.1 (List.mem_filter.2 ⟨hf, ha⟩)
    obtain ⟨p, _, rfl⟩ := List.mem_map.1 this
    exact ⟨p.2, rfl⟩
  · have : f ∈ fs.filter (fun f => f.1 = tk) := List.mem_filter.2 ⟨hf, by simpa using ha⟩
    rw [h2] at this
    obtain ⟨p, _, rfl⟩ := List.mem_map.1 this
    exact ⟨p, rfl⟩

mutual
theorem shows_rel {tk tk' : Str} {Rel : List (Str × Json) → List (Str × Json) → Prop} (hk : Keeps tk tk' Rel) {fs gs : List (Str × Json)} (hr : Rel fs gs)
    (e : Elem) (h : Shows tk fs e) : Shows tk' gs e := by
  match e with
  | .mk t a x cs =>
    rw [Shows] at h ⊢
    obtain ⟨h1, h2, h3, ks, h4, h5⟩ := h
    have hp := plainly_of h1 h2
    refine ⟨(hk.attrs hr hp).trans h1, hk.text hr hp _ h2, hk.others hr h3, ?_⟩
    obtain ⟨ks', g1, g2⟩ := hk.kids hr hp
    obtain ⟨m, g3, g4⟩ := all₂_perm h4 g2
    exact ⟨m, g1.trans g3, showsAll_rel hk cs g4 h5⟩
termination_by structural e
theorem showsAll_rel {tk tk' : Str} {Rel : List (Str × Json) → List (Str × Json) → Prop} (hk : Keeps tk tk' Rel) (cs : List Elem)
    {ks ks' : List (Str × List (Str × Json))} (hr : All₂ (fun x y => x.1 = y.1 ∧ Rel x.2 y.2) ks ks') (h : ShowsAll tk ks cs) : ShowsAll tk' ks' cs := by
  match cs with
  | [] =>
    cases hr with
    | nil => trivial
    | cons _ _ => cases h
  | c :: cs =>
    cases hr with
    | nil => cases h
    | cons g1 g2 =>
      rw [ShowsAll] at h ⊢
      exact ⟨⟨g1.1 ▸ h.1.1, shows_rel hk g1.2 c h.1.2⟩, showsAll_rel hk cs g2 h.2⟩
termination_by structural cs
end

/-- A change of an entry. -/
structure Entry (tk tk' : Str) (Rel : List (Str × Json) → List (Str × Json) → Prop) (f g : Str × Json) : Prop where
  attr : isAttribute g.1 = isAttribute f.1
  key : f.1 ≠ tk → g.1 = f.1
  text : f.1 = tk ↔ g.1 = tk'
  leaf : ∀ a, f.2 = .leaf a → g.2 = .leaf a
  others : scalarsOf f.2 = [] → (∀ l m, f.2 = .arr l → .arr m ∉ l) → scalarsOf g.2 = [] ∧ ∀ l m, g.2 = .arr l → .arr m ∉ l
  dicts : ∃ m, (dictsOf g.2).Perm m ∧ All₂ Rel (dictsOf f.2) m

theorem perm_short {α : Type} {l : List α} {x : Option α} (h : l.Perm x.toList) : l = x.toList := by
  cases x with
  | none => simpa using h
  | some a => simpa [List.perm_singleton] using h

theorem keeps_of {tk tk' : Str} (ht : isAttribute tk = false) {Rel : List (Str × Json) → List (Str × Json) → Prop}
    (h : ∀ {fs gs}, Rel fs gs → ∃ hs, All₂ (Entry tk tk' Rel) fs hs ∧ hs.Perm gs) : Keeps tk tk' Rel where
  attrs := by
    intro fs gs hr hp
    obtain ⟨hs, h1, h2⟩ := h hr
    refine (h2.symm.filter _).trans ?_
    have : hs.filter (fun f => isAttribute f.1) = fs.filter (fun f => isAttribute f.1) := by
      clear h2 hr
      induction h1 with
      | nil => rfl
      | @cons f g _ _ h3 _ ih =>
        have ih := ih (fun f hf => hp f (by simp [hf]))
        simp only [List.filter_cons, h3.attr]
        split
        · rename_i ha
          obtain ⟨s, hs⟩ := hp f (by simp) (.inl ha)
          have h4 : g.1 = f.1 := h3.key (by rintro rfl; rw [ht] at ha; cases ha)
          have h5 := h3.leaf _ hs
          rw [ih]
          congr 1
          exact Prod.ext h4 (h5.trans hs.symm)
        · exact ih
    rw [this]
  text := by
    intro fs gs hr hp x hx
    obtain ⟨hs, h1, h2⟩ := h hr
    have h3 : hs.filter (fun f => f.1 = tk') = x.toList.map (fun s => (tk', .leaf (.str s))) := by
      have h4 : hs.filter (fun f => f.1 = tk') = (fs.filter (fun f => f.1 = tk)).map (fun f => (tk', f.2)) := by
        clear h2 hr hx
        induction h1 with
        | nil => rfl
        | @cons f g _ _ h3 _ ih =>
          have ih := ih (fun f hf => hp f (by simp [hf]))
          simp only [List.filter_cons]
          by_cases hf : f.1 = tk
          · obtain ⟨s, hs⟩ := hp f (by simp) (.inr hf)
            rw [if_pos (by simpa using h3.text.1 hf), if_pos (by simpa using hf), ih, List.map_cons]
            congr 1
            exact Prod.ext (h3.text.1 hf) ((h3.leaf _ hs).trans hs.symm)
          · rw [if_neg (by simpa using fun e => hf (h3.text.2 e)), if_neg (by simpa using hf), ih]
      rw [h4, hx, List.map_map]
      rfl
    have h4 : (gs.filter (fun f => f.1 = tk')).Perm (x.map (fun s => (tk', Json.leaf (.str s)))).toList := by
      refine (h2.symm.filter _).trans ?_
      rw [h3]
      cases x <;> exact .refl _
    rw [perm_short h4]
    cases x <;> rfl
  others := by
    intro fs gs hr hf g hg ha hk
    obtain ⟨hs, h1, h2⟩ := h hr
    have hg := h2.mem_iff.2 hg
    obtain ⟨f, hf', h3⟩ := all₂_right' h1 g hg
    have h4 := hf f hf' (h3.attr ▸ ha) (fun e => hk (h3.text.1 e))
    exact h3.others h4.1 h4.2
  kids := by
    intro fs gs hr hp
    obtain ⟨hs, h1, h2⟩ := h hr
    have h3 : ∃ ks, (Spec.kids hs).Perm ks ∧ All₂ (fun x y => x.1 = y.1 ∧ Rel x.2 y.2) (Spec.kids fs) ks := by
      clear h2 hr
      induction h1 with
      | nil => exact ⟨[], .refl _, .nil⟩
      | @cons f g _ _ h3 _ ih =>
        obtain ⟨ks, h4, h5⟩ := ih (fun f hf => hp f (by simp [hf]))
        simp only [Spec.kids, List.flatMap_cons, h3.attr] at h4 h5 ⊢
        split
        · exact ⟨ks, h4, h5⟩
        · obtain ⟨m, h6, h7⟩ := h3.dicts
          by_cases hk : f.1 = tk
          · obtain ⟨s, hs⟩ := hp f (by simp) (.inr hk)
            rw [hs, h3.leaf _ hs]
            exact ⟨ks, h4, h5⟩
          · rw [h3.key hk]
            refine ⟨m.map (fun g => (f.1, g)) ++ ks, (h6.map _).append h4, all₂_append ?_ h5⟩
            clear h6
            generalize dictsOf f.2 = d at h7
            induction h7 with
            | nil => exact .nil
            | cons h8 _ ih => exact .cons ⟨rfl, h8⟩ ih
    obtain ⟨ks, h4, h5⟩ := h3
    exact ⟨ks, (h2.symm.flatMap_right _).trans h4, h5⟩

/-! ### Lists and dicts -/

theorem items_scalars {l : List Json} : scalarsOf (.arr l) = [] ↔ ∀ a, .leaf a ∉ l := by
  simp only [scalarsOf, List.filterMap_eq_nil_iff]
  constructor
  · intro h a hm; simpa using h _ hm
  · intro h x hm
    cases x with
    | leaf a => exact absurd hm (h a)
    | obj _ => rfl
    | arr _ => rfl

/-- Some wrapping. -/
def WrapRel (fs gs : List (Str × Json)) : Prop := ∃ w p, WrappedFields w p fs gs

theorem wrapItems_rel {w : List Str → Prop} {p : List Str} : {l m : List Json} → WrappedItems w p l m →
    (∀ a, .leaf a ∈ m → .leaf a ∈ l) ∧ (∀ a, .arr a ∈ m → .arr a ∈ l) ∧ All₂ WrapRel (dictsOf (.arr l)) (dictsOf (.arr m))
  | _, _, .nil => ⟨by simp, by simp, .nil⟩
  | _, _, .dict h1 h2 => by
    obtain ⟨g1, g2, g3⟩ := wrapItems_rel h2
    refine ⟨?_, ?_, .cons ⟨_, _, h1⟩ g3⟩
    · intro a ha; simpa using g1 a (by simpa using ha)
    · intro a ha; simpa using g2 a (by simpa using ha)
  | _, _, .leaf h2 => by
    obtain ⟨g1, g2, g3⟩ := wrapItems_rel h2
    refine ⟨?_, ?_, g3⟩
    · intro a ha; simp only [List.mem_cons] at ha ⊢; exact ha.imp id (g1 a)
    · intro a ha; simpa using g2 a (by simpa using ha)
  | _, _, .list h2 => by
    obtain ⟨g1, g2, g3⟩ := wrapItems_rel h2
    refine ⟨?_, ?_, g3⟩
    · intro a ha; simpa using g1 a (by simpa using ha)
    · intro a ha; simp only [List.mem_cons] at ha ⊢; exact ha.imp id (g2 a)

theorem wrapped_entry {tk : Str} {w : List Str → Prop} {p : List Str} {k : Str} {v u : Json} (h : Wrapped w p v u) : Entry tk tk WrapRel (k, v) (k, u) where
  attr := rfl
  key := fun _ => rfl
  text := Iff.rfl
  leaf := by intro a e; simp only at e; subst e; cases h; rfl
  others := by
    intro h1 h2
    simp only at h1 h2 ⊢
    cases h with
    | leaf => exact ⟨h1, h2⟩
    | dict => exact ⟨rfl, by intro l m e; cases e⟩
    | wrap => exact ⟨rfl, by intro l m e; cases e; simp⟩
    | list hi =>
      obtain ⟨g1, g2, -⟩ := wrapItems_rel hi
      refine ⟨items_scalars.2 (fun a ha => items_scalars.1 h1 a (g1 a ha)), ?_⟩
      intro l m e
      cases e
      exact fun hm => h2 _ _ rfl (g2 _ hm)
  dicts := by
    cases h with
    | leaf => exact ⟨[], .refl _, .nil⟩
    | dict _ hf => exact ⟨_, .refl _, .cons ⟨_, _, hf⟩ .nil⟩
    | wrap _ hf => exact ⟨_, .refl _, .cons ⟨_, _, hf⟩ .nil⟩
    | list hi => exact ⟨_, .refl _, (wrapItems_rel hi).2.2⟩

theorem wrapped_entries {tk : Str} {w : List Str → Prop} {p : List Str} : {fs gs : List (Str × Json)} → WrappedFields w p fs gs → All₂ (Entry tk tk WrapRel) fs gs
  | _, _, .nil => .nil
  | _, _, .cons h hr => .cons (wrapped_entry h) (wrapped_entries hr)

theorem keeps_wrap {tk : Str} (ht : isAttribute tk = false) : Keeps tk tk WrapRel := keeps_of ht (by
  rintro fs gs ⟨w, p, h⟩
  exact ⟨gs, wrapped_entries h, .refl _⟩)

/-! ### Order -/

def OrderRel (fs gs : List (Str × Json)) : Prop := ∃ hs, RearrangedFields fs hs ∧ hs.Perm gs

theorem rearranged_items {l m : List Json} (h : RearrangedItems l m) :
    (∀ a, .leaf a ∈ m → .leaf a ∈ l) ∧ ((∃ a, .arr a ∈ m) → ∃ a, .arr a ∈ l) ∧ All₂ OrderRel (dictsOf (.arr l)) (dictsOf (.arr m)) := by
  match l, m, h with
  | _, _, .nil => exact ⟨by simp, by simp, .nil⟩
  | _, _, .cons h1 h2 =>
    obtain ⟨g1, g2, g3⟩ := rearranged_items h2
    cases h1 with
    | leaf =>
      refine ⟨?_, ?_, g3⟩
      · intro a ha; simp only [List.mem_cons] at ha ⊢; exact ha.imp id (g1 a)
      · rintro ⟨a, ha⟩; obtain ⟨b, hb⟩ := g2 ⟨a, by simpa using ha⟩; exact ⟨b, by simp [hb]⟩
    | obj hf hp =>
      refine ⟨?_, ?_, .cons ⟨_, hf, hp⟩ g3⟩
      · intro a ha; simpa using g1 a (by simpa using ha)
      · rintro ⟨a, ha⟩; obtain ⟨b, hb⟩ := g2 ⟨a, by simpa using ha⟩; exact ⟨b, by simp [hb]⟩
    | arr hi hp _ =>
      refine ⟨?_, ?_, g3⟩
      · intro a ha; simpa using g1 a (by simpa using ha)
      · rintro ⟨a, ha⟩; exact ⟨_, .head _⟩

theorem rearranged_entry {tk k : Str} {v u : Json} (h : Rearranged v u) : Entry tk tk OrderRel (k, v) (k, u) where
  attr := rfl
  key := fun _ => rfl
  text := Iff.rfl
  leaf := by intro a e; simp only at e; subst e; cases h; rfl
  others := by
    intro h1 h2
    simp only at h1 h2 ⊢
    cases h with
    | leaf => exact ⟨h1, h2⟩
    | obj => exact ⟨rfl, by intro l m e; cases e⟩
    | arr hi hp _ =>
      obtain ⟨g1, g2, -⟩ := rearranged_items hi
      refine ⟨items_scalars.2 (fun a ha => items_scalars.1 h1 a (g1 a (hp.mem_iff.2 ha))), ?_⟩
      intro l m e
      cases e
      intro hm
      obtain ⟨b, hb⟩ := g2 ⟨m, hp.mem_iff.2 hm⟩
      exact h2 _ _ rfl hb
  dicts := by
    cases h with
    | leaf => exact ⟨[], .refl _, .nil⟩
    | obj hf hp => exact ⟨_, .refl _, .cons ⟨_, hf, hp⟩ .nil⟩
    | arr hi hp _ => exact ⟨_, hp.symm.filterMap _, (rearranged_items hi).2.2⟩

theorem rearranged_entries {tk : Str} {fs gs : List (Str × Json)} (h : RearrangedFields fs gs) : All₂ (Entry tk tk OrderRel) fs gs := by
  match fs, gs, h with
  | _, _, .nil => exact .nil
  | _, _, .cons h hr => exact .cons (rearranged_entry h) (rearranged_entries hr)

theorem keeps_order {tk : Str} (ht : isAttribute tk = false) : Keeps tk tk OrderRel := keeps_of ht (by
  rintro fs gs ⟨hs, h, hp⟩
  exact ⟨hs, rearranged_entries h, hp⟩)

/-! ### The name of texts -/

def TextRel (n : Str) (fs gs : List (Str × Json)) : Prop := gs = withTextF fs ∧ ∃ js, XmlFields n fs js

theorem withText_arr {n : Str} : {l m : List Json} → XmlItems n l m → (∀ a, .leaf a ∉ withTextI l) ∧ (∀ a, .arr a ∉ withTextI l) ∧
    All₂ (TextRel n) (dictsOf (.arr l)) (dictsOf (.arr (withTextI l)))
  | _, _, .nil => ⟨by simp [withTextI], by simp [withTextI], .nil⟩
  | _, _, .cons h1 h2 => by
    obtain ⟨g1, g2, g3⟩ := withText_arr h2
    refine ⟨by simpa [withTextI, withText] using g1, by simpa [withTextI, withText] using g2, ?_⟩
    simp only [withTextI, withText]
    exact .cons ⟨rfl, _, h1⟩ g3

theorem text_entry {n k : Str} {v : Json} (hk : k ≠ s%"#text") (hk' : k ≠ s%"text()") (hv : (∃ s, v = .leaf (.str s)) ∨ (∃ fs js, v = .obj fs ∧ XmlFields n fs js) ∨
    ∃ l m, v = .arr l ∧ XmlItems n l m) : Entry s%"#text" s%"text()" (TextRel n) (k, v) (if k = s%"#text" then s%"text()" else k, withText v) := by
  rw [if_neg hk]
  refine ⟨rfl, fun _ => rfl, ⟨fun e => absurd e hk, fun e => absurd e hk'⟩, ?_, ?_, ?_⟩
  · intro a e; simp only at e; subst e; rw [withText]
  · intro h1 h2
    rcases hv with ⟨s, rfl⟩ | ⟨fs, js, rfl, h⟩ | ⟨l, m, rfl, h⟩
    · simp [scalarsOf] at h1
    · exact ⟨by simp [withText, scalarsOf], by simp [withText]⟩
    · obtain ⟨g1, g2, -⟩ := withText_arr h
      refine ⟨by simpa only [withText] using items_scalars.2 g1, ?_⟩
      intro l m e
      simp only [withText, Json.arr.injEq] at e
      subst e
      exact g2 m
  · rcases hv with ⟨s, rfl⟩ | ⟨fs, js, rfl, h⟩ | ⟨l, m, rfl, h⟩
    · exact ⟨[], by simp [withText, dictsOf], .nil⟩
    · refine ⟨_, .refl _, ?_⟩
      simp only [withText]
      exact .cons ⟨rfl, _, h⟩ .nil
    · refine ⟨_, .refl _, ?_⟩
      simp only [withText]
      exact (withText_arr h).2.2

theorem text_entries {n : Str} (hn : n ≠ s%"#text" ∧ n ≠ s%"text()") : {fs js : List (Str × Json)} → XmlFields n fs js →
    All₂ (Entry s%"#text" s%"text()" (TextRel n)) fs (withTextF fs)
  | _, _, .nil => by simp only [withTextF]; exact .nil
  | _, _, .attr (k := k) hk _ hr => by
    have h1 : k ≠ s%"#text" := by rintro rfl; revert hk; decide
    have h2 : k ≠ s%"text()" := by rintro rfl; revert hk; decide
    simp only [withTextF]
    exact .cons (text_entry h1 h2 (.inl ⟨_, rfl⟩)) (text_entries hn hr)
  | _, _, .text => by
    simp only [withTextF, if_true]
    refine .cons ⟨rfl, fun h => absurd rfl h, ⟨fun _ => rfl, fun _ => rfl⟩, ?_, ?_, ⟨[], by simp [withText, dictsOf], .nil⟩⟩ .nil
    · intro a e; simp only at e; rw [e, withText]
    · intro h; simp [scalarsOf] at h
  | _, _, .id hr => by
    simp only [withTextF]
    exact .cons (text_entry hn.1 hn.2 (.inr (.inl ⟨_, _, rfl, .text⟩))) (text_entries hn hr)
  | _, _, .one hk hf hr => by
    simp only [withTextF]
    exact .cons (text_entry hk.2.2.2.1 hk.2.2.2.2.1 (.inr (.inl ⟨_, _, rfl, hf⟩))) (text_entries hn hr)
  | _, _, .many hk _ hi hr => by
    simp only [withTextF]
    exact .cons (text_entry hk.2.2.2.1 hk.2.2.2.2.1 (.inr (.inr ⟨_, _, rfl, hi⟩))) (text_entries hn hr)

theorem keeps_text {n : Str} (hn : n ≠ s%"#text" ∧ n ≠ s%"text()") : Keeps s%"#text" s%"text()" (TextRel n) := keeps_of (by decide) (by
  rintro fs gs ⟨rfl, js, h⟩
  exact ⟨_, text_entries hn h, .refl _⟩)

/-! ### Reading -/

theorem get_split {d : List (Str × Json)} {k : Str} {w : Json} (h : Dict.get d k = some w) :
    ∃ p s, d = p ++ (k, w) :: s ∧ ∀ v, Dict.set d k v = p ++ (k, v) :: s := by
  induction d with
  | nil => cases h
  | cons e r ih =>
    obtain ⟨k', u⟩ := e
    rw [Dict.get_cons] at h
    by_cases he : k' = k
    · subst he
      rw [if_pos rfl] at h
      cases h
      exact ⟨[], r, rfl, fun v => by simp [Dict.set]⟩
    · rw [if_neg he] at h
      obtain ⟨p, s, h1, h2⟩ := ih h
      refine ⟨(k', u) :: p, s, by rw [h1]; rfl, fun v => ?_⟩
      simp [Dict.set, he, h2]

/-- A dict in the making. -/
structure Making (a : List (Str × Str)) (fs : List (Str × Json)) (ks : List (Str × List (Str × Json))) : Prop where
  attrs : fs.filter (fun f => isAttribute f.1) = atAttribs a
  noText : ∀ f ∈ fs, f.1 ≠ s%"#text"
  others : ∀ f ∈ fs, isAttribute f.1 = false → (∃ g, f.2 = .obj g) ∨ ∃ l, f.2 = .arr l ∧ ∀ x ∈ l, ∃ g, x = .obj g
  kids : (kids fs).Perm ks

theorem kids_append (a b : List (Str × Json)) : kids (a ++ b) = kids a ++ kids b := by simp [kids]

theorem kids_cons (k : Str) (v : Json) (b : List (Str × Json)) (h : isAttribute k = false) : kids ((k, v) :: b) = (dictsOf v).map (fun g => (k, g)) ++ kids b := by
  simp [kids, h]

theorem Making.push {a : List (Str × Str)} {fs : List (Str × Json)} {ks : List (Str × List (Str × Json))} (h : Making a fs ks) (force : Option Str) {k : Str}
    (hk : isAttribute k = false ∧ k ≠ s%"#text") (g : List (Str × Json)) : Making a (Xml.push force fs k (.obj g)) (ks ++ [(k, g)]) := by
  have hset : ∀ {w v : Json}, Dict.get fs k = some w → (dictsOf v = dictsOf w ++ [g]) → ((∃ g, v = .obj g) ∨ ∃ l, v = .arr l ∧ ∀ x ∈ l, ∃ g, x = .obj g) →
      Making a (Dict.set fs k v) (ks ++ [(k, g)]) := by
    intro w v hg hd hv
    obtain ⟨p, s, e1, e2⟩ := get_split hg
    rw [e2]
    refine ⟨?_, ?_, ?_, ?_⟩
    · have := h.attrs
      rw [e1] at this
      simpa [List.filter_append, List.filter_cons, hk.1] using this
    · intro f hf
      rcases List.mem_append.1 hf with hf | hf
      · exact h.noText f (by rw [e1]; simp [hf])
      · rcases List.mem_cons.1 hf with rfl | hf
        · exact hk.2
        · exact h.noText f (by rw [e1]; simp [hf])
    · intro f hf ha
      rcases List.mem_append.1 hf with hf | hf
      · exact h.others f (by rw [e1]; simp [hf]) ha
      · rcases List.mem_cons.1 hf with rfl | hf
        · exact hv
        · exact h.others f (by rw [e1]; simp [hf]) ha
    · have := h.kids
      rw [e1, kids_append, kids_cons _ _ _ hk.1] at this
      rw [kids_append, kids_cons _ _ _ hk.1, hd, List.map_append, List.append_assoc, ← List.append_assoc]
      refine List.Perm.trans ?_ (this.append_right _)
      simp only [List.append_assoc, List.map_cons, List.map_nil]
      exact ((List.perm_append_comm).append_left _).append_left _
  unfold Xml.push
  cases hg : Dict.get fs k with
  | none =>
    simp only
    have hv : ∀ v : Json, dictsOf v = [g] → ((∃ g, v = .obj g) ∨ ∃ l, v = .arr l ∧ ∀ x ∈ l, ∃ g, x = .obj g) → Making a (fs ++ [(k, v)]) (ks ++ [(k, g)]) := by
      intro v hd hv
      refine ⟨?_, ?_, ?_, ?_⟩
      · rw [List.filter_append, h.attrs]; simp [List.filter_cons, hk.1]
      · intro f hf
        rcases List.mem_append.1 hf with hf | hf
        · exact h.noText f hf
        · simp only [List.mem_singleton] at hf; subst hf; exact hk.2
      · intro f hf ha
        rcases List.mem_append.1 hf with hf | hf
        · exact h.others f hf ha
        · simp only [List.mem_singleton] at hf; subst hf; exact hv
      · rw [kids_append, kids_cons _ _ _ hk.1, hd]
        exact h.kids.append_right _
    split
    · exact hv _ rfl (.inr ⟨_, rfl, by simp⟩)
    · exact hv _ rfl (.inl ⟨_, rfl⟩)
  | some w =>
    have hm := Dict.get_eq_some_mem hg
    rcases h.others _ hm hk.1 with ⟨g', e⟩ | ⟨l, e, hl⟩
    · simp only at e
      subst e
      exact hset hg rfl (.inr ⟨_, rfl, by simp⟩)
    · simp only at e
      subst e
      refine hset hg (by simp [dictsOf]) (.inr ⟨_, rfl, ?_⟩)
      intro x hx
      rcases List.mem_append.1 hx with hx | hx
      · exact hl x hx
      · simp only [List.mem_singleton] at hx; exact ⟨g, hx⟩

theorem making_attrs (a : List (Str × Str)) : Making a (atAttribs a) [] := by
  have h : ∀ f ∈ atAttribs a, isAttribute f.1 = true := by
    intro f hf
    obtain ⟨p, _, rfl⟩ := List.mem_map.1 hf
    rfl
  refine ⟨List.filter_eq_self.2 (by simpa using h), ?_, ?_, ?_⟩
  · intro f hf e; have := h f hf; rw [e] at this; revert this; decide
  · intro f hf ha; rw [h f hf] at ha; cases ha
  · have : Spec.kids (atAttribs a) = [] := by
      unfold Spec.kids
      rw [List.flatMap_eq_nil_iff]
      intro f hf
      rw [if_pos (h f hf)]
    rw [this]

/-- `rstrip` cuts off a suffix of such characters. -/
theorem rstrip_parts (p : Char → Bool) : ∀ s : Str, ∃ post, s = Py.rstrip p s ++ post ∧ (∀ c ∈ post, p c = true) ∧ ∀ c, (Py.rstrip p s).getLast? = some c → p c = false
  | [] => ⟨[], by simp [Py.rstrip]⟩
  | c :: cs => by
    obtain ⟨post, h1, h2, h3⟩ := rstrip_parts p cs
    unfold Py.rstrip
    cases hr : Py.rstrip p cs with
    | nil =>
      rw [hr] at h1
      simp only [List.nil_append] at h1
      subst h1
      by_cases hc : p c = true
      · refine ⟨c :: cs, by simp [hc], by simpa [hc] using h2, by simp [hc]⟩
      · refine ⟨cs, by simp [hc], h2, by simpa [hc] using hc⟩
    | cons d r =>
      rw [hr] at h1 h3
      refine ⟨post, by simp [← h1], h2, ?_⟩
      intro e he
      exact h3 e (by simpa using he)

theorem lstrip_parts (p : Char → Bool) : ∀ s : Str, ∃ pre, s = pre ++ Py.lstrip p s ∧ (∀ c ∈ pre, p c = true) ∧ ∀ c, (Py.lstrip p s).head? = some c → p c = false
  | [] => ⟨[], by simp [Py.lstrip]⟩
  | c :: cs => by
    obtain ⟨pre, h1, h2, h3⟩ := lstrip_parts p cs
    unfold Py.lstrip at *
    by_cases hc : p c = true
    · rw [List.dropWhile_cons, if_pos hc]
      refine ⟨c :: pre, by simp [← h1], by simpa [hc] using h2, h3⟩
    · rw [List.dropWhile_cons, if_neg hc]
      exact ⟨[], by simp, by simp, by simpa using hc⟩

/-- `stripText` trims. -/
theorem stripText_trimmed : ∀ x : Option Str, Trimmed x (stripText x)
  | none => rfl
  | some s => by
    obtain ⟨pre, h1, h2, h3⟩ := lstrip_parts Py.isSpace s
    obtain ⟨post, g1, g2, g3⟩ := rstrip_parts Py.isSpace (Py.lstrip Py.isSpace s)
    unfold stripText Py.strip
    simp only
    cases hr : Py.rstrip Py.isSpace (Py.lstrip Py.isSpace s) with
    | nil =>
      rw [if_pos rfl]
      rw [hr, List.nil_append] at g1
      intro c hc
      rw [h1, g1] at hc
      exact (List.mem_append.1 hc).elim (h2 c) (g2 c)
    | cons d r =>
      rw [if_neg (by simp)]
      rw [hr] at g1 g3
      refine ⟨pre, post, by rw [List.append_assoc, ← g1]; exact h1, ?_, ⟨d, rfl, h3 d (by rw [g1]; rfl)⟩, ?_⟩
      · intro c hc
        exact (List.mem_append.1 hc).elim (h2 c) (g2 c)
      · cases hl : (d :: r).getLast? with
        | none => simp at hl
        | some c => exact ⟨c, rfl, g3 c hl⟩

theorem stripText_some {x : Option Str} (h : ∃ s, x = some s ∧ ∃ c ∈ s, Py.isSpace c = false) : stripText x ≠ none := by
  obtain ⟨s, rfl, c, hc, hs⟩ := h
  intro e
  have := stripText_trimmed (some s)
  rw [e] at this
  have := this c hc
  rw [hs] at this
  cases this

mutual
/-- What is read shows the element. -/
theorem parsed_shows {valid : Str → List (Str × Str) → Bool} {q : Str → Str} {force : Option Str} (hforce : force ≠ some s%"#text") (e : Elem)
    (hd : XmlDoc valid q e) (hf : Filled e) : ∃ fs, parsed force e = .obj fs ∧ Shows s%"#text" fs e := by
  match e with
  | .mk t a x cs =>
    cases hd with
    | mk h1 h2 h3 h4 h5 =>
      cases hf with
      | mk g1 g2 =>
        obtain ⟨ks, h6, h7⟩ := children_shows hforce cs h5 g2 (making_attrs a)
        have hany : ∀ f ∈ parsedChildren force (atAttribs a) cs, isAttribute f.1 = false → scalarsOf f.2 = [] ∧ ∀ l m, f.2 = .arr l → .arr m ∉ l := by
          intro f hf ha
          rcases h6.others f hf ha with ⟨g, e⟩ | ⟨l, e, hl⟩
          · rw [e]; exact ⟨rfl, by intro l m e; cases e⟩
          · rw [e]
            refine ⟨items_scalars.2 ?_, ?_⟩
            · intro b hb; obtain ⟨g, e⟩ := hl _ hb; cases e
            · intro l' m e hm; cases e; obtain ⟨g, e⟩ := hl _ hm; cases e
        have hnone : Dict.get (parsedChildren force (atAttribs a) cs) s%"#text" = none := by
          rw [Dict.get_none_iff]
          intro hm
          obtain ⟨f, hf, e⟩ := List.mem_map.1 hm
          exact h6.noText f hf e
        have hfil : (parsedChildren force (atAttribs a) cs).filter (fun f => f.1 = s%"#text") = [] := by
          rw [List.filter_eq_nil_iff]
          intro f hf
          simpa using h6.noText f hf
        rw [parsed]
        cases hx : stripText x with
        | none =>
          simp only
          have hne : parsedChildren force (atAttribs a) cs ≠ [] := by
            intro e
            rcases g1 with g1 | g1 | g1
            · have := h6.attrs
              rw [e] at this
              cases a with
              | nil => exact g1 rfl
              | cons _ _ => simp [atAttribs] at this
            · have := h6.kids
              rw [e] at this
              have : ks = [] := by simpa [Spec.kids] using this
              subst this
              cases cs with
              | nil => exact g1 rfl
              | cons c cs => exact absurd (showsAll_iff.1 h7) (by intro h; cases h)
            · exact stripText_some g1 hx
          rw [if_neg hne]
          refine ⟨_, rfl, ?_⟩
          rw [Shows]
          refine ⟨by rw [h6.attrs], by rw [hfil, hx]; rfl, fun f hf ha _ => hany f hf ha, ks, ?_, by simpa using h7⟩
          simpa using h6.kids
        | some s =>
          simp only
          unfold Xml.push
          rw [hnone]
          simp only [if_neg hforce]
          rw [if_neg (by simp)]
          refine ⟨_, rfl, ?_⟩
          rw [Shows]
          refine ⟨?_, ?_, ?_, ks, ?_, by simpa using h7⟩
          · rw [List.filter_append, h6.attrs]
            have : isAttribute s%"#text" = false := by decide
            simp [List.filter_cons, this]
          · rw [List.filter_append, hfil, hx]
            simp
          · intro f hf ha hk
            rcases List.mem_append.1 hf with hf | hf
            · exact hany f hf ha
            · simp only [List.mem_singleton] at hf; subst hf; exact absurd rfl hk
          · rw [kids_append, kids_cons _ _ _ (by decide)]
            simpa [dictsOf, Spec.kids] using h6.kids
termination_by structural e
theorem children_shows {valid : Str → List (Str × Str) → Bool} {q : Str → Str} {force : Option Str} (hforce : force ≠ some s%"#text") (cs : List Elem)
    (hd : ∀ c ∈ cs, XmlDoc valid q c) (hf : ∀ c ∈ cs, Filled c) {a : List (Str × Str)} {fs : List (Str × Json)} {ks : List (Str × List (Str × Json))} (hm : Making a fs ks) :
    ∃ ks', Making a (parsedChildren force fs cs) (ks ++ ks') ∧ ShowsAll s%"#text" ks' cs := by
  match cs with
  | [] => exact ⟨[], by rw [parsedChildren]; simpa using hm, by rw [ShowsAll]; trivial⟩
  | c :: cs =>
    obtain ⟨g, h1, h2⟩ := parsed_shows hforce c (hd c (by simp)) (hf c (by simp))
    have hk : isAttribute c.tag = false ∧ c.tag ≠ s%"#text" := by
      cases hd c (by simp) with
      | mk _ _ _ h4 _ => exact ⟨h4.1, h4.2.1⟩
    rw [parsedChildren, h1]
    obtain ⟨ks', h3, h4⟩ := children_shows hforce cs (fun c hc => hd c (by simp [hc])) (fun c hc => hf c (by simp [hc])) (hm.push force hk g)
    refine ⟨(c.tag, g) :: ks', ?_, ?_⟩
    · simpa using h3
    · rw [ShowsAll]; exact ⟨⟨rfl, h2⟩, h4⟩
termination_by structural cs
end

/-! ### Writing -/

theorem perm_of_mem {α : Type} [DecidableEq α] {l m : List α} (hl : l.Nodup) (hm : m.Nodup) (h : ∀ x, x ∈ l ↔ x ∈ m) : l.Perm m := by
  rw [List.perm_iff_count]
  intro x
  by_cases hx : x ∈ l
  · rw [hl.count, hm.count, if_pos hx, if_pos ((h x).1 hx)]
  · rw [hl.count, hm.count, if_neg hx, if_neg (fun e => hx ((h x).2 e))]

theorem nodup_of_keys {d : List (Str × Str)} (h : (Dict.keys d).Nodup) : d.Nodup := by
  unfold Dict.keys at h
  rw [List.Nodup, List.pairwise_map] at h
  exact h.imp (fun h e => h (by rw [e]))

mutual
/-- A dict that shows an XML element is converted to it. -/
theorem shows_render {valid : Str → List (Str × Str) → Bool} {q : Str → Str} (e : Elem) (hd : XmlDoc valid q e) {fs : List (Str × Json)}
    (h : Shows s%"text()" fs e) : PlainXml q fs ∧ ¬ Misplaced fs ∧
      ∀ e', Renders valid q e.tag fs e' → SameXml q e e' ∧ valid e'.tag e'.attrib = true := by
  match e with
  | .mk t a x cs =>
    cases hd with
    | mk h1 h2 h3 h4 h5 =>
      rw [Shows] at h
      obtain ⟨g1, g2, g3, ks, g4, g5⟩ := h
      have hp := plainly_of g1 g2
      obtain ⟨c1, c2, c3⟩ := showsAll_render cs h5 g5
      have hmem : ∀ k v, ('@' :: k, v) ∈ fs ↔ ∃ s, v = .leaf (.str s) ∧ (k, s) ∈ a := by
        intro k v
        have e1 : ('@' :: k, v) ∈ fs ↔ ('@' :: k, v) ∈ fs.filter (fun f => isAttribute f.1) := by
          rw [List.mem_filter]; exact ⟨fun h => ⟨h, rfl⟩, fun h => h.1⟩
        rw [e1, g1.mem_iff]
        simp only [atAttribs, List.mem_map, Prod.mk.injEq, List.cons.injEq, true_and]
        constructor
        · rintro ⟨p, hp, rfl, rfl⟩; exact ⟨p.2, rfl, hp⟩
        · rintro ⟨s, rfl, hs⟩; exact ⟨(k, s), hs, rfl, rfl⟩
      refine ⟨?_, ?_, ?_⟩
      · refine .mk ?_ ?_ ?_
        · have e1 : ((fs.filter (fun f => isAttribute f.1)).map (fun f => q (f.1.drop 1))).Perm (a.map (fun p => q p.1)) := by
            refine (g1.map _).trans ?_
            rw [atAttribs, List.map_map]
            exact .refl _
          exact e1.nodup_iff.2 h1
        · intro f hf ha
          have := g1.mem_iff.1 (List.mem_filter.2 ⟨hf, ha⟩)
          obtain ⟨p, hp', rfl⟩ := List.mem_map.1 this
          refine ⟨?_, rfl⟩
          have := h2 p hp'
          simpa [Py.startsWith] using this
        · intro kg hkg
          exact (c1 kg (g4.mem_iff.1 hkg)).1
      · intro hm
        cases hm with
        | scalar hf hs ha hk => exact hs (g3 _ hf ha hk).1
        | @nested _ k l m hf hl =>
          by_cases ha : isAttribute k = true ∨ k = s%"text()"
          · obtain ⟨s, e⟩ := hp _ hf ha; cases e
          · simp only [not_or, Bool.not_eq_true] at ha
            exact (g3 _ hf ha.1 ha.2).2 _ _ rfl hl
        | @inside _ k v g hf hg hin =>
          by_cases ha : isAttribute k = true ∨ k = s%"text()"
          · obtain ⟨s, e⟩ := hp _ hf ha; simp only at e; subst e; cases hg
          · simp only [not_or, Bool.not_eq_true] at ha
            have : (k, g) ∈ kids fs := by
              unfold kids
              refine List.mem_flatMap.2 ⟨(k, v), hf, ?_⟩
              simp only [ha.1, Bool.false_eq_true, if_false]
              exact List.mem_map.2 ⟨g, hg, rfl⟩
            exact (c1 _ (g4.mem_iff.1 this)).2 hin
      · intro e' hr
        cases hr with
        | @mk _ _ attrib text es children r1 r2 r3 r4 r5 =>
          have hattr : attrib.Perm (a.map (fun p => (q p.1, p.2))) := by
            have hn2 : (Dict.keys (a.map (fun p => (q p.1, p.2)))).Nodup := by
              unfold Dict.keys
              rw [List.map_map]
              exact h1
            refine perm_of_mem (nodup_of_keys r1) (nodup_of_keys hn2) ?_
            rintro ⟨name, s⟩
            have e1 : (name, s) ∈ attrib ↔ Dict.get attrib name = some s := ⟨fun h => Dict.get_of_mem r1 h, fun h => Dict.get_eq_some_mem h⟩
            rw [e1, r2, List.mem_map]
            constructor
            · rintro ⟨k, v, hf, rfl, hs⟩
              obtain ⟨s', rfl, hs'⟩ := (hmem k v).1 hf
              simp only [scalarsOf, Py.str, List.getLast?_singleton, Option.some.injEq] at hs
              exact ⟨(k, s'), hs', by simp [hs]⟩
            · rintro ⟨⟨k, s'⟩, hs', e⟩
              cases e
              exact ⟨k, _, (hmem k _).2 ⟨s', rfl, hs'⟩, rfl, by simp [scalarsOf, Py.str]⟩
          have htext : text = stripText x := by
            rw [r3, g2]
            cases hx : stripText x with
            | none => rfl
            | some s =>
              have hs : s ≠ [] := by
                rintro rfl
                unfold stripText at hx
                split at hx
                · cases hx
                · split at hx
                  · cases hx
                  · rename_i hne; exact hne (Option.some.inj hx)
              simp [scalarsOf, Py.str, hs]
          obtain ⟨es', p1, p2⟩ := all₂_perm g4 r4
          obtain ⟨p3, p4⟩ := c3 es' p2
          have hch : children = es := by
            rw [r5]
            exact List.filter_eq_self.2 (fun e he => p4 e (p1.mem_iff.1 he))
          subst hch
          subst htext
          refine ⟨.mk hattr p3 p1.symm (stripText_trimmed x), h3 _ hattr⟩
termination_by structural e
theorem showsAll_render {valid : Str → List (Str × Str) → Bool} {q : Str → Str} (cs : List Elem) (hd : ∀ c ∈ cs, XmlDoc valid q c)
    {ks : List (Str × List (Str × Json))} (h : ShowsAll s%"text()" ks cs) : (∀ kg ∈ ks, PlainXml q kg.2 ∧ ¬ Misplaced kg.2) ∧ True ∧
      ∀ es, All₂ (fun kg e => Renders valid q kg.1 kg.2 e) ks es → All₂ (SameXml q) cs es ∧ ∀ e ∈ es, valid e.tag e.attrib = true := by
  match cs, ks with
  | [], [] =>
    refine ⟨by simp, trivial, ?_⟩
    intro es he
    cases he
    exact ⟨.nil, by simp⟩
  | [], _ :: _ => cases h
  | _ :: _, [] => cases h
  | c :: cs, kg :: ks =>
    rw [ShowsAll] at h
    obtain ⟨⟨h1, h2⟩, h3⟩ := h
    obtain ⟨c1, c2, c3⟩ := shows_render c (hd c (by simp)) h2
    obtain ⟨d1, -, d3⟩ := showsAll_render cs (fun c hc => hd c (by simp [hc])) h3
    refine ⟨?_, trivial, ?_⟩
    · intro x hx
      rcases List.mem_cons.1 hx with rfl | hx
      · exact ⟨c1, c2⟩
      · exact d1 x hx
    · intro es he
      cases he with
      | cons e1 e2 =>
        rw [h1] at e1
        obtain ⟨f1, f2⟩ := c3 _ e1
        obtain ⟨f3, f4⟩ := d3 _ e2
        refine ⟨.cons f1 f3, ?_⟩
        intro x hx
        rcases List.mem_cons.1 hx with rfl | hx
        · exact f2
        · exact f4 x hx
termination_by structural cs
end

/-! ### Sorting -/

theorem sortedChildren_all : ∀ {o : Order} {cs ds : List Elem}, SortedChildren o cs ds → All₂ (fun c d => ∃ o, SortedAs o c d) cs ds
  | _, _, _, .nil => .nil
  | _, _, _, .cons h hr => .cons ⟨_, h⟩ (sortedChildren_all hr)

mutual
theorem same_sorted {q : Str → Str} (e : Elem) {e0 e1 : Elem} (h : SameXml q e e0) {o : Order} (hs : SortedAs o e0 e1) : SameXml q e e1 := by
  match e with
  | .mk t a x cs =>
    cases h with
    | mk h1 h2 h3 h4 =>
      cases hs with
      | mk s1 s2 _ _ _ =>
        obtain ⟨ks', p1, p2⟩ := all₂_perm h3.symm (sortedChildren_all s1)
        exact .mk h1 (same_sorted_all cs h2 p2) (p1.symm.trans s2) h4
termination_by structural e
theorem same_sorted_all {q : Str → Str} (cs : List Elem) {ks ks' : List Elem} (h : All₂ (SameXml q) cs ks) (hs : All₂ (fun c d => ∃ o, SortedAs o c d) ks ks') :
    All₂ (SameXml q) cs ks' := by
  match cs with
  | [] =>
    cases h
    cases hs
    exact .nil
  | c :: cs =>
    cases h with
    | cons h1 h2 =>
      cases hs with
      | cons s1 s2 =>
        obtain ⟨o, s1⟩ := s1
        exact .cons (same_sorted c h1 s1) (same_sorted_all cs h2 s2)
termination_by structural cs
end

end Verif
