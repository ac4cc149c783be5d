import Verif.Spec.Covered
import Verif.Proofs.Objects
/-! Merging covers the row and keeps what was there. -/
namespace Verif
open Spec

/-! ### Growing trees -/

mutual
/-- The second tree has grown from the first: cells keep their values and locations, objects gain fields, arrays gain items. -/
def Gr : Tree → Tree → Prop
  | .cell c, u => ∃ b, u = .cell b ∧ b.value = c.value ∧ ∀ l ∈ locations c, l ∈ locations b
  | .obj fs, u => ∃ gs, u = .obj gs ∧ GrF fs gs
  | .tmp ks rs, u => ∃ bk br, u = .tmp bk br ∧ GrK ks bk ∧ rs.Sublist br
def GrF : List (Str × Tree) → Fields → Prop
  | [], _ => True
  | (k, t) :: r, gs => (∃ u, Dict.get gs k = some u ∧ Gr t u) ∧ GrF r gs
def GrK : List (Val × List (Str × Tree)) → List (Val × Fields) → Prop
  | [], _ => True
  | (k, fs) :: r, bk => (∃ gs, (k, gs) ∈ bk ∧ GrF fs gs) ∧ GrK r bk
end

theorem grF_iff {fs gs : Fields} : GrF fs gs ↔ ∀ e ∈ fs, ∃ u, Dict.get gs e.1 = some u ∧ Gr e.2 u := by
  induction fs with
  | nil => simp [GrF]
  | cons e r ih => obtain ⟨k, t⟩ := e; simp [GrF, ih]

theorem grK_iff {ks bk : List (Val × Fields)} : GrK ks bk ↔ ∀ e ∈ ks, ∃ gs, (e.1, gs) ∈ bk ∧ GrF e.2 gs := by
  induction ks with
  | nil => simp [GrK]
  | cons e r ih => obtain ⟨k, t⟩ := e; simp [GrK, ih]

theorem gr_refl {n : Option Str} {xml : Bool} (t : Tree) : WFTree n xml t → Gr t t := by
  induction t using Tree.ind with
  | cell c => intro _; exact ⟨c, rfl, rfl, fun _ h => h⟩
  | obj fs ih =>
    intro h
    simp only [WFTree] at h
    refine ⟨fs, rfl, grF_iff.2 ?_⟩
    intro e he
    obtain ⟨h1, h2⟩ := wfFields_iff.1 h
    have hg := Dict.get_of_mem h1 he
    exact ⟨e.2, hg, ih e he (h2 _ _ hg)⟩
  | tmp ks rs ih _ =>
    intro h
    simp only [WFTree] at h
    refine ⟨ks, rs, rfl, grK_iff.2 ?_, List.Sublist.refl _⟩
    intro x hx
    refine ⟨x.2, hx, grF_iff.2 ?_⟩
    intro e he
    obtain ⟨h1, h2⟩ := wfFields_iff.1 ((wfKeyed_iff.1 h.2.1 x hx).2)
    have hg := Dict.get_of_mem h1 he
    exact ⟨e.2, hg, ih x hx e he (h2 _ _ hg)⟩

theorem grF_refl {n : Option Str} {xml : Bool} {fs : Fields} (h : WFFields n xml fs) : GrF fs fs := by
  have := gr_refl (n := n) (xml := xml) (.obj fs) (by simpa [WFTree] using h)
  obtain ⟨gs, h1, h2⟩ := this
  cases h1; exact h2

theorem gr_trans (t : Tree) : ∀ {u v : Tree}, Gr t u → Gr u v → Gr t v := by
  induction t using Tree.ind with
  | cell c =>
    intro u v h1 h2
    obtain ⟨b, rfl, hb, lb⟩ := h1
    obtain ⟨d, rfl, hd, ld⟩ := h2
    exact ⟨d, rfl, hd.trans hb, fun l h => ld l (lb l h)⟩
  | obj fs ih =>
    intro u v h1 h2
    obtain ⟨gs, rfl, hb⟩ := h1
    obtain ⟨hs, rfl, hd⟩ := h2
    refine ⟨hs, rfl, grF_iff.2 ?_⟩
    intro e he
    obtain ⟨u, hu, g1⟩ := grF_iff.1 hb e he
    obtain ⟨v, hv, g2⟩ := grF_iff.1 hd _ (Dict.get_eq_some_mem hu)
    exact ⟨v, hv, ih e he g1 g2⟩
  | tmp ks rs ih _ =>
    intro u v h1 h2
    obtain ⟨bk, br, rfl, hb, hs⟩ := h1
    obtain ⟨ck, cr, rfl, hd, hs'⟩ := h2
    refine ⟨ck, cr, rfl, grK_iff.2 ?_, hs.trans hs'⟩
    intro x hx
    obtain ⟨gs, hm, g1⟩ := grK_iff.1 hb x hx
    obtain ⟨hs, hm', g2⟩ := grK_iff.1 hd _ hm
    refine ⟨hs, hm', grF_iff.2 ?_⟩
    intro e he
    obtain ⟨u, hu, g3⟩ := grF_iff.1 g1 e he
    obtain ⟨v, hv, g4⟩ := grF_iff.1 g2 _ (Dict.get_eq_some_mem hu)
    exact ⟨v, hv, ih x hx e he g3 g4⟩

theorem grF_trans {fs gs hs : Fields} (h1 : GrF fs gs) (h2 : GrF gs hs) : GrF fs hs := by
  obtain ⟨_, h, g⟩ := gr_trans (.obj fs) ⟨gs, rfl, h1⟩ ⟨hs, rfl, h2⟩
  cases h; exact g

theorem grK_trans {ks bk ck : List (Val × Fields)} (h1 : GrK ks bk) (h2 : GrK bk ck) : GrK ks ck := by
  obtain ⟨_, _, h, g, _⟩ := gr_trans (.tmp ks []) ⟨bk, [], rfl, h1, List.Sublist.refl _⟩ ⟨ck, [], rfl, h2, List.Sublist.refl _⟩
  cases h; exact g

theorem grK_refl {n : Option Str} {xml : Bool} {ks : List (Val × Fields)} (h : WFKeyed n xml ks) : GrK ks ks := by
  rw [grK_iff]
  intro e he
  exact ⟨e.2, he, grF_refl (wfKeyed_iff.1 h e he).2⟩

theorem grK_keySet_some {n : Option Str} {xml : Bool} {bk : List (Val × Fields)} {k : Val} {old new : Fields} (hw : WFKeyed n xml bk)
    (h : keyGet bk k = some old) (g : GrF old new) : GrK bk (keySet bk k new) := by
  obtain ⟨a, k', b, e1, e2, _⟩ := keySet_of_some new h
  rw [grK_iff]
  intro e he
  rw [e2]
  rw [wfKeyed_iff] at hw
  have hr := grF_refl (hw e he).2
  rw [e1] at he
  rcases List.mem_append.1 he with he | he
  · exact ⟨e.2, by simp [he], hr⟩
  · rcases List.mem_cons.1 he with rfl | he
    · exact ⟨new, by simp, g⟩
    · exact ⟨e.2, by simp [he], hr⟩

theorem grK_keySet_none {n : Option Str} {xml : Bool} {bk : List (Val × Fields)} {k : Val} {new : Fields} (hw : WFKeyed n xml bk)
    (h : keyGet bk k = none) : GrK bk (keySet bk k new) := by
  rw [keySet_of_none _ h, grK_iff]
  intro e he
  exact ⟨e.2, by simp [he], grF_refl (wfKeyed_iff.1 hw e he).2⟩

theorem mergeCell_grows (sheet key : Str) (c b : Cell) : Gr (.cell b) (mergeCell sheet key c (.cell b)).1 := by
  unfold mergeCell
  split
  · exact ⟨b, rfl, rfl, fun _ h => h⟩
  · next h _ =>
    cases h
    split
    · exact ⟨_, rfl, rfl, fun l h => by simp only [locations, List.mem_cons, List.map_append, List.mem_append] at h ⊢; rcases h with h | h <;> simp [h]⟩
    · exact ⟨_, rfl, rfl, fun _ h => h⟩
  · exact ⟨b, rfl, rfl, fun _ h => h⟩

theorem merge_grows (n : Option Str) (xml : Bool) (sheet : Str) : ∀ (v : Tree) (key : Str) (bv : Tree),
    WFTree n xml v → WFTree n xml bv → Gr bv (mergeTree sheet key v bv).1 := by
  have fields : ∀ fs : Fields, (∀ e ∈ fs, ∀ (key : Str) (bv : Tree), WFTree n xml e.2 → WFTree n xml bv → Gr bv (mergeTree sheet key e.2 bv).1) →
      ∀ base, WFFields n xml fs → WFFields n xml base → GrF base (mergeFields sheet fs base).1 := by
    intro fs ih base hf hb
    obtain ⟨hf1, hf2⟩ := wfFields_iff.1 hf
    obtain ⟨hb1, hb2⟩ := wfFields_iff.1 hb
    rw [grF_iff]
    intro e he
    have hg := Dict.get_of_mem hb1 he
    rw [mergeFields_get _ _ hf1, hg]
    cases hv : Dict.get fs e.1 with
    | none => exact ⟨e.2, rfl, gr_refl e.2 (hb2 _ _ hg)⟩
    | some v => exact ⟨_, rfl, ih _ (Dict.get_eq_some_mem hv) _ _ (hf2 _ _ hv) (hb2 _ _ hg)⟩
  intro v
  induction v using Tree.ind with
  | cell c =>
    intro key bv hv hb
    cases bv with
    | cell b =>
      rw [mergeTree]; exact mergeCell_grows sheet key c b
    | obj fs =>
      rw [mergeTree, mergeCell_obj]; exact gr_refl _ hb
    | tmp bk br =>
      rw [mergeTree, mergeCell_tmp]; exact gr_refl _ hb
  | obj fs ih =>
    intro key bv hv hb
    cases bv with
    | obj bfs =>
      rw [mergeTree]
      simp only [WFTree] at hv hb
      exact ⟨_, rfl, fields fs ih bfs hv hb⟩
    | cell b =>
      rw [mergeTree]
      · exact gr_refl _ hb
      · simp
    | tmp bk br =>
      rw [mergeTree]
      · exact gr_refl _ hb
      · simp
  | tmp ks rs ih _ =>
    intro key bv hv hb
    cases bv with
    | obj bfs =>
      rw [mergeTree]
      · exact gr_refl _ hb
      · simp
    | cell b =>
      rw [mergeTree]
      · exact gr_refl _ hb
      · simp
    | tmp bk br =>
      rw [mergeTree]
      simp only [WFTree] at hv hb
      refine ⟨_, _, rfl, ?_, List.sublist_append_left _ _⟩
      have hvk := hv.2.1
      have hbd := hb.1
      have hbk := hb.2.1
      clear hv hb
      induction ks generalizing bk with
      | nil => rw [mergeKeyed]; exact grK_refl hbk
      | cons x r ihr =>
        obtain ⟨k, fs⟩ := x
        rw [mergeKeyed]
        rw [wfKeyed_iff] at hvk
        have hk := hvk (k, fs) (by simp)
        have hr : WFKeyed n xml r := wfKeyed_iff.2 (fun e he => hvk e (by simp [he]))
        have ihr := fun bk => ihr (fun x hx => ih x (by simp [hx])) bk hr
        cases hg : keyGet bk k with
        | none =>
          simp only
          have hw' := wf_mergeKeyed n xml sheet [(k, fs)] bk (wfKeyed_iff.2 (fun e he => hvk e (by simp at he; simp [he]))) hbd hbk
          simp only [mergeKeyed, hg] at hw'
          exact grK_trans (grK_keySet_none hbk hg) (ihr _ hw'.1 hw'.2)
        | some bfs =>
          simp only
          have hw' := wf_mergeKeyed n xml sheet [(k, fs)] bk (wfKeyed_iff.2 (fun e he => hvk e (by simp at he; simp [he]))) hbd hbk
          simp only [mergeKeyed, hg] at hw'
          obtain ⟨k', hm, _⟩ := keyGet_some_mem hg
          exact grK_trans (grK_keySet_some hbk hg (fields fs (ih (k, fs) (by simp)) bfs hk.2 (wfKeyed_iff.1 hbk _ hm).2)) (ihr _ hw'.1 hw'.2)

theorem mergeFields_grows {n : Option Str} {xml : Bool} {sheet : Str} {fs base : Fields} (hf : WFFields n xml fs) (hb : WFFields n xml base) :
    GrF base (mergeFields sheet fs base).1 := by
  have := merge_grows n xml sheet (.obj fs) [] (.obj base) (by simpa [WFTree] using hf) (by simpa [WFTree] using hb)
  rw [mergeTree] at this
  obtain ⟨_, h, g⟩ := this
  cases h; exact g

theorem mergeKeyed_grows {n : Option Str} {xml : Bool} {sheet : Str} {ks bk : List (Val × Fields)} (hk : WFKeyed n xml ks) (hd : KeysDistinct bk)
    (hb : WFKeyed n xml bk) : GrK bk (mergeKeyed sheet ks bk).1 := by
  induction ks generalizing bk with
  | nil => rw [mergeKeyed]; exact grK_refl hb
  | cons x r ih =>
    obtain ⟨k, fs⟩ := x
    have hw' := wf_mergeKeyed n xml sheet [(k, fs)] bk (by simp only [WFKeyed] at hk ⊢; exact ⟨hk.1, hk.2.1, trivial⟩) hd hb
    simp only [WFKeyed] at hk
    rw [mergeKeyed]
    cases hg : keyGet bk k with
    | none =>
      simp only [mergeKeyed, hg] at hw' ⊢
      exact grK_trans (grK_keySet_none hb hg) (ih hk.2.2 hw'.1 hw'.2)
    | some bfs =>
      simp only [mergeKeyed, hg] at hw' ⊢
      obtain ⟨k', hm, _⟩ := keyGet_some_mem hg
      exact grK_trans (grK_keySet_some hb hg (mergeFields_grows hk.2.1 (wfKeyed_iff.1 hb _ hm).2)) (ih hk.2.2 hw'.1 hw'.2)

/-! ### Covering -/

mutual
def IgnT (W : List Warn) : Tree → Prop
  | .cell c => Ignored W c
  | .obj fs => IgnF W fs
  | .tmp ks rs => IgnK W ks ∧ IgnI W rs
def IgnF (W : List Warn) : List (Str × Tree) → Prop
  | [] => True
  | (_, t) :: r => IgnT W t ∧ IgnF W r
def IgnK (W : List Warn) : List (Val × List (Str × Tree)) → Prop
  | [] => True
  | (_, fs) :: r => IgnF W fs ∧ IgnK W r
def IgnI (W : List Warn) : List (List (Str × Tree)) → Prop
  | [] => True
  | fs :: r => IgnF W fs ∧ IgnI W r
end

mutual
theorem ign_of_warns {W : List Warn} {why : Why} (t : Tree) (h : ∀ w ∈ ignoredWarns why t, w ∈ W) : IgnT W t := by
  match t with
  | .cell c => exact ⟨why, h _ (by simp [ignoredWarns])⟩
  | .obj fs => exact ignF_of_warns (why := why) fs (by simpa [ignoredWarns] using h)
  | .tmp ks rs =>
    exact ⟨ignK_of_warns (why := why) ks (fun w hw => h w (by simp [ignoredWarns, hw])), ignI_of_warns (why := why) rs (fun w hw => h w (by simp [ignoredWarns, hw]))⟩
termination_by structural t
theorem ignF_of_warns {W : List Warn} {why : Why} (fs : List (Str × Tree)) (h : ∀ w ∈ ignoredWarnsFields why fs, w ∈ W) : IgnF W fs := by
  match fs with
  | [] => trivial
  | (k, t) :: r => exact ⟨ign_of_warns (why := why) t (fun w hw => h w (by simp [ignoredWarnsFields, hw])), ignF_of_warns (why := why) r (fun w hw => h w (by simp [ignoredWarnsFields, hw]))⟩
termination_by structural fs
theorem ignK_of_warns {W : List Warn} {why : Why} (ks : List (Val × List (Str × Tree))) (h : ∀ w ∈ ignoredWarnsKeyed why ks, w ∈ W) : IgnK W ks := by
  match ks with
  | [] => trivial
  | (k, fs) :: r => exact ⟨ignF_of_warns (why := why) fs (fun w hw => h w (by simp [ignoredWarnsKeyed, hw])), ignK_of_warns (why := why) r (fun w hw => h w (by simp [ignoredWarnsKeyed, hw]))⟩
termination_by structural ks
theorem ignI_of_warns {W : List Warn} {why : Why} (rs : List (List (Str × Tree))) (h : ∀ w ∈ ignoredWarnsItems why rs, w ∈ W) : IgnI W rs := by
  match rs with
  | [] => trivial
  | fs :: r => exact ⟨ignF_of_warns (why := why) fs (fun w hw => h w (by simp [ignoredWarnsItems, hw])), ignI_of_warns (why := why) r (fun w hw => h w (by simp [ignoredWarnsItems, hw]))⟩
termination_by structural rs
end

mutual
def Cov (W : List Warn) (key : Str) : Tree → Tree → Prop
  | .cell c, u => (∃ b, u = .cell b ∧ EqualVal b.value c.value ∧ c.loc ∈ locations b) ∨ Ignored W c ∨ Conflict W key c
  | .obj fs, u => (∃ gs, u = .obj gs ∧ CovF W fs gs) ∨ IgnF W fs
  | .tmp ks rs, u => (∃ bk br, u = .tmp bk br ∧ CovK W ks bk ∧ rs.Sublist br) ∨ (IgnK W ks ∧ IgnI W rs)
def CovF (W : List Warn) : List (Str × Tree) → Fields → Prop
  | [], _ => True
  | (k, t) :: r, gs => (∃ u, Dict.get gs k = some u ∧ Cov W k t u) ∧ CovF W r gs
def CovK (W : List Warn) : List (Val × List (Str × Tree)) → List (Val × Fields) → Prop
  | [], _ => True
  | (k, fs) :: r, bk => (∃ k' gs, (k', gs) ∈ bk ∧ EqualVal k' k ∧ CovF W fs gs) ∧ CovK W r bk
end

theorem covF_iff {W : List Warn} {fs gs : Fields} : CovF W fs gs ↔ ∀ e ∈ fs, ∃ u, Dict.get gs e.1 = some u ∧ Cov W e.1 e.2 u := by
  induction fs with
  | nil => simp [CovF]
  | cons e r ih => obtain ⟨k, t⟩ := e; simp [CovF, ih]

theorem covK_iff {W : List Warn} {ks bk : List (Val × Fields)} :
    CovK W ks bk ↔ ∀ e ∈ ks, ∃ k' gs, (k', gs) ∈ bk ∧ EqualVal k' e.1 ∧ CovF W e.2 gs := by
  induction ks with
  | nil => simp [CovK]
  | cons e r ih => obtain ⟨k, t⟩ := e; simp [CovK, ih]

/-- What is covered stays covered when the tree grows. -/
theorem cov_grow {W : List Warn} (t : Tree) : ∀ {key : Str} {u v : Tree}, Cov W key t u → Gr u v → Cov W key t v := by
  have fields : ∀ fs : Fields, (∀ e ∈ fs, ∀ {key : Str} {u v : Tree}, Cov W key e.2 u → Gr u v → Cov W key e.2 v) →
      ∀ gs hs : Fields, CovF W fs gs → GrF gs hs → CovF W fs hs := by
    intro fs ih gs hs h1 h2
    rw [covF_iff] at h1 ⊢
    intro e he
    obtain ⟨u, hu, c⟩ := h1 e he
    obtain ⟨v, hv, g⟩ := grF_iff.1 h2 _ (Dict.get_eq_some_mem hu)
    exact ⟨v, hv, ih e he c g⟩
  induction t using Tree.ind with
  | cell c =>
    intro key u v h1 h2
    rcases h1 with ⟨b, rfl, hb, lb⟩ | h1
    · obtain ⟨d, rfl, hd, ld⟩ := h2
      exact Or.inl ⟨d, rfl, by rw [hd]; exact hb, ld _ lb⟩
    · exact Or.inr h1
  | obj fs ih =>
    intro key u v h1 h2
    rcases h1 with ⟨gs, rfl, hb⟩ | h1
    · obtain ⟨hs, rfl, hd⟩ := h2
      exact Or.inl ⟨hs, rfl, fields fs ih gs hs hb hd⟩
    · exact Or.inr h1
  | tmp ks rs ih _ =>
    intro key u v h1 h2
    rcases h1 with ⟨bk, br, rfl, hb, hs⟩ | h1
    · obtain ⟨ck, cr, rfl, hd, hs'⟩ := h2
      refine Or.inl ⟨ck, cr, rfl, covK_iff.2 ?_, hs.trans hs'⟩
      intro x hx
      obtain ⟨k', gs, hm, he, hc⟩ := covK_iff.1 hb x hx
      obtain ⟨hs, hm', g⟩ := grK_iff.1 hd _ hm
      exact ⟨k', hs, hm', he, fields x.2 (ih x hx) gs hs hc g⟩
    · exact Or.inr h1

theorem covF_grow {W : List Warn} {fs gs hs : Fields} (h1 : CovF W fs gs) (h2 : GrF gs hs) : CovF W fs hs := by
  rw [covF_iff] at h1 ⊢
  intro e he
  obtain ⟨u, hu, c⟩ := h1 e he
  obtain ⟨v, hv, g⟩ := grF_iff.1 h2 _ (Dict.get_eq_some_mem hu)
  exact ⟨v, hv, cov_grow e.2 c g⟩

/-- A tree covers what it has grown from. -/
theorem cov_of_gr {W : List Warn} (t : Tree) : ∀ {key : Str} {u : Tree}, Gr t u → Cov W key t u := by
  induction t using Tree.ind with
  | cell c => intro key u h; obtain ⟨b, rfl, hb, lb⟩ := h; exact Or.inl ⟨b, rfl, Or.inl hb, lb _ (by simp [locations])⟩
  | obj fs ih =>
    intro key u h
    obtain ⟨gs, rfl, hb⟩ := h
    refine Or.inl ⟨gs, rfl, covF_iff.2 ?_⟩
    intro e he
    obtain ⟨u, hu, g⟩ := grF_iff.1 hb e he
    exact ⟨u, hu, ih e he g⟩
  | tmp ks rs ih _ =>
    intro key u h
    obtain ⟨bk, br, rfl, hb, hs⟩ := h
    refine Or.inl ⟨bk, br, rfl, covK_iff.2 ?_, hs⟩
    intro x hx
    obtain ⟨gs, hm, g⟩ := grK_iff.1 hb x hx
    refine ⟨x.1, gs, hm, Or.inl rfl, covF_iff.2 ?_⟩
    intro e he
    obtain ⟨u, hu, g⟩ := grF_iff.1 g e he
    exact ⟨u, hu, ih x hx e he g⟩

theorem covF_of_gr {W : List Warn} {fs gs : Fields} (h : GrF fs gs) : CovF W fs gs := by
  rw [covF_iff]
  intro e he
  obtain ⟨u, hu, g⟩ := grF_iff.1 h e he
  exact ⟨u, hu, cov_of_gr e.2 g⟩

theorem mergeCell_covers {sheet key : Str} {W : List Warn} {c : Cell} {bv : Tree} (hw : ∀ w ∈ (mergeCell sheet key c bv).2, w ∈ W) :
    Cov W key (.cell c) (mergeCell sheet key c bv).1 := by
  unfold mergeCell at *
  split at hw
  · exact Or.inr (Or.inl ⟨_, hw _ (List.mem_singleton.2 rfl)⟩)
  · split at hw
    · next he => rw [if_pos he]; exact Or.inl ⟨_, rfl, Or.inr he, by simp [locations]⟩
    · next he => rw [if_neg he]; exact Or.inr (Or.inr ⟨_, _, hw _ (List.mem_singleton.2 rfl), by simpa using he⟩)
  · exact Or.inr (Or.inl ⟨_, hw _ (List.mem_singleton.2 rfl)⟩)

/-- Merging covers what is merged, with its warnings. -/
theorem merge_covers (n : Option Str) (xml : Bool) (sheet : Str) (W : List Warn) : ∀ (v : Tree) (key : Str) (bv : Tree),
    WFTree n xml v → WFTree n xml bv → (∀ w ∈ (mergeTree sheet key v bv).2, w ∈ W) → Cov W key v (mergeTree sheet key v bv).1 := by
  have fields : ∀ fs : Fields, (∀ e ∈ fs, ∀ (key : Str) (bv : Tree), WFTree n xml e.2 → WFTree n xml bv →
        (∀ w ∈ (mergeTree sheet key e.2 bv).2, w ∈ W) → Cov W key e.2 (mergeTree sheet key e.2 bv).1) →
      ∀ base, WFFields n xml fs → WFFields n xml base → (∀ w ∈ (mergeFields sheet fs base).2, w ∈ W) → CovF W fs (mergeFields sheet fs base).1 := by
    intro fs ih base hf hb hw
    obtain ⟨hf1, hf2⟩ := wfFields_iff.1 hf
    obtain ⟨hb1, hb2⟩ := wfFields_iff.1 hb
    rw [covF_iff]
    intro e he
    have hg := Dict.get_of_mem hf1 he
    rw [mergeFields_get _ _ hf1, hg]
    cases hv : Dict.get base e.1 with
    | none => exact ⟨e.2, rfl, cov_of_gr e.2 (gr_refl e.2 (hf2 _ _ hg))⟩
    | some bv =>
      refine ⟨_, rfl, ih e he _ _ (hf2 _ _ hg) (hb2 _ _ hv) ?_⟩
      intro w hw'
      exact hw w ((mergeFields_warn sheet fs hf1 base w).2 ⟨_, _, _, hg, hv, hw'⟩)
  intro v
  induction v using Tree.ind with
  | cell c =>
    intro key bv hv hb hw
    rw [mergeTree] at hw ⊢
    exact mergeCell_covers hw
  | obj fs ih =>
    intro key bv hv hb hw
    cases bv with
    | obj bfs =>
      rw [mergeTree] at hw ⊢
      simp only [WFTree] at hv hb
      exact Or.inl ⟨_, rfl, fields fs ih bfs hv hb hw⟩
    | cell b => rw [mergeTree] at hw ⊢ <;> first | exact Or.inr (ignF_of_warns fs hw) | simp
    | tmp bk br => rw [mergeTree] at hw ⊢ <;> first | exact Or.inr (ignF_of_warns fs hw) | simp
  | tmp ks rs ih _ =>
    intro key bv hv hb hw
    cases bv with
    | obj bfs =>
      have e : mergeTree sheet key (.tmp ks rs) (.obj bfs) = (.obj bfs, ignoredWarnsKeyed (.arrayButOther key) ks ++ ignoredWarnsItems (.arrayButOther key) rs) := by
        rw [mergeTree]
        simp
      rw [e] at hw ⊢
      exact Or.inr ⟨ignK_of_warns ks (fun w h => hw w (List.mem_append_left _ h)), ignI_of_warns rs (fun w h => hw w (List.mem_append_right _ h))⟩
    | cell b =>
      have e : mergeTree sheet key (.tmp ks rs) (.cell b) = (.cell b, ignoredWarnsKeyed (.arrayButOther key) ks ++ ignoredWarnsItems (.arrayButOther key) rs) := by
        rw [mergeTree]
        simp
      rw [e] at hw ⊢
      exact Or.inr ⟨ignK_of_warns ks (fun w h => hw w (List.mem_append_left _ h)), ignI_of_warns rs (fun w h => hw w (List.mem_append_right _ h))⟩
    | tmp bk br =>
      rw [mergeTree] at hw ⊢
      simp only [WFTree] at hv hb
      refine Or.inl ⟨_, _, rfl, ?_, List.sublist_append_right _ _⟩
      have hvk := hv.2.1
      have hbd := hb.1
      have hbk := hb.2.1
      simp only at hw
      clear hv hb
      induction ks generalizing bk with
      | nil => trivial
      | cons x r ihr =>
        obtain ⟨k, fs⟩ := x
        rw [mergeKeyed] at hw ⊢
        rw [wfKeyed_iff] at hvk
        have hk := hvk (k, fs) (by simp)
        have hr : WFKeyed n xml r := wfKeyed_iff.2 (fun e he => hvk e (by simp [he]))
        have ihr := fun bk h1 h2 h3 => ihr (fun x hx => ih x (by simp [hx])) bk h3 hr h1 h2
        have hw' := wf_mergeKeyed n xml sheet [(k, fs)] bk (wfKeyed_iff.2 (fun e he => hvk e (by simp at he; simp [he]))) hbd hbk
        cases hg : keyGet bk k with
        | none =>
          simp only [hg] at hw ⊢
          simp only [mergeKeyed, hg] at hw'
          refine ⟨?_, ihr _ hw'.1 hw'.2 hw⟩
          obtain ⟨gs, hm, g'⟩ := grK_iff.1 (mergeKeyed_grows hr hw'.1 hw'.2) (k, fs) (by rw [keySet_of_none _ hg]; simp)
          exact ⟨k, gs, hm, Or.inl rfl, covF_of_gr g'⟩
        | some bfs =>
          simp only [hg] at hw ⊢
          simp only [mergeKeyed, hg] at hw'
          refine ⟨?_, ihr _ hw'.1 hw'.2 (fun w h => hw w (by simp [h]))⟩
          obtain ⟨a, k', b, e1, e2, e3⟩ := keySet_of_some (mergeFields sheet fs bfs).1 hg
          obtain ⟨gs, hm, g'⟩ := grK_iff.1 (mergeKeyed_grows (sheet := sheet) hr hw'.1 hw'.2) (k', (mergeFields sheet fs bfs).1) (by rw [e2]; simp)
          obtain ⟨k2, hm2, _⟩ := keyGet_some_mem hg
          refine ⟨k', gs, hm, Or.inr e3, covF_grow (fields fs (ih (k, fs) (by simp)) bfs hk.2 (wfKeyed_iff.1 hbk _ hm2).2 (fun w h => hw w (by simp [h]))) g'⟩

theorem mergeFields_covers {n : Option Str} {xml : Bool} {sheet : Str} {W : List Warn} {fs base : Fields} (hf : WFFields n xml fs)
    (hb : WFFields n xml base) (hw : ∀ w ∈ (mergeFields sheet fs base).2, w ∈ W) : CovF W fs (mergeFields sheet fs base).1 := by
  have := merge_covers n xml sheet W (.obj fs) [] (.obj base) (by simpa [WFTree] using hf) (by simpa [WFTree] using hb)
    (by rw [mergeTree]; exact hw)
  rw [mergeTree] at this
  rcases this with ⟨_, h, g⟩ | h
  · cases h; exact g
  · rw [covF_iff]
    intro e he
    obtain ⟨hf1, hf2⟩ := wfFields_iff.1 hf
    obtain ⟨hb1, hb2⟩ := wfFields_iff.1 hb
    have hg := Dict.get_of_mem hf1 he
    rw [mergeFields_get _ _ hf1, hg]
    cases hv : Dict.get base e.1 with
    | none => exact ⟨e.2, rfl, cov_of_gr e.2 (gr_refl e.2 (hf2 _ _ hg))⟩
    | some bv =>
      refine ⟨_, rfl, merge_covers n xml sheet W _ _ _ (hf2 _ _ hg) (hb2 _ _ hv) ?_⟩
      intro w hw'
      exact hw w ((mergeFields_warn sheet fs hf1 base w).2 ⟨_, _, _, hg, hv, hw'⟩)

/-! ### After conversion to lists -/

theorem cellId_toLists {n : Option Str} {xml : Bool} {fs : Fields} {k : Option Val} (h : itemKey n xml fs = .ok k) :
    cellId n xml (toLists fs) = k := by
  unfold itemKey at h
  unfold cellId
  rw [toLists_eq]
  cases n with
  | none => simp at h; subst h; rfl
  | some m =>
    simp only [Dict.get_map] at h ⊢
    cases hg : Dict.get fs m with
    | none => simp [hg] at h; subst h; rfl
    | some t =>
      simp only [hg] at h
      cases t with
      | cell c => simp at h; subst h; simp [treeToLists]
      | obj gs =>
        simp only at h
        cases xml with
        | false => simp at h
        | true =>
          simp only [if_true] at h
          simp only [Option.map_some, treeToLists, if_true, toLists_eq, Dict.get_map]
          cases hg2 : Dict.get gs s%"text()" with
          | none => simp [hg2] at h
          | some t2 =>
            simp only [hg2] at h
            cases t2 with
            | cell c => simp at h; subst h; simp [treeToLists]
            | obj _ => simp at h
            | tmp _ _ => simp at h
      | tmp a b => cases xml <;> simp at h

theorem EqualVal.symm' {a b : Val} (h : EqualVal a b) : EqualVal b a := h.imp Eq.symm Val.pyEq_symm
theorem EqualVal.trans' {a b c : Val} (h : EqualVal a b) (h' : EqualVal b c) : EqualVal a c := by
  rcases h with rfl | h
  · exact h'
  · rcases h' with rfl | h'
    · exact Or.inr h
    · exact Or.inr (Val.pyEq_trans h h')

mutual
theorem allIgn_toLists {W : List Warn} (t : Tree) (h : IgnT W t) : AllIgnored W (treeToLists t) := by
  match t with
  | .cell c => exact h
  | .obj fs => simpa [treeToLists, AllIgnored] using allIgnF_toLists fs h
  | .tmp ks rs => simpa [treeToLists, AllIgnored] using allIgnK_toLists ks _ h.1 (allIgnI_toLists rs h.2)
termination_by structural t
theorem allIgnF_toLists {W : List Warn} (fs : List (Str × Tree)) (h : IgnF W fs) : AllIgnoredFields W (toLists fs) := by
  match fs with
  | [] => simp [toLists, AllIgnoredFields]
  | (k, t) :: r => simp only [toLists, AllIgnoredFields]; exact ⟨allIgn_toLists t h.1, allIgnF_toLists r h.2⟩
termination_by structural fs
theorem allIgnK_toLists {W : List Warn} (ks : List (Val × List (Str × Tree))) (l : List (List (Str × CTree))) (h : IgnK W ks) (h' : AllIgnoredItems W l) :
    AllIgnoredItems W (keyedToLists ks ++ l) := by
  match ks with
  | [] => simpa [keyedToLists] using h'
  | (k, fs) :: r => simp only [keyedToLists, List.cons_append, AllIgnoredItems]; exact ⟨allIgnF_toLists fs h.1, allIgnK_toLists r l h.2 h'⟩
termination_by structural ks
theorem allIgnI_toLists {W : List Warn} (rs : List (List (Str × Tree))) (h : IgnI W rs) : AllIgnoredItems W (itemsToLists rs) := by
  match rs with
  | [] => simp [itemsToLists, AllIgnoredItems]
  | fs :: r => simp only [itemsToLists, AllIgnoredItems]; exact ⟨allIgnF_toLists fs h.1, allIgnI_toLists r h.2⟩
termination_by structural rs
end

theorem coveredFields_iff {n : Option Str} {xml : Bool} {W : List Warn} {fs gs : List (Str × CTree)} :
    CoveredFields n xml W fs gs ↔ ∀ e ∈ fs, ∃ u, Dict.get gs e.1 = some u ∧ Covered n xml W e.1 e.2 u := by
  induction fs with
  | nil => simp [CoveredFields]
  | cons e r ih => obtain ⟨k, t⟩ := e; simp [CoveredFields, ih]

theorem coveredItems_iff {n : Option Str} {xml : Bool} {W : List Warn} {is js : List (List (Str × CTree))} :
    CoveredItems n xml W is js ↔ ∀ x ∈ is, ∀ k, cellId n xml x = some k →
      ∃ y ∈ js, ∃ k', cellId n xml y = some k' ∧ EqualVal k' k ∧ CoveredFields n xml W x y := by
  induction is with
  | nil => simp [CoveredItems]
  | cons e r ih => simp only [CoveredItems, ih, List.forall_mem_cons]

theorem filter_ids {n : Option Str} {xml : Bool} {ks : List (Val × Fields)} {rs : List Fields} (hk : WFKeyed n xml ks) (hr : WFItems n xml rs) :
    (keyedToLists ks ++ itemsToLists rs).filter (fun x => (cellId n xml x).isNone) = rs.map toLists := by
  rw [List.filter_append, keyedToLists_eq, itemsToLists_eq]
  have h1 : (ks.map (fun e => toLists e.2)).filter (fun x => (cellId n xml x).isNone) = [] := by
    rw [List.filter_eq_nil_iff]
    intro x hx
    obtain ⟨e, he, rfl⟩ := List.mem_map.1 hx
    obtain ⟨⟨_, v, hv, _⟩, _⟩ := wfKeyed_iff.1 hk e he
    simp [cellId_toLists hv]
  have h2 : (rs.map toLists).filter (fun x => (cellId n xml x).isNone) = rs.map toLists := by
    rw [List.filter_eq_self]
    intro x hx
    obtain ⟨e, he, rfl⟩ := List.mem_map.1 hx
    simp [cellId_toLists (wfItems_iff.1 hr e he).1]
  rw [h1, h2]; rfl

theorem cov_covered {n : Option Str} {xml : Bool} {W : List Warn} (t : Tree) : ∀ {key : Str} {u : Tree}, WFTree n xml t → WFTree n xml u →
    Cov W key t u → Covered n xml W key (treeToLists t) (treeToLists u) := by
  have fields : ∀ fs : Fields, (∀ e ∈ fs, ∀ {key : Str} {u : Tree}, WFTree n xml e.2 → WFTree n xml u → Cov W key e.2 u →
        Covered n xml W key (treeToLists e.2) (treeToLists u)) →
      ∀ gs : Fields, WFFields n xml fs → WFFields n xml gs → CovF W fs gs → CoveredFields n xml W (toLists fs) (toLists gs) := by
    intro fs ih gs hf hg hc
    rw [coveredFields_iff]
    intro e he
    rw [toLists_eq] at he
    obtain ⟨e, he2, rfl⟩ := List.mem_map.1 he
    replace he := he2
    obtain ⟨u, hu, hc⟩ := covF_iff.1 hc e he
    obtain ⟨hf1, hf2⟩ := wfFields_iff.1 hf
    refine ⟨treeToLists u, by simp [toLists_eq, Dict.get_map, hu], ih e he (hf2 _ _ (Dict.get_of_mem hf1 he)) ((wfFields_iff.1 hg).2 _ _ hu) hc⟩
  induction t using Tree.ind with
  | cell c =>
    intro key u ht hu h
    simp only [treeToLists, Covered]
    rcases h with ⟨b, rfl, hb⟩ | h
    · exact Or.inl ⟨b, by simp [treeToLists], hb⟩
    · exact Or.inr h
  | obj fs ih =>
    intro key u ht hu h
    simp only [treeToLists, Covered]
    rcases h with ⟨gs, rfl, hb⟩ | h
    · simp only [WFTree] at ht hu
      exact Or.inl ⟨toLists gs, by simp [treeToLists], fields fs ih gs ht hu hb⟩
    · exact Or.inr (allIgnF_toLists fs h)
  | tmp ks rs ih _ =>
    intro key u ht hu h
    simp only [treeToLists, Covered]
    rcases h with ⟨bk, br, rfl, hb, hs⟩ | h
    · simp only [WFTree] at ht hu
      refine Or.inl ⟨_, by rw [treeToLists], ?_, ?_⟩
      · rw [coveredItems_iff]
        intro x hx k hk
        rcases List.mem_append.1 hx with hx | hx
        · rw [keyedToLists_eq] at hx
          obtain ⟨e, he, rfl⟩ := List.mem_map.1 hx
          obtain ⟨⟨_, v, hv, hsk⟩, hwf⟩ := wfKeyed_iff.1 ht.2.1 e he
          rw [cellId_toLists hv] at hk
          cases hk
          obtain ⟨k', gs, hm, hek, hcf⟩ := covK_iff.1 hb e he
          obtain ⟨⟨_, v', hv', hsk'⟩, hwf'⟩ := wfKeyed_iff.1 hu.2.1 (k', gs) hm
          refine ⟨toLists gs, ?_, v', cellId_toLists hv', ?_, fields e.2 (ih e he) gs hwf hwf' hcf⟩
          · rw [keyedToLists_eq]
            exact List.mem_append_left _ (List.mem_map.2 ⟨_, hm, rfl⟩)
          · exact EqualVal.trans' (EqualVal.trans' (EqualVal.symm' hsk') hek) hsk
        · rw [itemsToLists_eq] at hx
          obtain ⟨e, he, rfl⟩ := List.mem_map.1 hx
          rw [cellId_toLists (wfItems_iff.1 ht.2.2 e he).1] at hk
          cases hk
      · rw [filter_ids ht.2.1 ht.2.2, filter_ids hu.2.1 hu.2.2]
        exact hs.map _
    · exact Or.inr (allIgnK_toLists ks _ h.1 (allIgnI_toLists rs h.2))

theorem covF_covered {n : Option Str} {xml : Bool} {W : List Warn} {fs gs : Fields} (hf : WFFields n xml fs) (hg : WFFields n xml gs)
    (hc : CovF W fs gs) : CoveredFields n xml W (toLists fs) (toLists gs) := by
  rw [coveredFields_iff]
  intro e he
  rw [toLists_eq] at he
  obtain ⟨e, he2, rfl⟩ := List.mem_map.1 he
  replace he := he2
  obtain ⟨u, hu, hc⟩ := covF_iff.1 hc e he
  obtain ⟨hf1, hf2⟩ := wfFields_iff.1 hf
  refine ⟨treeToLists u, by simp [toLists_eq, Dict.get_map, hu], cov_covered e.2 (hf2 _ _ (Dict.get_of_mem hf1 he)) ((wfFields_iff.1 hg).2 _ _ hu) hc⟩

/-! ### A run -/

theorem mem_treesOf {gs : Groups} {X : Fields} : X ∈ treesOf gs ↔ ∃ g ∈ gs, X ∈ g.2.keyed.map (·.2) ++ g.2.rest := by
  simp only [treesOf, List.mem_flatMap]

theorem addToGroup_covers {cfg : UnCfg} {x : Row} {td td' : TDict} {w W : List Warn} (h : addToGroup cfg x.sheet x.fields td = .ok (td', w))
    (hw : TDWF cfg.idName cfg.row.xml td) (hf : WFFields cfg.idName cfg.row.xml x.fields) (hs : ∀ y ∈ w, y ∈ W) :
    (∀ X ∈ td.keyed.map (·.2) ++ td.rest, ∃ X' ∈ td'.keyed.map (·.2) ++ td'.rest, GrF X X') ∧
      ∃ X' ∈ td'.keyed.map (·.2) ++ td'.rest, CovF W x.fields X' := by
  have hrefl : ∀ X ∈ td.keyed.map (·.2) ++ td.rest, GrF X X := by
    intro X hX
    rcases List.mem_append.1 hX with hX | hX
    · obtain ⟨e, he, rfl⟩ := List.mem_map.1 hX
      exact grF_refl (wfKeyed_iff.1 hw.keyed e he).2
    · exact grF_refl (wfItems_iff.1 hw.rest X hX).2
  rcases addToGroup_cases h with ⟨_, rfl, rfl, _⟩ | ⟨k, _, _, _, ⟨_, rfl, rfl⟩ | ⟨base, hb, rfl, rfl⟩⟩
  · refine ⟨fun X hX => ⟨X, ?_, hrefl X hX⟩, x.fields, by simp, covF_of_gr (grF_refl hf)⟩
    grind
  · refine ⟨fun X hX => ⟨X, ?_, hrefl X hX⟩, x.fields, by simp, covF_of_gr (grF_refl hf)⟩
    grind
  · obtain ⟨a, k', b, e1, e2, e3⟩ := keySet_of_some (mergeFields x.sheet x.fields base).1 hb
    have hbw : WFFields cfg.idName cfg.row.xml base := (wfKeyed_iff.1 hw.keyed (k', base) (by rw [e1]; simp)).2
    have hmem : (mergeFields x.sheet x.fields base).1 ∈ (keySet td.keyed k (mergeFields x.sheet x.fields base).1).map (·.2) ++ td.rest := by
      rw [e2]; simp
    refine ⟨?_, _, hmem, mergeFields_covers hf hbw hs⟩
    intro X hX
    rcases List.mem_append.1 hX with hX' | hX'
    · obtain ⟨e, he, rfl⟩ := List.mem_map.1 hX'
      obtain ⟨gs, hm, g⟩ := grK_iff.1 (grK_keySet_some hw.keyed hb (mergeFields_grows (sheet := x.sheet) hf hbw)) e he
      exact ⟨gs, List.mem_append_left _ (List.mem_map.2 ⟨_, hm, rfl⟩), g⟩
    · exact ⟨X, List.mem_append_right _ hX', hrefl X hX⟩

theorem addRow_covers {cfg : UnCfg} {x : Row} {gs gs' : Groups} {w W : List Warn} (h : addRow cfg x.sheet x.root x.fields gs = .ok (gs', w))
    (hw : GWF cfg gs) (hf : WFFields cfg.idName cfg.row.xml x.fields) (hs : ∀ y ∈ w, y ∈ W) :
    (∀ X ∈ treesOf gs, ∃ X' ∈ treesOf gs', GrF X X') ∧ ∃ X' ∈ treesOf gs', CovF W x.fields X' := by
  unfold addRow at h
  split at h
  · cases h
  · next td w1 h1 =>
    cases h
    cases hg : keyGet gs x.root with
    | none =>
      rw [hg] at h1
      obtain ⟨_, X', hX', hc⟩ := addToGroup_covers h1 (tdwf_empty _ _) hf hs
      rw [keySet_of_none _ hg]
      refine ⟨?_, X', mem_treesOf.2 ⟨(x.root, td), by simp, hX'⟩, hc⟩
      intro X hX
      obtain ⟨g, hgm, hX⟩ := mem_treesOf.1 hX
      refine ⟨X, mem_treesOf.2 ⟨g, by simp [hgm], hX⟩, ?_⟩
      have := hw.groups g hgm
      rcases List.mem_append.1 hX with hX | hX
      · obtain ⟨e, he, rfl⟩ := List.mem_map.1 hX
        exact grF_refl (wfKeyed_iff.1 this.keyed e he).2
      · exact grF_refl (wfItems_iff.1 this.rest X hX).2
    | some t =>
      rw [hg] at h1
      obtain ⟨a, k', b, e1, e2, e3⟩ := keySet_of_some td hg
      obtain ⟨hgr, X', hX', hc⟩ := addToGroup_covers h1 (hw.groups (k', t) (by rw [e1]; simp)) hf hs
      rw [e2]
      refine ⟨?_, X', mem_treesOf.2 ⟨(k', td), by simp, hX'⟩, hc⟩
      intro X hX
      obtain ⟨g, hgm, hX⟩ := mem_treesOf.1 hX
      have := hw.groups g hgm
      have hr : GrF X X := by
        rcases List.mem_append.1 hX with hX | hX
        · obtain ⟨e, he, rfl⟩ := List.mem_map.1 hX
          exact grF_refl (wfKeyed_iff.1 this.keyed e he).2
        · exact grF_refl (wfItems_iff.1 this.rest X hX).2
      rw [e1] at hgm
      rcases List.mem_append.1 hgm with hgm | hgm
      · exact ⟨X, mem_treesOf.2 ⟨g, by simp [hgm], hX⟩, hr⟩
      · rcases List.mem_cons.1 hgm with rfl | hgm
        · obtain ⟨X', h1, h2⟩ := hgr X hX
          exact ⟨X', mem_treesOf.2 ⟨(k', td), by simp, h1⟩, h2⟩
        · exact ⟨X, mem_treesOf.2 ⟨g, by simp [hgm], hX⟩, hr⟩

theorem foldRows_covers {cfg : UnCfg} {W : List Warn} (rows : List Row) : ∀ {gs gs' : Groups} {w : List Warn}, foldRows cfg rows gs = .ok (gs', w) →
    GWF cfg gs → (∀ r ∈ rows, WFFields cfg.idName cfg.row.xml r.fields) → (∀ y ∈ w, y ∈ W) →
    (∀ X ∈ treesOf gs, ∃ X' ∈ treesOf gs', GrF X X') ∧ ∀ r ∈ rows, ∃ X' ∈ treesOf gs', CovF W r.fields X' := by
  induction rows with
  | nil =>
    intro gs gs' w h hw _ _
    simp [foldRows] at h
    obtain ⟨rfl, _⟩ := h
    refine ⟨?_, by simp⟩
    intro X hX
    refine ⟨X, hX, ?_⟩
    obtain ⟨g, hgm, hX⟩ := mem_treesOf.1 hX
    have := hw.groups g hgm
    rcases List.mem_append.1 hX with hX | hX
    · obtain ⟨e, he, rfl⟩ := List.mem_map.1 hX
      exact grF_refl (wfKeyed_iff.1 this.keyed e he).2
    · exact grF_refl (wfItems_iff.1 this.rest X hX).2
  | cons r rs ih =>
    intro gs gs' w h hw hf hs
    simp only [foldRows] at h
    split at h
    · cases h
    · next g1 w1 h1 =>
      split at h
      · cases h
      · next g2 w2 h2 =>
        cases h
        obtain ⟨a1, X1, a2, a3⟩ := addRow_covers (W := W) h1 hw (hf r (by simp)) (fun y hy => hs y (by simp [hy]))
        have hw1 := (addRow_inv (Q := fun _ => True) (P := fun _ _ => True) (by simp) h1 hw (hf r (by simp))).1
        obtain ⟨b1, b2⟩ := ih h2 hw1 (fun r hr => hf r (by simp [hr])) (fun y hy => hs y (by simp [hy]))
        constructor
        · intro X hX
          obtain ⟨X1, h1, h2⟩ := a1 X hX
          obtain ⟨X2, h3, h4⟩ := b1 X1 h1
          exact ⟨X2, h3, grF_trans h2 h4⟩
        · intro x hx
          rcases List.mem_cons.1 hx with rfl | hx
          · obtain ⟨X2, h3, h4⟩ := b1 X1 a2
            exact ⟨X2, h3, covF_grow a3 h4⟩
          · exact b2 x hx

end Verif
