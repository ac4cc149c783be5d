import Verif.Proofs.Cover
/-! Merging something a second time. -/
namespace Verif
open Spec

mutual
/-- All array items have ids; all values equal themselves and are no geometries. -/
def IdT : Tree → Prop
  | .cell c => c.value.pyEq c.value = true ∧ ∀ g, c.value ≠ .geo g
  | .obj fs => IdF fs
  | .tmp ks rs => IdK ks ∧ rs = []
def IdF : List (Str × Tree) → Prop
  | [] => True
  | (_, t) :: r => IdT t ∧ IdF r
def IdK : List (Val × List (Str × Tree)) → Prop
  | [] => True
  | (k, fs) :: r => (k.pyEq k = true ∧ IdF fs) ∧ IdK r
end

theorem idF_iff {fs : Fields} : IdF fs ↔ ∀ e ∈ fs, IdT e.2 := by
  induction fs with
  | nil => simp [IdF]
  | cons e r ih => obtain ⟨k, t⟩ := e; simp [IdF, ih]

theorem idK_iff {ks : List (Val × Fields)} : IdK ks ↔ ∀ e ∈ ks, e.1.pyEq e.1 = true ∧ IdF e.2 := by
  induction ks with
  | nil => simp [IdK]
  | cons e r ih => obtain ⟨k, t⟩ := e; simp [IdK, ih]

mutual
/-- Merging the first tree (of the field `key`) into the second changes no value and gives no warnings outside `W`. -/
def Stb (W : List Warn) (sheet : Str) (key : Str) : Tree → Tree → Prop
  | .cell c, u => ∀ w ∈ (mergeCell sheet key c u).2, w ∈ W
  | .obj fs, u => (∃ gs, u = .obj gs ∧ StbF W sheet fs gs) ∨ ((∀ gs, u ≠ .obj gs) ∧ ∀ w ∈ ignoredWarnsFields (.objectButOther key) fs, w ∈ W)
  | .tmp ks _, u => (∃ bk br, u = .tmp bk br ∧ StbK W sheet ks bk) ∨
      ((∀ bk br, u ≠ .tmp bk br) ∧ ∀ w ∈ ignoredWarnsKeyed (.arrayButOther key) ks, w ∈ W)
def StbF (W : List Warn) (sheet : Str) : List (Str × Tree) → Fields → Prop
  | [], _ => True
  | (k, t) :: r, gs => (∃ u, Dict.get gs k = some u ∧ Stb W sheet k t u) ∧ StbF W sheet r gs
def StbK (W : List Warn) (sheet : Str) : List (Val × List (Str × Tree)) → List (Val × Fields) → Prop
  | [], _ => True
  | (k, fs) :: r, bk => (∃ k' gs, (k', gs) ∈ bk ∧ k'.pyEq k = true ∧ StbF W sheet fs gs) ∧ StbK W sheet r bk
end

theorem stbF_iff {W : List Warn} {sheet : Str} {fs gs : Fields} :
    StbF W sheet fs gs ↔ ∀ e ∈ fs, ∃ u, Dict.get gs e.1 = some u ∧ Stb W sheet e.1 e.2 u := by
  induction fs with
  | nil => simp [StbF]
  | cons e r ih => obtain ⟨k, t⟩ := e; simp [StbF, ih]

theorem stbK_iff {W : List Warn} {sheet : Str} {ks bk : List (Val × Fields)} :
    StbK W sheet ks bk ↔ ∀ e ∈ ks, ∃ k' gs, (k', gs) ∈ bk ∧ k'.pyEq e.1 = true ∧ StbF W sheet e.2 gs := by
  induction ks with
  | nil => simp [StbK]
  | cons e r ih => obtain ⟨k, t⟩ := e; simp [StbK, ih]

theorem mergeCell_warns_value {sheet key : Str} {c b d : Cell} (h : b.value = d.value) :
    (mergeCell sheet key c (.cell b)).2 = (mergeCell sheet key c (.cell d)).2 := by
  unfold mergeCell
  cases c.value with
  | geo g => rfl
  | atom a => simp only [h]; split <;> simp
  | arr a => simp only [h]; split <;> simp
  | arr2 a => simp only [h]; split <;> simp

theorem stb_grow {W : List Warn} {sheet : Str} (t : Tree) : ∀ {key : Str} {u v : Tree}, Stb W sheet key t u → Gr u v → Stb W sheet key t v := by
  have fields : ∀ fs : Fields, (∀ e ∈ fs, ∀ {key : Str} {u v : Tree}, Stb W sheet key e.2 u → Gr u v → Stb W sheet key e.2 v) →
      ∀ gs hs : Fields, StbF W sheet fs gs → GrF gs hs → StbF W sheet fs hs := by
    intro fs ih gs hs h1 h2
    rw [stbF_iff] at h1 ⊢
    intro e he
    obtain ⟨u, hu, c⟩ := h1 e he
    obtain ⟨v, hv, g⟩ := grF_iff.1 h2 _ (Dict.get_eq_some_mem hu)
    exact ⟨v, hv, ih e he c g⟩
  induction t using Tree.ind with
  | cell c =>
    intro key u v h1 h2
    simp only [Stb] at h1 ⊢
    cases u with
    | cell b =>
      obtain ⟨d, rfl, hd, _⟩ := h2
      rw [mergeCell_warns_value hd]; exact h1
    | obj fs =>
      obtain ⟨gs, rfl, _⟩ := h2
      unfold mergeCell at h1 ⊢
      cases hv : c.value <;> simp only [hv] at h1 ⊢ <;> exact h1
    | tmp bk br =>
      obtain ⟨ck, cr, rfl, _⟩ := h2
      unfold mergeCell at h1 ⊢
      cases hv : c.value <;> simp only [hv] at h1 ⊢ <;> exact h1
  | obj fs ih =>
    intro key u v h1 h2
    simp only [Stb] at h1 ⊢
    rcases h1 with ⟨gs, rfl, h1⟩ | ⟨h1, h3⟩
    · obtain ⟨hs, rfl, g⟩ := h2
      exact Or.inl ⟨hs, rfl, fields fs ih gs hs h1 g⟩
    · refine Or.inr ⟨?_, h3⟩
      rintro gs rfl
      cases u with
      | cell b => obtain ⟨_, h, _⟩ := h2; cases h
      | obj fs => exact h1 _ rfl
      | tmp _ _ => obtain ⟨_, _, h, _⟩ := h2; cases h
  | tmp ks rs ih _ =>
    intro key u v h1 h2
    simp only [Stb] at h1 ⊢
    rcases h1 with ⟨bk, br, rfl, h1⟩ | ⟨h1, h3⟩
    · obtain ⟨ck, cr, rfl, g, _⟩ := h2
      refine Or.inl ⟨ck, cr, rfl, stbK_iff.2 ?_⟩
      intro x hx
      obtain ⟨k', gs, hm, he, hs⟩ := stbK_iff.1 h1 x hx
      obtain ⟨hs', hm', g'⟩ := grK_iff.1 g _ hm
      exact ⟨k', hs', hm', he, fields x.2 (ih x hx) gs hs' hs g'⟩
    · refine Or.inr ⟨?_, h3⟩
      rintro bk br rfl
      cases u with
      | cell b => obtain ⟨_, h, _⟩ := h2; cases h
      | obj fs => obtain ⟨_, h, _⟩ := h2; cases h
      | tmp _ _ => exact h1 _ _ rfl

theorem stbF_grow {W : List Warn} {sheet : Str} {fs gs hs : Fields} (h1 : StbF W sheet fs gs) (h2 : GrF gs hs) : StbF W sheet fs hs := by
  rw [stbF_iff] at h1 ⊢
  intro e he
  obtain ⟨u, hu, c⟩ := h1 e he
  obtain ⟨v, hv, g⟩ := grF_iff.1 h2 _ (Dict.get_eq_some_mem hu)
  exact ⟨v, hv, stb_grow e.2 c g⟩

/-- A tree is stable in what it has grown into. -/
theorem stb_of_gr {W : List Warn} {sheet : Str} (t : Tree) : ∀ {key : Str} {u : Tree}, IdT t → Gr t u → Stb W sheet key t u := by
  have fields : ∀ fs : Fields, (∀ e ∈ fs, ∀ {key : Str} {u : Tree}, IdT e.2 → Gr e.2 u → Stb W sheet key e.2 u) →
      ∀ gs : Fields, IdF fs → GrF fs gs → StbF W sheet fs gs := by
    intro fs ih gs hi h
    rw [stbF_iff]
    intro e he
    obtain ⟨u, hu, g⟩ := grF_iff.1 h e he
    exact ⟨u, hu, ih e he (idF_iff.1 hi e he) g⟩
  induction t using Tree.ind with
  | cell c =>
    intro key u hi h
    obtain ⟨b, rfl, hb, _⟩ := h
    simp only [Stb, IdT] at hi ⊢
    obtain ⟨h1, h2⟩ := hi
    unfold mergeCell
    rw [← hb] at h1 h2
    cases hv : c.value with
    | geo g => rw [hv] at hb; exact absurd hb (h2 g)
    | atom a =>
      have e : b.value = .atom a := hb.trans hv
      rw [e] at h1
      simp only [e]
      rw [if_pos h1]
      simp
    | arr a =>
      have e : b.value = .arr a := hb.trans hv
      rw [e] at h1
      simp only [e]
      rw [if_pos h1]
      simp
    | arr2 a =>
      have e : b.value = .arr2 a := hb.trans hv
      rw [e] at h1
      simp only [e]
      rw [if_pos h1]
      simp
  | obj fs ih =>
    intro key u hi h
    obtain ⟨gs, rfl, hb⟩ := h
    simp only [Stb, IdT] at hi ⊢
    exact Or.inl ⟨gs, rfl, fields fs ih gs hi hb⟩
  | tmp ks rs ih _ =>
    intro key u hi h
    obtain ⟨bk, br, rfl, hb, hs⟩ := h
    simp only [Stb, IdT] at hi ⊢
    refine Or.inl ⟨bk, br, rfl, stbK_iff.2 ?_⟩
    intro x hx
    obtain ⟨gs, hm, g⟩ := grK_iff.1 hb x hx
    have := idK_iff.1 hi.1 x hx
    exact ⟨x.1, gs, hm, this.1, fields x.2 (ih x hx) gs this.2 g⟩

theorem stbF_of_gr {W : List Warn} {sheet : Str} {fs gs : Fields} (hi : IdF fs) (h : GrF fs gs) : StbF W sheet fs gs := by
  have := stb_of_gr (W := W) (sheet := sheet) (.obj fs) (key := []) (u := .obj gs) (by simpa [IdT] using hi) ⟨gs, rfl, h⟩
  simp only [Stb] at this
  rcases this with ⟨_, h, g⟩ | ⟨h, _⟩
  · cases h; exact g
  · exact absurd rfl (h gs)

/-- What has been merged is stable in the result. -/
theorem merge_stable (n : Option Str) (xml : Bool) (sheet : Str) (W : List Warn) : ∀ (v : Tree) (key : Str) (bv : Tree), IdT v →
    WFTree n xml v → WFTree n xml bv → (∀ w ∈ (mergeTree sheet key v bv).2, w ∈ W) → Stb W sheet key v (mergeTree sheet key v bv).1 := by
  have fields : ∀ fs : Fields, (∀ e ∈ fs, ∀ (key : Str) (bv : Tree), IdT e.2 → WFTree n xml e.2 → WFTree n xml bv →
        (∀ w ∈ (mergeTree sheet key e.2 bv).2, w ∈ W) → Stb W sheet key e.2 (mergeTree sheet key e.2 bv).1) →
      ∀ base, IdF fs → WFFields n xml fs → WFFields n xml base → (∀ w ∈ (mergeFields sheet fs base).2, w ∈ W) →
        StbF W sheet fs (mergeFields sheet fs base).1 := by
    intro fs ih base hi hf hb hw
    obtain ⟨hf1, hf2⟩ := wfFields_iff.1 hf
    obtain ⟨hb1, hb2⟩ := wfFields_iff.1 hb
    rw [stbF_iff]
    intro e he
    have hg := Dict.get_of_mem hf1 he
    have hie := idF_iff.1 hi e he
    rw [mergeFields_get _ _ hf1, hg]
    cases hv : Dict.get base e.1 with
    | none => exact ⟨e.2, rfl, stb_of_gr e.2 hie (gr_refl e.2 (hf2 _ _ hg))⟩
    | some bv =>
      refine ⟨_, rfl, ih e he _ _ hie (hf2 _ _ hg) (hb2 _ _ hv) ?_⟩
      intro w hw'
      exact hw w ((mergeFields_warn sheet fs hf1 base w).2 ⟨_, _, _, hg, hv, hw'⟩)
  intro v
  induction v using Tree.ind with
  | cell c =>
    intro key bv hi hv hb hw
    rw [mergeTree] at hw ⊢
    simp only [Stb]
    cases bv with
    | cell b =>
      obtain ⟨b', h1, h2, _⟩ := mergeCell_cell sheet key c b
      rw [h1, mergeCell_warns_value h2]; exact hw
    | obj fs => rw [mergeCell_obj]; exact hw
    | tmp bk br => rw [mergeCell_tmp]; exact hw
  | obj fs ih =>
    intro key bv hi hv hb hw
    simp only [Stb, IdT] at hi ⊢
    cases bv with
    | obj bfs =>
      rw [mergeTree] at hw ⊢
      simp only [WFTree] at hv hb
      exact Or.inl ⟨_, rfl, fields fs ih bfs hi hv hb hw⟩
    | cell b =>
      have e : mergeTree sheet key (.obj fs) (.cell b) = (.cell b, ignoredWarnsFields (.objectButOther key) fs) := by
        rw [mergeTree]
        simp
      rw [e] at hw ⊢
      exact Or.inr ⟨by simp, hw⟩
    | tmp bk br =>
      have e : mergeTree sheet key (.obj fs) (.tmp bk br) = (.tmp bk br, ignoredWarnsFields (.objectButOther key) fs) := by
        rw [mergeTree]
        simp
      rw [e] at hw ⊢
      exact Or.inr ⟨by simp, hw⟩
  | tmp ks rs ih _ =>
    intro key bv hi hv hb hw
    simp only [Stb, IdT] at hi ⊢
    cases bv with
    | obj bfs =>
      have e : mergeTree sheet key (.tmp ks rs) (.obj bfs) = (.obj bfs, ignoredWarnsKeyed (.arrayButOther key) ks ++ ignoredWarnsItems (.arrayButOther key) rs) := by
        rw [mergeTree]
        simp
      rw [e] at hw ⊢
      exact Or.inr ⟨by simp, fun w h => hw w (List.mem_append_left _ h)⟩
    | cell b =>
      have e : mergeTree sheet key (.tmp ks rs) (.cell b) = (.cell b, ignoredWarnsKeyed (.arrayButOther key) ks ++ ignoredWarnsItems (.arrayButOther key) rs) := by
        rw [mergeTree]
        simp
      rw [e] at hw ⊢
      exact Or.inr ⟨by simp, fun w h => hw w (List.mem_append_left _ h)⟩
    | tmp bk br =>
      rw [mergeTree] at hw ⊢
      simp only [WFTree] at hv hb
      refine Or.inl ⟨_, _, rfl, ?_⟩
      have hvk := hv.2.1
      have hbd := hb.1
      have hbk := hb.2.1
      obtain ⟨hi, hrs⟩ := hi
      subst hrs
      simp only at hw
      clear hv hb
      induction ks generalizing bk with
      | nil => trivial
      | cons x r ihr =>
        obtain ⟨k, fs⟩ := x
        rw [mergeKeyed] at hw ⊢
        rw [wfKeyed_iff] at hvk
        simp only [IdK] at hi
        have hk := hvk (k, fs) (by simp)
        have hr : WFKeyed n xml r := wfKeyed_iff.2 (fun e he => hvk e (by simp [he]))
        have ihr : ∀ bk, KeysDistinct bk → WFKeyed n xml bk → (∀ w ∈ (mergeKeyed sheet r bk).2, w ∈ W) → StbK W sheet r (mergeKeyed sheet r bk).1 :=
          fun bk h1 h2 h3 => by apply ihr <;> first | assumption | exact hi.2 | exact fun x hx => ih x (by simp [hx])
        have hw' := wf_mergeKeyed n xml sheet [(k, fs)] bk (wfKeyed_iff.2 (fun e he => hvk e (by simp at he; simp [he]))) hbd hbk
        cases hg : keyGet bk k with
        | none =>
          simp only [hg] at hw ⊢
          simp only [mergeKeyed, hg] at hw'
          refine ⟨?_, ihr _ hw'.1 hw'.2 hw⟩
          obtain ⟨gs, hm, g'⟩ := grK_iff.1 (mergeKeyed_grows hr hw'.1 hw'.2) (k, fs) (by rw [keySet_of_none _ hg]; simp)
          exact ⟨k, gs, hm, hi.1.1, stbF_of_gr hi.1.2 g'⟩
        | some bfs =>
          simp only [hg] at hw ⊢
          simp only [mergeKeyed, hg] at hw'
          refine ⟨?_, ihr _ hw'.1 hw'.2 (fun w h => hw w (by simp [h]))⟩
          obtain ⟨a, k', b, e1, e2, e3⟩ := keySet_of_some (mergeFields sheet fs bfs).1 hg
          obtain ⟨gs, hm, g'⟩ := grK_iff.1 (mergeKeyed_grows (sheet := sheet) hr hw'.1 hw'.2) (k', (mergeFields sheet fs bfs).1) (by rw [e2]; simp)
          obtain ⟨k2, hm2, _⟩ := keyGet_some_mem hg
          refine ⟨k', gs, hm, e3, stbF_grow (fields fs (ih (k, fs) (by simp)) bfs hi.1.2 hk.2 (wfKeyed_iff.1 hbk _ hm2).2 (fun w h => hw w (by simp [h]))) g'⟩

theorem mergeFields_stable {n : Option Str} {xml : Bool} {sheet : Str} {W : List Warn} {fs base : Fields} (hi : IdF fs) (hf : WFFields n xml fs)
    (hb : WFFields n xml base) (hw : ∀ w ∈ (mergeFields sheet fs base).2, w ∈ W) : StbF W sheet fs (mergeFields sheet fs base).1 := by
  have := merge_stable n xml sheet W (.obj fs) [] (.obj base) (by simpa [IdT] using hi) (by simpa [WFTree] using hf) (by simpa [WFTree] using hb)
    (by rw [mergeTree]; exact hw)
  rw [mergeTree] at this
  simp only [Stb] at this
  rcases this with ⟨_, h, g⟩ | ⟨h, _⟩
  · cases h; exact g
  · exact absurd rfl (h _)

theorem jf_set {base : Fields} {k : Str} {bv t : Tree} (hb : Dict.get base k = some bv) (h : jv t = jv bv) : jf (Dict.set base k t) = jf base := by
  obtain ⟨a, b, e1, e2⟩ := Dict.set_of_some t hb
  rw [e2, e1]
  simp [jf, h]

theorem mergeCell_jv (sheet key : Str) (c : Cell) (bv : Tree) : jv (mergeCell sheet key c bv).1 = jv bv := by
  cases bv with
  | cell b => obtain ⟨b', h1, h2, _⟩ := mergeCell_cell sheet key c b; rw [h1]; simp [jv_cell, h2]
  | obj fs => rw [mergeCell_obj]
  | tmp bk br => rw [mergeCell_tmp]

theorem jtd_keySet {bk : List (Val × Fields)} {br : List Fields} {k : Val} {old new : Fields} (h : keyGet bk k = some old) (hj : jobj new = jobj old) :
    jtd (keySet bk k new) br = jtd bk br := by
  obtain ⟨a, k', b, e1, e2, e3⟩ := keySet_of_some new h
  rw [e2, e1]
  simp [jtd, hj]

/-- Merging something stable changes no value and adds no warning. -/
theorem stable_merge (n : Option Str) (xml : Bool) (sheet : Str) (W : List Warn) : ∀ (v : Tree) (key : Str) (bv : Tree), IdT v →
    WFTree n xml v → WFTree n xml bv → Stb W sheet key v bv →
    jv (mergeTree sheet key v bv).1 = jv bv ∧ ∀ w ∈ (mergeTree sheet key v bv).2, w ∈ W := by
  have fields : ∀ fs : Fields, (∀ e ∈ fs, ∀ (key : Str) (bv : Tree), IdT e.2 → WFTree n xml e.2 → WFTree n xml bv → Stb W sheet key e.2 bv →
        jv (mergeTree sheet key e.2 bv).1 = jv bv ∧ ∀ w ∈ (mergeTree sheet key e.2 bv).2, w ∈ W) →
      ∀ base, IdF fs → WFFields n xml fs → WFFields n xml base → StbF W sheet fs base →
        jf (mergeFields sheet fs base).1 = jf base ∧ ∀ w ∈ (mergeFields sheet fs base).2, w ∈ W := by
    intro fs
    induction fs with
    | nil => intro _ base _ _ _ _; simp [mergeFields]
    | cons e r ihr =>
      obtain ⟨k, t⟩ := e
      intro ih base hi hf hb hs
      simp only [IdF, WFFields, StbF] at hi hf hs
      obtain ⟨⟨u, hu, hsu⟩, hsr⟩ := hs
      have hwu := (wfFields_iff.1 hb).2 _ _ hu
      obtain ⟨j1, w1⟩ := ih (k, t) (by simp) k u hi.1 hf.2.1 hwu hsu
      have hgr : GrF base (Dict.set base k (mergeTree sheet k t u).1) := by
        rw [grF_iff]
        intro e he
        have hge := Dict.get_of_mem (wfFields_iff.1 hb).1 he
        rw [Dict.get_set]
        by_cases hk : k = e.1
        · subst hk
          rw [hu] at hge; cases hge
          exact ⟨_, by simp, merge_grows n xml sheet t e.1 e.2 hf.2.1 hwu⟩
        · exact ⟨e.2, by simp [hk, hge], gr_refl e.2 ((wfFields_iff.1 hb).2 _ _ hge)⟩
      have hwb : WFFields n xml (Dict.set base k (mergeTree sheet k t u).1) := by
        rw [wfFields_iff] at hb ⊢
        refine ⟨Dict.nodup_keys_set _ _ hb.1, ?_⟩
        intro k' t' h
        rw [Dict.get_set] at h
        by_cases hk : k = k'
        · simp [hk] at h; rw [← h, ← hk]; exact wf_mergeTree n xml sheet k t u hf.2.1 hwu
        · simp [hk] at h; exact hb.2 k' t' h
      obtain ⟨j2, w2⟩ := ihr (fun e he => ih e (by simp [he])) _ hi.2 hf.2.2 hwb (stbF_grow hsr hgr)
      rw [mergeFields, hu]
      refine ⟨by simp only; rw [j2, jf_set hu j1], ?_⟩
      intro w hw
      rcases List.mem_append.1 hw with h | h
      · exact w1 w h
      · exact w2 w h
  intro v
  induction v using Tree.ind with
  | cell c =>
    intro key bv hi hv hb hs
    rw [mergeTree]
    exact ⟨mergeCell_jv _ _ _ _, hs⟩
  | obj fs ih =>
    intro key bv hi hv hb hs
    simp only [Stb, IdT] at hi hs
    rcases hs with ⟨gs, rfl, hs⟩ | ⟨h1, h2⟩
    · rw [mergeTree]
      simp only [WFTree] at hv hb
      obtain ⟨j, w⟩ := fields fs ih gs hi hv hb hs
      exact ⟨by simp only [jv_obj]; rw [j], w⟩
    · have e : mergeTree sheet key (.obj fs) bv = (bv, ignoredWarnsFields (.objectButOther key) fs) := by
        cases bv with
        | obj gs => exact absurd rfl (h1 gs)
        | cell b =>
          rw [mergeTree]
          simp
        | tmp a b =>
          rw [mergeTree]
          simp
      rw [e]
      exact ⟨rfl, h2⟩
  | tmp ks rs ih _ =>
    intro key bv hi hv hb hs
    simp only [Stb, IdT] at hi hs
    obtain ⟨hi, rfl⟩ := hi
    rcases hs with ⟨bk, br, rfl, hs⟩ | ⟨h1, h2⟩
    · rw [mergeTree]
      simp only [WFTree] at hv hb
      simp only [jv_tmp, List.append_nil]
      have hvk := hv.2.1
      have hbd := hb.1
      have hbk := hb.2.1
      clear hv hb
      suffices h : jtd (mergeKeyed sheet ks bk).1 br = jtd bk br ∧ ∀ w ∈ (mergeKeyed sheet ks bk).2, w ∈ W by
        exact ⟨by rw [h.1], h.2⟩
      induction ks generalizing bk with
      | nil => simp [mergeKeyed]
      | cons x r ihr =>
        obtain ⟨k, fs⟩ := x
        simp only [StbK, IdK, WFKeyed] at hs hi hvk
        obtain ⟨⟨k', gs, hm, hk', hsf⟩, hsr⟩ := hs
        have hg : keyGet bk k = some gs := keyGet_of_mem hbd hm hk'
        have hw' := wf_mergeKeyed n xml sheet [(k, fs)] bk (by simp only [WFKeyed]; exact ⟨hvk.1, hvk.2.1, trivial⟩) hbd hbk
        simp only [mergeKeyed, hg] at hw'
        have hwg := (wfKeyed_iff.1 hbk _ hm).2
        obtain ⟨j1, w1⟩ := fields fs (ih (k, fs) (by simp)) gs hi.1.2 hvk.2.1 hwg hsf
        have hgr := grK_keySet_some hbk hg (mergeFields_grows (sheet := sheet) hvk.2.1 hwg)
        have hsr' : StbK W sheet r (keySet bk k (mergeFields sheet fs gs).1) := by
          rw [stbK_iff] at hsr ⊢
          intro x hx
          obtain ⟨k2, hs, hm2, he2, hst⟩ := hsr x hx
          obtain ⟨hs', hm', g'⟩ := grK_iff.1 hgr _ hm2
          exact ⟨k2, hs', hm', he2, stbF_grow hst g'⟩
        have := ihr (fun x hx => ih x (by simp [hx])) hi.2 _ hsr' hvk.2.2 hw'.1 hw'.2
        rw [mergeKeyed, hg]
        refine ⟨?_, ?_⟩
        · simp only
          rw [this.1, jtd_keySet hg (by simp [jobj, j1])]
        · intro w hw
          rcases List.mem_append.1 hw with h | h
          · exact w1 w h
          · exact this.2 w h
    · have e : mergeTree sheet key (.tmp ks []) bv = (bv, ignoredWarnsKeyed (.arrayButOther key) ks ++ ignoredWarnsItems (.arrayButOther key) []) := by
        cases bv with
        | tmp a b => exact absurd rfl (h1 a b)
        | cell b =>
          rw [mergeTree]
          simp
        | obj gs =>
          rw [mergeTree]
          simp
      rw [e]
      refine ⟨rfl, ?_⟩
      simpa [ignoredWarnsItems] using h2

theorem stable_mergeFields {n : Option Str} {xml : Bool} {sheet : Str} {W : List Warn} {fs base : Fields} (hi : IdF fs) (hf : WFFields n xml fs)
    (hb : WFFields n xml base) (hs : StbF W sheet fs base) :
    jf (mergeFields sheet fs base).1 = jf base ∧ ∀ w ∈ (mergeFields sheet fs base).2, w ∈ W := by
  have := stable_merge n xml sheet W (.obj fs) [] (.obj base) (by simpa [IdT] using hi) (by simpa [WFTree] using hf) (by simpa [WFTree] using hb)
    (by simp only [Stb]; exact Or.inl ⟨base, rfl, hs⟩)
  rw [mergeTree] at this
  simpa [jv_obj] using this

/-! ### A run -/

theorem addToGroup_grows {cfg : UnCfg} {x : Row} {td td' : TDict} {w : List Warn} (h : addToGroup cfg x.sheet x.fields td = .ok (td', w))
    (hw : TDWF cfg.idName cfg.row.xml td) (hf : WFFields cfg.idName cfg.row.xml x.fields) : GrK td.keyed td'.keyed := by
  rcases addToGroup_cases h with ⟨_, rfl, rfl, _⟩ | ⟨k, _, _, _, ⟨_, rfl, rfl⟩ | ⟨base, hb, rfl, rfl⟩⟩
  · exact grK_refl hw.keyed
  · rw [grK_iff]
    intro e he
    exact ⟨e.2, by simp [he], grF_refl (wfKeyed_iff.1 hw.keyed e he).2⟩
  · obtain ⟨k', hm, _⟩ := keyGet_some_mem hb
    exact grK_keySet_some hw.keyed hb (mergeFields_grows hf (wfKeyed_iff.1 hw.keyed _ hm).2)

theorem addRow_grows {cfg : UnCfg} {x : Row} {gs gs' : Groups} {w : List Warn} (h : addRow cfg x.sheet x.root x.fields gs = .ok (gs', w))
    (hw : GWF cfg gs) (hf : WFFields cfg.idName cfg.row.xml x.fields) : ∀ g ∈ gs, ∃ td, (g.1, td) ∈ gs' ∧ GrK g.2.keyed td.keyed := by
  unfold addRow at h
  split at h
  · cases h
  · next td w1 h1 =>
    cases h
    intro g hgm
    cases hg : keyGet gs x.root with
    | none =>
      rw [keySet_of_none _ hg]
      exact ⟨g.2, by simp [hgm], grK_refl (hw.groups g hgm).keyed⟩
    | some t =>
      rw [hg] at h1
      obtain ⟨a, k', b, e1, e2, e3⟩ := keySet_of_some td hg
      have := addToGroup_grows h1 (hw.groups (k', t) (by rw [e1]; simp)) hf
      have hr := grK_refl (hw.groups g hgm).keyed
      rw [e2]
      rw [e1] at hgm
      rcases List.mem_append.1 hgm with hgm | hgm
      · exact ⟨g.2, by simp [hgm], hr⟩
      · rcases List.mem_cons.1 hgm with rfl | hgm
        · exact ⟨td, by simp, this⟩
        · exact ⟨g.2, by simp [hgm], hr⟩

/-- The row has been merged into one of the objects. -/
def Placed (cfg : UnCfg) (W : List Warn) (x : Row) (gs : Groups) : Prop :=
  ∃ g ∈ gs, g.1.pyEq x.root = true ∧ ∃ k, rowKey cfg.idName cfg.row.xml x.fields = .ok (some k) ∧ k.hashable = true ∧
    ∃ e ∈ g.2.keyed, e.1.pyEq k = true ∧ StbF W x.sheet x.fields e.2

theorem placed_grows {cfg : UnCfg} {W : List Warn} {x y : Row} {gs gs' : Groups} {w : List Warn} (hp : Placed cfg W x gs)
    (h : addRow cfg y.sheet y.root y.fields gs = .ok (gs', w)) (hw : GWF cfg gs) (hf : WFFields cfg.idName cfg.row.xml y.fields) :
    Placed cfg W x gs' := by
  obtain ⟨g, hg, hr, k, hk, hh, e, he, hek, hs⟩ := hp
  obtain ⟨td, htd, hgr⟩ := addRow_grows h hw hf g hg
  obtain ⟨fs, hfs, hgf⟩ := grK_iff.1 hgr e he
  exact ⟨_, htd, hr, k, hk, hh, _, hfs, hek, stbF_grow hs hgf⟩

/-- A row as in the property: with an id, all inner items with ids, all values recognisable. -/
structure Ident (cfg : UnCfg) (x : Row) : Prop where
  fields : IdF x.fields
  root : x.root.pyEq x.root = true
  id : ∃ k, rowKey cfg.idName cfg.row.xml x.fields = .ok (some k) ∧ k.pyEq k = true

theorem placed_add {cfg : UnCfg} {W : List Warn} {x : Row} {gs gs' : Groups} {w : List Warn} (hx : Ident cfg x)
    (h : addRow cfg x.sheet x.root x.fields gs = .ok (gs', w)) (hw : GWF cfg gs) (hf : WFFields cfg.idName cfg.row.xml x.fields)
    (hs : ∀ y ∈ w, y ∈ W) : Placed cfg W x gs' := by
  obtain ⟨k, hk, hkk⟩ := hx.id
  unfold addRow at h
  split at h
  · cases h
  · next td w1 h1 =>
    cases h
    have htd : ∃ root', (root', td) ∈ keySet gs x.root td ∧ root'.pyEq x.root = true := by
      cases hg : keyGet gs x.root with
      | none => rw [keySet_of_none _ hg]; exact ⟨x.root, by simp, hx.root⟩
      | some t =>
        obtain ⟨a, k', b, e1, e2, e3⟩ := keySet_of_some td hg
        rw [e2]; exact ⟨k', by simp, e3⟩
    have hwd : TDWF cfg.idName cfg.row.xml ((keyGet gs x.root).getD {}) := by
      cases hg : keyGet gs x.root with
      | none => exact tdwf_empty _ _
      | some t => obtain ⟨k', hm, _⟩ := keyGet_some_mem hg; exact hw.groups _ hm
    obtain ⟨root', hm, hr⟩ := htd
    refine ⟨_, hm, hr, k, hk, ?_⟩
    rcases addToGroup_cases h1 with ⟨_, _, _, hk'⟩ | ⟨k', _, hh, hk', hc⟩
    · rw [hk] at hk'; cases hk'
    · rw [hk] at hk'; cases hk'
      refine ⟨hh, ?_⟩
      rcases hc with ⟨_, rfl, rfl⟩ | ⟨base, hb, rfl, rfl⟩
      · exact ⟨(k, x.fields), by simp, hkk, stbF_of_gr hx.fields (grF_refl hf)⟩
      · obtain ⟨a, k', b, e1, e2, e3⟩ := keySet_of_some (mergeFields x.sheet x.fields base).1 hb
        refine ⟨(k', (mergeFields x.sheet x.fields base).1), by simp only [e2]; simp, e3, ?_⟩
        exact mergeFields_stable hx.fields hf (wfKeyed_iff.1 hwd.keyed (k', base) (by rw [e1]; simp)).2 hs

theorem placed_run {cfg : UnCfg} {W : List Warn} (rows : List Row) : ∀ {gs gs' : Groups} {w : List Warn}, foldRows cfg rows gs = .ok (gs', w) →
    GWF cfg gs → (∀ r ∈ rows, WFFields cfg.idName cfg.row.xml r.fields) → (∀ y ∈ w, y ∈ W) →
    (∀ x, Placed cfg W x gs → Placed cfg W x gs') ∧ ∀ x ∈ rows, Ident cfg x → Placed cfg W x gs' := by
  induction rows with
  | nil =>
    intro gs gs' w h _ _ _
    simp [foldRows] at h
    obtain ⟨rfl, _⟩ := h
    exact ⟨fun _ h => h, by simp⟩
  | cons r rs ih =>
    intro gs gs' w h hw hf hs
    simp only [foldRows] at h
    split at h
    · cases h
    · next g1 w1 h1 =>
      split at h
      · cases h
      · next g2 w2 h2 =>
        cases h
        have hw1 := (addRow_inv (Q := fun _ => True) (P := fun _ _ => True) (by simp) h1 hw (hf r (by simp))).1
        obtain ⟨b1, b2⟩ := ih h2 hw1 (fun r hr => hf r (by simp [hr])) (fun y hy => hs y (by simp [hy]))
        refine ⟨fun x hx => b1 x (placed_grows hx h1 hw (hf r (by simp))), ?_⟩
        intro x hx hid
        rcases List.mem_cons.1 hx with rfl | hx
        · exact b1 x (placed_add hid h1 hw (hf x (by simp)) (fun y hy => hs y (by simp [hy])))
        · exact b2 x hx hid

/-- Adding a row that is already there. -/
theorem placed_again {cfg : UnCfg} {W : List Warn} {x : Row} {gs : Groups} (hp : Placed cfg W x gs) (hx : Ident cfg x) (hw : GWF cfg gs)
    (hf : WFFields cfg.idName cfg.row.xml x.fields) :
    ∃ gs' w, addRow cfg x.sheet x.root x.fields gs = .ok (gs', w) ∧ jgs gs' = jgs gs ∧ ∀ y ∈ w, y ∈ W := by
  obtain ⟨g, hg, hr, k, hk, hh, e, he, hek, hs⟩ := hp
  have h1 : keyGet gs x.root = some g.2 := keyGet_of_mem hw.distinct hg hr
  have hwd := hw.groups g hg
  have h2 : keyGet g.2.keyed k = some e.2 := keyGet_of_mem hwd.distinct he hek
  obtain ⟨hj, hww⟩ := stable_mergeFields hx.fields hf (wfKeyed_iff.1 hwd.keyed e he).2 hs
  refine ⟨keySet gs x.root { g.2 with keyed := keySet g.2.keyed k (mergeFields x.sheet x.fields e.2).1 }, _,
    by simp [addRow, addToGroup, hk, hh, h1, h2], ?_, hww⟩
  obtain ⟨a, k', b, e1, e2, e3⟩ := keySet_of_some (v := { g.2 with keyed := keySet g.2.keyed k (mergeFields x.sheet x.fields e.2).1 }) h1
  rw [e2]
  conv => rhs; rw [e1]
  simp only [jgs, List.flatMap_append, List.flatMap_cons]
  rw [jtd_keySet h2 (by simp [jobj, hj])]

theorem again_run {cfg : UnCfg} {W : List Warn} (rows : List Row) : ∀ {gs : Groups}, GWF cfg gs →
    (∀ r ∈ rows, WFFields cfg.idName cfg.row.xml r.fields) → (∀ x ∈ rows, Placed cfg W x gs ∧ Ident cfg x) →
    ∃ gs' w, foldRows cfg rows gs = .ok (gs', w) ∧ jgs gs' = jgs gs ∧ ∀ y ∈ w, y ∈ W := by
  induction rows with
  | nil => intro gs _ _ _; exact ⟨gs, [], rfl, rfl, by simp⟩
  | cons r rs ih =>
    intro gs hw hf hp
    obtain ⟨g1, w1, h1, j1, s1⟩ := placed_again (hp r (by simp)).1 (hp r (by simp)).2 hw (hf r (by simp))
    have hw1 := (addRow_inv (Q := fun _ => True) (P := fun _ _ => True) (by simp) h1 hw (hf r (by simp))).1
    obtain ⟨g2, w2, h2, j2, s2⟩ := ih hw1 (fun r hr => hf r (by simp [hr]))
      (fun x hx => ⟨placed_grows (hp x (by simp [hx])).1 h1 hw (hf r (by simp)), (hp x (by simp [hx])).2⟩)
    refine ⟨g2, w1 ++ w2, by simp [foldRows, h1, h2], j2.trans j1, ?_⟩
    intro y hy
    rcases List.mem_append.1 hy with h | h
    · exact s1 y h
    · exact s2 y h

theorem identified_iff {n : Option Str} {xml : Bool} {fs : List (Str × CTree)} : IdentifiedFields n xml fs ↔ ∀ e ∈ fs, Identified n xml e.2 := by
  induction fs with
  | nil => simp [IdentifiedFields]
  | cons e r ih => obtain ⟨k, t⟩ := e; simp [IdentifiedFields, ih]

theorem identifiedItems_iff {n : Option Str} {xml : Bool} {is : List (List (Str × CTree))} :
    IdentifiedItems n xml is ↔ ∀ x ∈ is, (cellId n xml x).isSome = true ∧ IdentifiedFields n xml x := by
  induction is with
  | nil => simp [IdentifiedItems]
  | cons e r ih => simp [IdentifiedItems, ih]

/-- The value of the id of an identified object. -/
theorem cellId_identified {n : Option Str} {xml : Bool} {fs : List (Str × CTree)} {k : Val} (h : cellId n xml fs = some k)
    (hi : IdentifiedFields n xml fs) : k.pyEq k = true := by
  unfold cellId at h
  split at h
  · cases h
  · next m =>
    split at h
    · next c hc => cases h; have := identified_iff.1 hi _ (Dict.get_eq_some_mem hc); simp only [Identified] at this; exact this.1
    · next gs hg =>
      split at h
      · split at h
        · next c hc =>
          cases h
          have := identified_iff.1 hi _ (Dict.get_eq_some_mem hg)
          simp only [Identified] at this
          have := identified_iff.1 this _ (Dict.get_eq_some_mem hc)
          simp only [Identified] at this; exact this.1
        · cases h
      · cases h
    · cases h

theorem idT_of_identified {n : Option Str} {xml : Bool} (t : Tree) : WFTree n xml t → Identified n xml (treeToLists t) → IdT t := by
  have fields : ∀ fs : Fields, (∀ e ∈ fs, WFTree n xml e.2 → Identified n xml (treeToLists e.2) → IdT e.2) →
      WFFields n xml fs → IdentifiedFields n xml (toLists fs) → IdF fs := by
    intro fs ih hw hi
    rw [idF_iff]
    intro e he
    obtain ⟨h1, h2⟩ := wfFields_iff.1 hw
    refine ih e he (h2 _ _ (Dict.get_of_mem h1 he)) ?_
    exact identified_iff.1 hi (e.1, treeToLists e.2) (by rw [toLists_eq]; exact List.mem_map.2 ⟨e, he, rfl⟩)
  induction t using Tree.ind with
  | cell c => intro _ h; simpa [treeToLists, Identified, IdT] using h
  | obj fs ih =>
    intro hw h
    simp only [treeToLists, Identified, IdT, WFTree] at hw h ⊢
    exact fields fs ih hw h
  | tmp ks rs ih _ =>
    intro hw h
    simp only [treeToLists, Identified, IdT, WFTree] at hw h ⊢
    rw [identifiedItems_iff] at h
    refine ⟨idK_iff.2 ?_, ?_⟩
    · intro x hx
      have hh := h (toLists x.2) (by rw [keyedToLists_eq]; exact List.mem_append_left _ (List.mem_map.2 ⟨x, hx, rfl⟩))
      obtain ⟨⟨_, v, hv, hs⟩, hwf⟩ := wfKeyed_iff.1 hw.2.1 x hx
      have hc := cellId_toLists hv
      have hvv := cellId_identified hc hh.2
      refine ⟨?_, fields x.2 (ih x hx) hwf hh.2⟩
      rcases hs with hs | hs
      · rw [hs]; exact hvv
      · exact Val.pyEq_left hs
    · cases rs with
      | nil => rfl
      | cons y r =>
        have hh := h (toLists y) (by rw [itemsToLists_eq]; simp)
        rw [cellId_toLists (wfItems_iff.1 hw.2.2 y (by simp)).1] at hh
        simp at hh

theorem idF_of_identified {n : Option Str} {xml : Bool} {fs : Fields} (hw : WFFields n xml fs) (h : IdentifiedFields n xml (toLists fs)) : IdF fs := by
  have := idT_of_identified (n := n) (xml := xml) (.obj fs) (by simpa [WFTree] using hw) (by simpa [treeToLists, Identified] using h)
  simpa [IdT] using this

end Verif
