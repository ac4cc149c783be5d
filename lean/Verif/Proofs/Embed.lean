import Verif.Proofs.Run
import Verif.Proofs.Induct
import Verif.Spec.Data
/-! Merging only adds. -/
namespace Verif
open Spec

theorem embedsFields_iff {fs gs : List (Str × Json)} : EmbedsFields fs gs ↔
    ∀ e ∈ fs, ∃ w, Dict.get gs e.1 = some w ∧ Embeds e.2 w := by
  induction fs with
  | nil => simp [EmbedsFields]
  | cons e r ih => obtain ⟨k, v⟩ := e; simp only [EmbedsFields, ih, List.mem_cons, forall_eq_or_imp]

theorem embedsList_skip {xs ys zs : List Json} (h : EmbedsList xs ys) : EmbedsList xs (zs ++ ys) := by
  cases xs with
  | nil => simp [EmbedsList]
  | cons x xs =>
    simp only [EmbedsList] at h ⊢
    obtain ⟨b, y, a, rfl, h1, h2⟩ := h
    exact ⟨zs ++ b, y, a, by simp, h1, h2⟩

theorem embedsList_append {xs ys xs' ys' : List Json} (h : EmbedsList xs ys) (h' : EmbedsList xs' ys') :
    EmbedsList (xs ++ xs') (ys ++ ys') := by
  induction xs generalizing ys with
  | nil => exact embedsList_skip h'
  | cons x xs ih =>
    simp only [EmbedsList] at h
    obtain ⟨b, y, a, rfl, h1, h2⟩ := h
    simp only [List.cons_append, EmbedsList]
    exact ⟨b, y, a ++ ys', by simp, h1, ih h2⟩

theorem embedsList_weaken {xs ys zs : List Json} (h : EmbedsList xs ys) : EmbedsList xs (ys ++ zs) := by
  have := embedsList_append h (show EmbedsList [] zs by simp [EmbedsList])
  simpa using this

theorem embedsList_map {α : Type} (l : List α) (f g : α → Json) (h : ∀ a ∈ l, Embeds (f a) (g a)) :
    EmbedsList (l.map f) (l.map g) := by
  induction l with
  | nil => simp [EmbedsList]
  | cons a r ih =>
    simp only [List.map_cons, EmbedsList]
    exact ⟨[], g a, r.map g, rfl, h a (by simp), ih (fun b hb => h b (by simp [hb]))⟩

theorem embeds_trans : ∀ (a b c : Json), Embeds a b → Embeds b c → Embeds a c := by
  intro a
  induction a using Json.ind with
  | leaf a =>
    intro b c h1 h2
    simp only [Embeds] at h1; subst h1
    simpa only [Embeds] using h2
  | obj fs ih =>
    intro b c h1 h2
    simp only [Embeds] at h1
    rcases h1 with rfl | ⟨gs, rfl, h1⟩
    · exact h2
    simp only [Embeds] at h2 ⊢
    rcases h2 with rfl | ⟨hs, rfl, h2⟩
    · exact Or.inr ⟨gs, rfl, h1⟩
    refine Or.inr ⟨hs, rfl, ?_⟩
    rw [embedsFields_iff] at *
    intro e he
    obtain ⟨w, hw, hew⟩ := h1 e he
    obtain ⟨x, hx, hwx⟩ := h2 (e.1, w) (Dict.get_eq_some_mem hw)
    exact ⟨x, hx, ih e he w x hew hwx⟩
  | arr is ih =>
    intro b c h1 h2
    simp only [Embeds] at h1
    obtain ⟨ys, rfl, h1⟩ := h1
    simp only [Embeds] at h2 ⊢
    obtain ⟨zs, rfl, h2⟩ := h2
    refine ⟨zs, rfl, ?_⟩
    induction is generalizing ys zs with
    | nil => simp [EmbedsList]
    | cons x xs ih2 =>
      simp only [EmbedsList] at h1 ⊢
      obtain ⟨b, y, a, rfl, hxy, h1⟩ := h1
      -- drop `b` from the second embedding
      have hdrop : ∀ (b : List Json) (zs : List Json), EmbedsList (b ++ y :: a) zs →
          ∃ b' z a', zs = b' ++ z :: a' ∧ Embeds y z ∧ EmbedsList a a' := by
        intro b
        induction b with
        | nil => intro zs h; simpa only [List.nil_append, EmbedsList] using h
        | cons u us ih3 =>
          intro zs h
          simp only [List.cons_append, EmbedsList] at h
          obtain ⟨b1, y1, a1, rfl, _, h⟩ := h
          obtain ⟨b', z, a', rfl, h3, h4⟩ := ih3 a1 h
          exact ⟨b1 ++ y1 :: b', z, a', by simp, h3, h4⟩
      obtain ⟨b', z, a', rfl, hyz, ha⟩ := hdrop b zs h2
      exact ⟨b', z, a', rfl, ih x (by simp) y z hxy hyz,
        ih2 (fun j hj => ih j (by simp [hj])) a h1 a' ha⟩

theorem embedsList_trans {a b c : List Json} (h1 : EmbedsList a b) (h2 : EmbedsList b c) : EmbedsList a c := by
  have := embeds_trans (.arr a) (.arr b) (.arr c) (by simpa [Embeds] using h1) (by simpa [Embeds] using h2)
  simpa [Embeds] using this

theorem embeds_refl (j : Json) : Embeds j j := by
  induction j using Json.ind with
  | leaf a => simp [Embeds]
  | obj fs ih => simp [Embeds]
  | arr is ih =>
    simp only [Embeds]
    refine ⟨is, rfl, ?_⟩
    have := embedsList_map is id id (fun a ha => ih a ha)
    simpa using this

theorem embedsList_refl (l : List Json) : EmbedsList l l := by
  have := embeds_refl (.arr l); simpa [Embeds] using this

theorem keys_jf (fs : Fields) : Dict.keys (jf fs) = Dict.keys fs := by simp [jf, Dict.keys]

theorem get_jf (fs : Fields) (k : Str) : Dict.get (jf fs) k = (Dict.get fs k).map jv := by
  unfold jf; exact Dict.get_map jv fs k

theorem embeds_mergeFields {sheet : Str} {fs base : Fields} (hn : (Dict.keys fs).Nodup)
    (hb : (Dict.keys base).Nodup)
    (h : ∀ k v bv, Dict.get fs k = some v → Dict.get base k = some bv → Embeds (jv bv) (jv (mergeTree sheet k v bv).1)) :
    Embeds (.obj (jf base)) (.obj (jf (mergeFields sheet fs base).1)) := by
  simp only [Embeds]
  refine Or.inr ⟨_, rfl, ?_⟩
  rw [embedsFields_iff]
  intro e he
  obtain ⟨⟨k, bv⟩, hm, rfl⟩ := List.mem_map.1 he
  have hg := Dict.get_of_mem hb hm
  simp only
  rw [get_jf, mergeFields_get sheet fs hn, hg]
  cases hf : Dict.get fs k with
  | none => exact ⟨jv bv, by simp [mergedAt], embeds_refl _⟩
  | some v => exact ⟨_, by simp [mergedAt], h k v bv hf hg⟩

theorem embeds_mergeKeyed {n : Option Str} {xml : Bool} {sheet : Str} (ks bk : List (Val × Fields))
    (hk : WFKeyed n xml ks) (hd : KeysDistinct bk) (hb : WFKeyed n xml bk)
    (h : ∀ e ∈ ks, ∀ bfs, WFFields n xml bfs → Embeds (jobj bfs) (jobj (mergeFields sheet e.2 bfs).1)) :
    EmbedsList (bk.map (fun e => jobj e.2)) ((mergeKeyed sheet ks bk).1.map (fun e => jobj e.2)) := by
  induction ks generalizing bk with
  | nil => simp only [mergeKeyed]; exact embedsList_refl _
  | cons e r ih =>
    obtain ⟨k, fs⟩ := e
    simp only [WFKeyed] at hk
    simp only [mergeKeyed]
    have hb' := wfKeyed_iff.1 hb
    cases hg : keyGet bk k with
    | none =>
      simp only
      rw [keySet_of_none _ hg]
      have h1 : KeysDistinct (bk ++ [(k, fs)]) := by
        rw [← keySet_of_none _ hg]; exact keysDistinct_keySet hd _ _
      have h2 : WFKeyed n xml (bk ++ [(k, fs)]) := by
        rw [wfKeyed_iff]
        intro e he
        rcases List.mem_append.1 he with he | he
        · exact hb' e he
        · simp at he; subst he; exact ⟨hk.1, hk.2.1⟩
      refine embedsList_trans ?_ (ih (bk ++ [(k, fs)]) hk.2.2 h1 h2 (fun e he => h e (by simp [he])))
      rw [List.map_append]; exact embedsList_weaken (embedsList_refl _)
    | some bfs =>
      simp only
      have hw := wf_mergeKeyed n xml sheet [(k, fs)] bk ⟨hk.1, hk.2.1, by simp [WFKeyed]⟩ hd hb
      simp only [mergeKeyed, hg] at hw
      refine embedsList_trans ?_ (ih _ hk.2.2 hw.1 hw.2 (fun e he => h e (by simp [he])))
      obtain ⟨a, k', b, e1, e2, e3⟩ := keySet_of_some (mergeFields sheet fs bfs).1 hg
      rw [e2, e1]
      simp only [List.map_append, List.map_cons]
      refine embedsList_append (embedsList_refl _) ?_
      simp only [EmbedsList]
      exact ⟨[], _, _, rfl, h (k, fs) (by simp) bfs (hb' (k', bfs) (by rw [e1]; simp)).2, embedsList_refl _⟩

theorem mergeTree_embeds (n : Option Str) (xml : Bool) (sheet : Str) (v : Tree) : ∀ (key : Str) (bv : Tree),
    WFTree n xml v → WFTree n xml bv → Embeds (jv bv) (jv (mergeTree sheet key v bv).1) := by
  induction v using Tree.ind with
  | cell c =>
    intro key bv _ _
    simp only [mergeTree]
    cases bv with
    | cell b =>
      obtain ⟨b', e1, e2, _⟩ := mergeCell_cell sheet key c b
      rw [e1]; simp only [jv_cell, e2]; exact embeds_refl _
    | obj fs => rw [mergeCell_obj]; exact embeds_refl _
    | tmp a b => rw [mergeCell_tmp]; exact embeds_refl _
  | obj fs ih =>
    intro key bv hv hb
    simp only [mergeTree]
    cases bv with
    | cell b => exact embeds_refl _
    | tmp a b => exact embeds_refl _
    | obj bfs =>
      simp only [WFTree] at hv hb
      simp only [jv_obj]
      refine embeds_mergeFields (wfFields_nodup hv) (wfFields_nodup hb) ?_
      intro k v bv h1 h2
      exact ih (k, v) (Dict.get_eq_some_mem h1) k bv ((wfFields_iff.1 hv).2 k v h1) ((wfFields_iff.1 hb).2 k bv h2)
  | tmp ks is ih _ =>
    intro key bv hv hb
    simp only [mergeTree]
    cases bv with
    | cell b => exact embeds_refl _
    | obj a => exact embeds_refl _
    | tmp bk br =>
      simp only [WFTree] at hv hb
      simp only [jv_tmp, Embeds]
      refine ⟨_, rfl, ?_⟩
      unfold jtd
      rw [List.map_append, ]
      refine embedsList_append ?_ (embedsList_weaken (embedsList_refl _))
      refine embeds_mergeKeyed ks bk hv.2.1 hb.1 hb.2.1 ?_
      intro e he bfs hbfs
      have hw := (wfKeyed_iff.1 hv.2.1 e he).2
      refine embeds_mergeFields (wfFields_nodup hw) (wfFields_nodup hbfs) ?_
      intro k v bv h1 h2
      exact ih e he (k, v) (Dict.get_eq_some_mem h1) k bv ((wfFields_iff.1 hw).2 k v h1) ((wfFields_iff.1 hbfs).2 k bv h2)

theorem mergeFields_embeds {n : Option Str} {xml : Bool} (sheet : Str) {fs base : Fields}
    (hf : WFFields n xml fs) (hb : WFFields n xml base) :
    Embeds (jobj base) (jobj (mergeFields sheet fs base).1) := by
  refine embeds_mergeFields (wfFields_nodup hf) (wfFields_nodup hb) ?_
  intro k v bv h1 h2
  exact mergeTree_embeds n xml sheet v k bv ((wfFields_iff.1 hf).2 k v h1) ((wfFields_iff.1 hb).2 k bv h2)

theorem addToGroup_embeds {cfg : UnCfg} {sheet : Str} {fs : Fields} {td td' : TDict} {w : List Warn}
    (h : addToGroup cfg sheet fs td = .ok (td', w)) (hw : TDWF cfg.idName cfg.row.xml td)
    (hf : WFFields cfg.idName cfg.row.xml fs) :
    EmbedsList (jtd td.keyed td.rest) (jtd td'.keyed td'.rest) := by
  have hnew : ∀ {k : Val}, itemKey cfg.idName cfg.row.xml fs = .ok (some k) → keyGet td.keyed k = none →
      ∀ {t : TDict}, td.append cfg.idName cfg.row.xml fs = .ok t → t = { td with keyed := td.keyed ++ [(k, fs)] } := by
    intro k hk hg t ht
    unfold TDict.append at ht
    rw [hk] at ht
    simp only at ht
    split at ht
    · cases ht
    · rw [hg] at ht; simp only at ht; cases ht; rfl
  unfold addToGroup at h
  split at h
  · cases h
  · next hk =>
    split at h
    · cases h
    · next td1 h1 =>
      cases h
      have hk' := rowKey_ok hk
      unfold TDict.append at h1
      rw [hk'] at h1
      cases h1
      unfold jtd
      rw [List.map_append, ← List.append_assoc]
      exact embedsList_weaken (embedsList_refl _)
  · next k hk =>
    split at h
    · cases h
    · split at h
      · next base hg =>
        cases h
        obtain ⟨a, k', b, e1, e2, e3⟩ := keySet_of_some (mergeFields sheet fs base).1 hg
        have hold := wfKeyed_iff.1 hw.keyed (k', base) (by rw [e1]; simp)
        unfold jtd
        refine embedsList_append ?_ (embedsList_refl _)
        simp only
        rw [e2, e1]
        simp only [List.map_append, List.map_cons]
        refine embedsList_append (embedsList_refl _) ?_
        simp only [EmbedsList]
        exact ⟨[], _, _, rfl, mergeFields_embeds sheet hf hold.2, embedsList_refl _⟩
      · next hg =>
        split at h
        · cases h
        · next td1 h1 =>
          cases h
          rw [hnew (rowKey_ok hk) hg h1]
          unfold jtd
          simp only [List.map_append]
          exact embedsList_append (embedsList_weaken (embedsList_refl _)) (embedsList_refl _)

theorem addRow_embeds {cfg : UnCfg} {sheet : Str} {root : Val} {fs : Fields} {gs gs' : Groups} {w : List Warn}
    (h : addRow cfg sheet root fs gs = .ok (gs', w)) (hw : GWF cfg gs)
    (hf : WFFields cfg.idName cfg.row.xml fs) : EmbedsList (jgs gs) (jgs gs') := by
  unfold addRow at h
  split at h
  · cases h
  · next td w1 h1 =>
    cases h
    unfold jgs
    cases hg : keyGet gs root with
    | none =>
      rw [keySet_of_none _ hg, List.flatMap_append]
      exact embedsList_weaken (embedsList_refl _)
    | some t =>
      rw [hg] at h1
      simp only [Option.getD_some] at h1
      obtain ⟨a, k', b, e1, e2, e3⟩ := keySet_of_some td hg
      have := addToGroup_embeds h1 (hw.groups (k', t) (by rw [e1]; simp)) hf
      rw [e2, e1]
      simp only [List.flatMap_append, List.flatMap_cons]
      exact embedsList_append (embedsList_refl _) (embedsList_append this (embedsList_refl _))

theorem foldRows_embeds {cfg : UnCfg} (rows : List Row) {gs gs' : Groups} {w : List Warn}
    (h : foldRows cfg rows gs = .ok (gs', w)) (hw : GWF cfg gs)
    (hf : ∀ r ∈ rows, WFFields cfg.idName cfg.row.xml r.fields) : EmbedsList (jgs gs) (jgs gs') := by
  induction rows generalizing gs w with
  | nil => simp [foldRows] at h; obtain ⟨rfl, _⟩ := h; exact embedsList_refl _
  | cons r rs ih =>
    simp only [foldRows] at h
    split at h
    · cases h
    · next g1 w1 h1 =>
      split at h
      · cases h
      · next g2 w2 h2 =>
        cases h
        have a1 := (addRow_inv (Q := fun _ => True) (P := fun _ _ => True) (by simp) h1 hw (hf r (by simp))).1
        exact embedsList_trans (addRow_embeds h1 hw (hf r (by simp))) (ih h2 a1 (fun r hr => hf r (by simp [hr])))

/-! ### Prefixes of a run -/

theorem rowsAlone_lineRows_congr (cfg : UnCfg) (s s' : SheetIn) (hn : s.name = s'.name) (hh : s.headings = s'.headings)
    (j : Nat) (ls : List Line) : rowsAlone cfg (lineRows s j ls) = rowsAlone cfg (lineRows s' j ls) := by
  induction ls generalizing j with
  | nil => rfl
  | cons l ls ih =>
    rw [lineRows_cons, lineRows_cons, rowsAlone_append, rowsAlone_append, ih]
    by_cases hd : hasData l = true
    · simp [hd, rowsAlone, rowAlone, hn, hh]
    · simp [hd, rowsAlone]

theorem lineRows_append (s : SheetIn) (j : Nat) (a b : List Line) :
    lineRows s j (a ++ b) = lineRows s j a ++ lineRows s (j + a.length) b := by
  induction a generalizing j with
  | nil => simp [lineRows]
  | cons x r ih =>
    rw [List.cons_append, lineRows_cons, lineRows_cons, ih, List.append_assoc]
    congr 2
    congr 1
    simp; omega

theorem rowsIn_append (a b : List SheetIn) : rowsIn (a ++ b) = rowsIn a ++ rowsIn b := by
  simp [rowsIn]

theorem rowsIn_cons (s : SheetIn) (r : List SheetIn) :
    rowsIn (s :: r) = (if s.headings = some [] then [] else lineRows s 0 s.lines) ++ rowsIn r := by
  simp [rowsIn, lineRows]

/-- The rows of the longer spreadsheet start with those of the shorter one. -/
theorem rows_prefix {cfg : UnCfg} {pre post : List SheetIn} {s : SheetIn} {more : List Line} {rows' : List Row}
    (h : rowsAlone cfg (rowsIn (pre ++ { s with lines := s.lines ++ more } :: post)) = .ok rows') :
    ∃ rows rest, rowsAlone cfg (rowsIn (pre ++ [s])) = .ok rows ∧ rows' = rows ++ rest := by
  rw [rowsIn_append, rowsIn_cons, rowsAlone_append] at h
  split at h
  · cases h
  · next a ha =>
    split at h
    · cases h
    · next b hb =>
      cases h
      rw [rowsAlone_append] at hb
      by_cases he : s.headings = some []
      · refine ⟨a, b, ?_, rfl⟩
        rw [rowsIn_append, rowsIn_cons, rowsAlone_append, ha]
        simp [he, rowsAlone, rowsIn]
      · simp only [he, if_false, lineRows_append, rowsAlone_append] at hb
        rw [rowsAlone_lineRows_congr cfg { s with lines := s.lines ++ more } s rfl rfl] at hb
        split at hb
        · cases hb
        · next c hc =>
          split at hc
          · cases hc
          · next d hd =>
            split at hc
            · cases hc
            · next e he' =>
              cases hc
              split at hb
              · cases hb
              · next f hf =>
                cases hb
                refine ⟨a ++ d, e ++ f, ?_, by simp⟩
                rw [rowsIn_append, rowsIn_cons, rowsAlone_append, ha]
                simp [he, hd, rowsIn, rowsAlone]

end Verif
