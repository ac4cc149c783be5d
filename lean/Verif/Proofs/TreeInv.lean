import Verif.Proofs.RowInv
/-! From the row builder to the trees that are merged: the invariants carry over. -/
namespace Verif

theorem placeAll_all {cfg : RowCfg} {Q : Str → Prop} {P : List Str → Cell → Prop}
    (cells : List (Str × Cell))
    (hinv : ∀ e ∈ cells, e.2.value.blank = false → ∃ Pin Pth, PlaceInv cfg e.1 (pathList e.1) Q P Pin Pth ∧
      Pth [] [] ∧ Pin (pathList e.1) e.2)
    (cur cur' : RFields) (w : List Warn) (hcur : RAllF Q P [] cur)
    (h : placeAll cfg cells cur = .ok (cur', w)) : RAllF Q P [] cur' := by
  induction cells generalizing cur cur' w with
  | nil => simp [placeAll] at h; exact h.1 ▸ hcur
  | cons e r ih =>
    obtain ⟨path, cell⟩ := e
    rw [placeAll] at h
    cases hb : cell.value.blank with
    | true =>
      rw [hb] at h; simp only [if_true] at h
      exact ih (fun e he => hinv e (by simp [he])) cur cur' w hcur h
    | false =>
      rw [hb] at h; simp only [Bool.false_eq_true, if_false] at h
      obtain ⟨Pin, Pth, inv, hp, hpin⟩ := hinv (path, cell) (by simp) hb
      split at h
      · cases h
      · next cur1 w1 hpl =>
        split at h
        · cases h
        · next cur2 w2 hr =>
          cases h
          exact ih (fun e he => hinv e (by simp [he])) cur1 _ _
            (place_all inv (pathList path) [] [] cell cur cur1 w1 rfl hp hpin hcur hpl) hr

mutual
/-- All keys of dicts satisfy `Q`, the cell at key path `p` satisfies `P p`. -/
def TAll (Q : Str → Prop) (P : List Str → Cell → Prop) (p : List Str) : Tree → Prop
  | .cell c => P p c
  | .obj fs => TAllF Q P p fs
  | .tmp keyed rest => TAllK Q P p keyed ∧ TAllI Q P p rest
def TAllF (Q : Str → Prop) (P : List Str → Cell → Prop) (p : List Str) : List (Str × Tree) → Prop
  | [] => True
  | (k, t) :: r => (Q k ∧ TAll Q P (p ++ [k]) t) ∧ TAllF Q P p r
def TAllK (Q : Str → Prop) (P : List Str → Cell → Prop) (p : List Str) :
    List (Val × List (Str × Tree)) → Prop
  | [] => True
  | (_, fs) :: r => TAllF Q P p fs ∧ TAllK Q P p r
def TAllI (Q : Str → Prop) (P : List Str → Cell → Prop) (p : List Str) :
    List (List (Str × Tree)) → Prop
  | [] => True
  | fs :: r => TAllF Q P p fs ∧ TAllI Q P p r
end

section
variable {Q : Str → Prop} {P : List Str → Cell → Prop}

theorem tallF_iff {p : List Str} {fs : Fields} : TAllF Q P p fs ↔
    ∀ e ∈ fs, Q e.1 ∧ TAll Q P (p ++ [e.1]) e.2 := by
  induction fs with
  | nil => simp [TAllF]
  | cons e r ih => obtain ⟨k, t⟩ := e; simp only [TAllF, ih, List.mem_cons, forall_eq_or_imp]

theorem tallK_iff {p : List Str} {ks : List (Val × Fields)} : TAllK Q P p ks ↔
    ∀ e ∈ ks, TAllF Q P p e.2 := by
  induction ks with
  | nil => simp [TAllK]
  | cons e r ih => obtain ⟨k, t⟩ := e; simp only [TAllK, ih, List.mem_cons, forall_eq_or_imp]

theorem tallI_iff {p : List Str} {is : List Fields} : TAllI Q P p is ↔ ∀ e ∈ is, TAllF Q P p e := by
  induction is with
  | nil => simp [TAllI]
  | cons e r ih => simp only [TAllI, ih, List.mem_cons, forall_eq_or_imp]

theorem tallF_set {p : List Str} {fs : Fields} (h : TAllF Q P p fs) {k : Str} {t : Tree} (hq : Q k)
    (ht : TAll Q P (p ++ [k]) t) : TAllF Q P p (Dict.set fs k t) := by
  rw [tallF_iff] at h ⊢
  intro e he
  obtain ⟨k', t'⟩ := e
  rcases Dict.mem_set he with ⟨rfl, rfl⟩ | h'
  · exact ⟨hq, ht⟩
  · exact h _ h'

theorem tallF_update {p : List Str} {a b : Fields} (ha : TAllF Q P p a) (hb : TAllF Q P p b) :
    TAllF Q P p (Dict.update a b) := by
  unfold Dict.update
  induction b generalizing a with
  | nil => exact ha
  | cons e r ih =>
    obtain ⟨k, t⟩ := e
    simp only [TAllF] at hb
    exact ih (tallF_set ha hb.1.1 hb.1.2) hb.2

theorem wfFields_set {n : Option Str} {xml : Bool} {fs : Fields} (h : WFFields n xml fs) (k : Str) {t : Tree}
    (ht : WFTree n xml t) : WFFields n xml (Dict.set fs k t) := by
  rw [wfFields_iff] at h ⊢
  refine ⟨Dict.nodup_keys_set _ _ h.1, ?_⟩
  intro k' t' h'
  rw [Dict.get_set] at h'
  by_cases hk : k = k'
  · simp [hk] at h'; exact h' ▸ ht
  · simp [hk] at h'; exact h.2 k' t' h'

theorem wfFields_update {n : Option Str} {xml : Bool} {a b : Fields} (ha : WFFields n xml a)
    (hb : WFFields n xml b) : WFFields n xml (Dict.update a b) := by
  unfold Dict.update
  induction b generalizing a with
  | nil => exact ha
  | cons e r ih =>
    obtain ⟨k, t⟩ := e
    simp only [WFFields] at hb
    exact ih (wfFields_set ha _ hb.2.1) hb.2.2
end

/-- The invariant of a `TemporaryDict`. -/
structure TDWF (n : Option Str) (xml : Bool) (td : TDict) : Prop where
  distinct : KeysDistinct td.keyed
  keyed : WFKeyed n xml td.keyed
  rest : WFItems n xml td.rest

def TDAll (Q : Str → Prop) (P : List Str → Cell → Prop) (p : List Str) (td : TDict) : Prop :=
  TAllK Q P p td.keyed ∧ TAllI Q P p td.rest

theorem itemKey_update {n : Option Str} {xml : Bool} {old item : Fields} {v : Val}
    (hn : (Dict.keys item).Nodup) (h : itemKey n xml item = .ok (some v)) :
    itemKey n xml (Dict.update old item) = .ok (some v) := by
  unfold itemKey at h ⊢
  cases n with
  | none => simp at h
  | some m =>
    simp only at h ⊢
    rw [Dict.get_update, Dict.get_reverse hn]
    cases hg : Dict.get item m with
    | none => rw [hg] at h; simp at h
    | some t => rw [hg] at h; simpa using h

theorem tdict_append_inv {n : Option Str} {xml : Bool} {Q : Str → Prop} {P : List Str → Cell → Prop} {p : List Str}
    {td td' : TDict} {item : Fields} (h : td.append n xml item = .ok td')
    (hw : TDWF n xml td) (hi : WFFields n xml item) :
    TDWF n xml td' ∧ (TDAll Q P p td → TAllF Q P p item → TDAll Q P p td') := by
  unfold TDict.append at h
  cases hk : itemKey n xml item with
  | error e => simp [hk] at h
  | ok o =>
    cases o with
    | none =>
      simp [hk] at h
      subst h
      refine ⟨⟨hw.distinct, hw.keyed, ?_⟩, ?_⟩
      · rw [wfItems_iff]
        intro fs hfs
        rcases List.mem_append.1 hfs with hfs | hfs
        · exact wfItems_iff.1 hw.rest fs hfs
        · simp at hfs; subst hfs; exact ⟨hk, hi⟩
      · intro ha hti
        refine ⟨ha.1, ?_⟩
        rw [tallI_iff]
        intro fs hfs
        rcases List.mem_append.1 hfs with hfs | hfs
        · exact tallI_iff.1 ha.2 fs hfs
        · simp at hfs; subst hfs; exact hti
    | some k =>
      simp only [hk] at h
      cases hh : k.hashable with
      | false => simp [hh] at h
      | true =>
        simp only [hh, Bool.not_true, Bool.false_eq_true, if_false] at h
        cases hg : keyGet td.keyed k with
        | none =>
          simp only [hg] at h
          cases h
          refine ⟨⟨?_, ?_, hw.rest⟩, ?_⟩
          · simp only; rw [← keySet_of_none item hg]; exact keysDistinct_keySet hw.distinct _ _
          · rw [wfKeyed_iff]
            intro e he
            rcases List.mem_append.1 he with he | he
            · exact wfKeyed_iff.1 hw.keyed e he
            · simp at he; subst he; exact ⟨⟨hh, k, hk, Or.inl rfl⟩, hi⟩
          · intro ha hti
            refine ⟨?_, ha.2⟩
            rw [tallK_iff]
            intro e he
            rcases List.mem_append.1 he with he | he
            · exact tallK_iff.1 ha.1 e he
            · simp at he; subst he; exact hti
        | some old =>
          simp only [hg] at h
          cases h
          obtain ⟨a, k', b, e1, e2, e3⟩ := keySet_of_some (Dict.update old item) hg
          have hold := wfKeyed_iff.1 hw.keyed (k', old) (by rw [e1]; simp)
          refine ⟨⟨keysDistinct_keySet hw.distinct _ _, ?_, hw.rest⟩, ?_⟩
          · simp only
            rw [e2, wfKeyed_iff]
            intro e he
            rcases List.mem_append.1 he with he | he
            · exact wfKeyed_iff.1 hw.keyed e (by rw [e1]; simp [he])
            · rcases List.mem_cons.1 he with he | he
              · subst he
                exact ⟨⟨hold.1.1, k, itemKey_update (wfFields_nodup hi) hk, Or.inr e3⟩,
                  wfFields_update hold.2 hi⟩
              · exact wfKeyed_iff.1 hw.keyed e (by rw [e1]; simp [he])
          · intro ha hti
            refine ⟨?_, ha.2⟩
            simp only
            rw [e2, tallK_iff]
            intro e he
            rcases List.mem_append.1 he with he | he
            · exact tallK_iff.1 ha.1 e (by rw [e1]; simp [he])
            · rcases List.mem_cons.1 he with he | he
              · subst he
                exact tallF_update (tallK_iff.1 ha.1 (k', old) (by rw [e1]; simp)) hti
              · exact tallK_iff.1 ha.1 e (by rw [e1]; simp [he])

theorem appendAll_inv {n : Option Str} {xml : Bool} {Q : Str → Prop} {P : List Str → Cell → Prop} {p : List Str}
    (items : List Fields) {td td' : TDict} (h : appendAll n xml items td = .ok td')
    (hw : TDWF n xml td) (ha : TDAll Q P p td) (hi : ∀ i ∈ items, WFFields n xml i ∧ TAllF Q P p i) :
    TDWF n xml td' ∧ TDAll Q P p td' := by
  induction items generalizing td with
  | nil => simp [appendAll] at h; subst h; exact ⟨hw, ha⟩
  | cons i r ih =>
    rw [appendAll] at h
    split at h
    · cases h
    · next td1 h1 =>
      have hi1 := hi i (by simp)
      have := tdict_append_inv (Q := Q) (P := P) (p := p) h1 hw hi1.1
      exact ih h this.1 (this.2 ha hi1.2) (fun i hi' => hi i (by simp [hi']))

theorem mem_insertIdx {α : Type} {x y : Int × α} {l : List (Int × α)} :
    y ∈ insertIdx x l ↔ y = x ∨ y ∈ l := by
  induction l with
  | nil => simp [insertIdx]
  | cons z r ih =>
    simp only [insertIdx]
    split
    · simp
    · simp only [List.mem_cons, ih]; grind

theorem mem_sortIdx {α : Type} {y : Int × α} {l : List (Int × α)} : y ∈ sortIdx l ↔ y ∈ l := by
  induction l with
  | nil => simp [sortIdx]
  | cons z r ih => simp [sortIdx, mem_insertIdx, ih]

mutual
theorem toTemp_inv (n : Option Str) (xml : Bool) (Q : Str → Prop) (P : List Str → Cell → Prop)
    (hsub : ∀ p c, P p c → c.sub = []) : ∀ (p : List Str) (fs : RFields) (fs' : Fields),
    RAllF Q P p fs → toTemp n xml fs = .ok fs' →
    WFFields n xml fs' ∧ TAllF Q P p fs' ∧ ∀ k ∈ Dict.keys fs', k ∈ Dict.keys fs
  | _, [], fs', _, h => by
    simp [toTemp] at h; subst h; simp [WFFields, TAllF, Dict.keys]
  | p, (k, .cell c) :: r, fs', hr, h => by
    simp only [RAllF, RAll] at hr
    simp only [toTemp] at h
    split at h
    · cases h
    · next r' hr' =>
      cases h
      obtain ⟨h1, h2, h3⟩ := toTemp_inv n xml Q P hsub p r r' hr.2.2.2 hr'
      refine ⟨⟨fun hk => hr.1 (h3 k hk), ?_, h1⟩, ⟨⟨hr.2.1, ?_⟩, h2⟩, ?_⟩
      · simp [WFTree, hsub _ _ hr.2.2.1]
      · simpa [TAll] using hr.2.2.1
      · intro k' hk'; simp only [Dict.keys, List.map_cons, List.mem_cons] at hk' ⊢
        exact hk'.imp id (h3 k')
  | p, (k, .obj fs) :: r, fs', hr, h => by
    simp only [RAllF, RAll] at hr
    simp only [toTemp] at h
    split at h
    · obtain ⟨h1, h2, h3⟩ := toTemp_inv n xml Q P hsub p r fs' hr.2.2.2 h
      exact ⟨h1, h2, fun k' hk' => by
        simp only [Dict.keys, List.map_cons, List.mem_cons]; exact Or.inr (h3 k' hk')⟩
    · split at h
      · cases h
      · next gs hgs =>
        split at h
        · cases h
        · next r' hr' =>
          cases h
          obtain ⟨h1, h2, h3⟩ := toTemp_inv n xml Q P hsub p r r' hr.2.2.2 hr'
          obtain ⟨g1, g2, g3⟩ := toTemp_inv n xml Q P hsub (p ++ [k]) fs gs hr.2.2.1 hgs
          refine ⟨⟨fun hk => hr.1 (h3 k hk), by simpa only [WFTree] using g1, h1⟩,
            ⟨⟨hr.2.1, by simpa only [TAll] using g2⟩, h2⟩, ?_⟩
          intro k' hk'; simp only [Dict.keys, List.map_cons, List.mem_cons] at hk' ⊢
          exact hk'.imp id (h3 k')
  | p, (k, .lad is) :: r, fs', hr, h => by
    simp only [RAllF, RAll] at hr
    simp only [toTemp] at h
    split at h
    · cases h
    · next is' his' =>
      split at h
      · cases h
      · next td htd =>
        split at h
        · cases h
        · next r' hr' =>
          cases h
          obtain ⟨h1, h2, h3⟩ := toTemp_inv n xml Q P hsub p r r' hr.2.2.2 hr'
          have hit := toTempItems_inv n xml Q P hsub (p ++ [k]) is is' hr.2.2.1 his'
          obtain ⟨g1, g2⟩ := appendAll_inv (Q := Q) (P := P) (p := p ++ [k]) _ htd
            ⟨by simp [KeysDistinct], by simp [WFKeyed], by simp [WFItems]⟩
            ⟨by simp [TAllK], by simp [TAllI]⟩ (by
              intro i hi
              obtain ⟨e, he, rfl⟩ := List.mem_map.1 hi
              exact hit e (mem_sortIdx.1 he))
          refine ⟨⟨fun hk => hr.1 (h3 k hk), ?_, h1⟩, ⟨⟨hr.2.1, ?_⟩, h2⟩, ?_⟩
          · simp only [WFTree]; exact ⟨g1.distinct, g1.keyed, g1.rest⟩
          · simp only [TAll]; exact g2
          · intro k' hk'; simp only [Dict.keys, List.map_cons, List.mem_cons] at hk' ⊢
            exact hk'.imp id (h3 k')
theorem toTempItems_inv (n : Option Str) (xml : Bool) (Q : Str → Prop) (P : List Str → Cell → Prop)
    (hsub : ∀ p c, P p c → c.sub = []) : ∀ (p : List Str) (is : List (Int × RFields)) (is' : List (Int × Fields)),
    RAllI Q P p is → toTempItems n xml is = .ok is' →
    ∀ e ∈ is', WFFields n xml e.2 ∧ TAllF Q P p e.2
  | _, [], is', _, h => by
    simp [toTempItems] at h; subst h; simp
  | p, (i, fs) :: r, is', hr, h => by
    simp only [RAllI] at hr
    simp only [toTempItems] at h
    split at h
    · exact toTempItems_inv n xml Q P hsub p r is' hr.2.2 h
    · split at h
      · cases h
      · next gs hgs =>
        split at h
        · cases h
        · next r' hr' =>
          cases h
          intro e he
          rcases List.mem_cons.1 he with he | he
          · subst he
            obtain ⟨g1, g2, _⟩ := toTemp_inv n xml Q P hsub p fs gs hr.2.1 hgs
            exact ⟨g1, g2⟩
          · exact toTempItems_inv n xml Q P hsub p r r' hr.2.2 hr' e he
end

/-- The invariant of one row's object. -/
theorem unflattenRow_inv {cfg : RowCfg} {n : Option Str} {Q : Str → Prop} {P : List Str → Cell → Prop}
    (hsub : ∀ p c, P p c → c.sub = []) (cells : List (Str × Cell))
    (hinv : ∀ e ∈ cells, e.2.value.blank = false → ∃ Pin Pth, PlaceInv cfg e.1 (pathList e.1) Q P Pin Pth ∧
      Pth [] [] ∧ Pin (pathList e.1) e.2)
    {fs : Fields} {w : List Warn} (h : unflattenRow cfg n cells = .ok (fs, w)) :
    WFFields n cfg.xml fs ∧ TAllF Q P [] fs := by
  unfold unflattenRow at h
  split at h
  · cases h
  · next rf w1 h1 =>
    split at h
    · cases h
    · next fs' h2 =>
      cases h
      have hr := placeAll_all cells hinv [] rf _ (by simp [RAllF]) h1
      obtain ⟨g1, g2, _⟩ := toTemp_inv n cfg.xml Q P hsub [] rf _ hr h2
      exact ⟨g1, g2⟩

/-- Every row's object has the shape invariant, provided its cells have no sub-cells. -/
theorem unflattenRow_wf {cfg : RowCfg} {n : Option Str} (cells : List (Str × Cell))
    (hsub : ∀ e ∈ cells, e.2.sub = [])
    {fs : Fields} {w : List Warn} (h : unflattenRow cfg n cells = .ok (fs, w)) :
    WFFields n cfg.xml fs := by
  refine (unflattenRow_inv (Q := fun _ => True) (P := fun _ c => c.sub = []) (fun _ _ h => h) cells ?_ h).1
  intro e he _
  refine ⟨fun _ c => c.sub = [], fun _ _ => True, ?_, trivial, hsub e he⟩
  constructor <;> intros <;> simp_all

theorem lineCells_sub (sheet : Str) (hs : Option (List (Option Str))) (j k : Nat) (l : Line) :
    ∀ e ∈ lineCells sheet hs j k l, e.2.sub = [] := by
  induction l generalizing k with
  | nil => simp [lineCells]
  | cons x r ih =>
    obtain ⟨h, v⟩ := x
    simp only [lineCells, List.mem_cons, forall_eq_or_imp]
    exact ⟨trivial, ih _⟩

mutual
theorem tall_mergeFields (Q : Str → Prop) (P : List Str → Cell → Prop)
    (hP : ∀ p b c, P p b → P p c → b.value.pyEq c.value = true → P p { b with sub := b.sub ++ [(c.value, c.loc)] })
    (sheet : Str) : ∀ (p : List Str) (fs base : Fields), TAllF Q P p fs → TAllF Q P p base →
    TAllF Q P p (mergeFields sheet fs base).1
  | _, [], base, _, hb => by simpa [mergeFields] using hb
  | p, (k, v) :: r, base, hf, hb => by
    simp only [TAllF] at hf
    simp only [mergeFields]
    cases hg : Dict.get base k with
    | none => exact tall_mergeFields Q P hP sheet p r _ hf.2 (tallF_set hb hf.1.1 hf.1.2)
    | some bv =>
      have hbv := (tallF_iff.1 hb) (k, bv) (Dict.get_eq_some_mem hg)
      exact tall_mergeFields Q P hP sheet p r _ hf.2
        (tallF_set hb hf.1.1 (tall_mergeTree Q P hP sheet k (p ++ [k]) v bv hf.1.2 hbv.2))
theorem tall_mergeTree (Q : Str → Prop) (P : List Str → Cell → Prop)
    (hP : ∀ p b c, P p b → P p c → b.value.pyEq c.value = true → P p { b with sub := b.sub ++ [(c.value, c.loc)] })
    (sheet key : Str) : ∀ (p : List Str) (v bv : Tree), TAll Q P p v → TAll Q P p bv →
    TAll Q P p (mergeTree sheet key v bv).1
  | p, .cell c, bv, hv, hb => by
    simp only [mergeTree]
    unfold mergeCell
    split
    · exact hb
    · split
      · next h => simp only [TAll] at hb hv ⊢; exact hP p _ c hb hv h
      · exact hb
    · exact hb
  | p, .obj fs, bv, hv, hb => by
    simp only [mergeTree]
    cases bv with
    | obj bfs =>
      simp only [TAll] at hv hb ⊢
      exact tall_mergeFields Q P hP sheet p fs bfs hv hb
    | cell c => exact hb
    | tmp a b => exact hb
  | p, .tmp keyed rest, bv, hv, hb => by
    simp only [mergeTree]
    cases bv with
    | tmp bk br =>
      simp only [TAll] at hv hb ⊢
      refine ⟨tall_mergeKeyed Q P hP sheet p keyed bk hv.1 hb.1, ?_⟩
      rw [tallI_iff]
      intro fs hfs
      rcases List.mem_append.1 hfs with h | h
      · exact tallI_iff.1 hb.2 fs h
      · exact tallI_iff.1 hv.2 fs h
    | cell c => exact hb
    | obj a => exact hb
theorem tall_mergeKeyed (Q : Str → Prop) (P : List Str → Cell → Prop)
    (hP : ∀ p b c, P p b → P p c → b.value.pyEq c.value = true → P p { b with sub := b.sub ++ [(c.value, c.loc)] })
    (sheet : Str) : ∀ (p : List Str) (keyed bk : List (Val × Fields)), TAllK Q P p keyed → TAllK Q P p bk →
    TAllK Q P p (mergeKeyed sheet keyed bk).1
  | _, [], bk, _, hb => by simpa [mergeKeyed] using hb
  | p, (k, fs) :: r, bk, hk, hb => by
    simp only [TAllK] at hk
    simp only [mergeKeyed]
    have hb' := tallK_iff.1 hb
    cases hg : keyGet bk k with
    | none =>
      simp only
      apply tall_mergeKeyed Q P hP sheet p r _ hk.2
      rw [keySet_of_none _ hg, tallK_iff]
      intro e he
      rcases List.mem_append.1 he with he | he
      · exact hb' e he
      · simp at he; subst he; exact hk.1
    | some bfs =>
      simp only
      apply tall_mergeKeyed Q P hP sheet p r _ hk.2
      obtain ⟨a, k', b, e1, e2, e3⟩ := keySet_of_some (mergeFields sheet fs bfs).1 hg
      rw [e2, tallK_iff]
      intro e he
      rcases List.mem_append.1 he with he | he
      · exact hb' e (by rw [e1]; simp [he])
      · rcases List.mem_cons.1 he with he | he
        · subst he
          exact tall_mergeFields Q P hP sheet p fs bfs hk.1 (hb' (k', bfs) (by rw [e1]; simp))
        · exact hb' e (by rw [e1]; simp [he])
end

end Verif
