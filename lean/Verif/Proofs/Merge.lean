import Verif.Proofs.Key
import Verif.Model.Unflatten
/-! Pointwise description of `merge`, and the shape invariant of trees. -/
namespace Verif

/-- What `mergeFields` leaves under a key. -/
def mergedAt (sheet k : Str) : Option Tree → Option Tree → Option Tree
  | none, b => b
  | some v, none => some v
  | some v, some bv => some (mergeTree sheet k v bv).1

theorem mergeFields_get (sheet : Str) (fs : Fields) (hn : (Dict.keys fs).Nodup) (base : Fields) (k : Str) :
    Dict.get (mergeFields sheet fs base).1 k = mergedAt sheet k (Dict.get fs k) (Dict.get base k) := by
  induction fs generalizing base with
  | nil => simp [mergeFields, mergedAt]
  | cons e r ih =>
    obtain ⟨j, v⟩ := e
    have hn' : j ∉ Dict.keys r ∧ (Dict.keys r).Nodup := by simpa [Dict.keys] using hn
    have hj : Dict.get r j = none := Dict.get_none_iff.2 hn'.1
    simp only [mergeFields]
    cases hb : Dict.get base j with
    | none =>
      simp only [ih hn'.2, Dict.get_cons, Dict.get_set]
      by_cases h : j = k
      · subst h; simp [hj, hb, mergedAt]
      · simp [h]
    | some bv =>
      simp only [ih hn'.2, Dict.get_cons, Dict.get_set]
      by_cases h : j = k
      · subst h; simp [hj, hb, mergedAt]
      · simp [h]

theorem mergeFields_warn (sheet : Str) (fs : Fields) (hn : (Dict.keys fs).Nodup) (base : Fields) (w : Warn) :
    w ∈ (mergeFields sheet fs base).2 ↔
      ∃ k v bv, Dict.get fs k = some v ∧ Dict.get base k = some bv ∧ w ∈ (mergeTree sheet k v bv).2 := by
  induction fs generalizing base with
  | nil => simp [mergeFields]
  | cons e r ih =>
    obtain ⟨j, v⟩ := e
    have hn' : j ∉ Dict.keys r ∧ (Dict.keys r).Nodup := by simpa [Dict.keys] using hn
    have hj : Dict.get r j = none := Dict.get_none_iff.2 hn'.1
    have key : ∀ x, (∃ k v' bv, Dict.get r k = some v' ∧ Dict.get (Dict.set base j x) k = some bv ∧
          w ∈ (mergeTree sheet k v' bv).2) ↔
        (∃ k v' bv, j ≠ k ∧ Dict.get r k = some v' ∧ Dict.get base k = some bv ∧
          w ∈ (mergeTree sheet k v' bv).2) := by
      intro x
      constructor
      · rintro ⟨k, v', bv, h1, h2, h3⟩
        have hne : j ≠ k := by rintro rfl; rw [hj] at h1; cases h1
        rw [Dict.get_set_other _ _ hne] at h2
        exact ⟨k, v', bv, hne, h1, h2, h3⟩
      · rintro ⟨k, v', bv, hne, h1, h2, h3⟩
        exact ⟨k, v', bv, h1, by rw [Dict.get_set_other _ _ hne]; exact h2, h3⟩
    simp only [mergeFields]
    cases hb : Dict.get base j with
    | none =>
      simp only [ih hn'.2, key]
      constructor
      · rintro ⟨k, v', bv, hne, h1, h2, h3⟩
        exact ⟨k, v', bv, by simp [Dict.get_cons, hne, h1], h2, h3⟩
      · rintro ⟨k, v', bv, h1, h2, h3⟩
        rw [Dict.get_cons] at h1
        by_cases h : j = k
        · subst h; rw [hb] at h2; cases h2
        · exact ⟨k, v', bv, h, by simpa [h] using h1, h2, h3⟩
    | some bv0 =>
      simp only [List.mem_append, ih hn'.2, key]
      constructor
      · rintro (h | ⟨k, v', bv, hne, h1, h2, h3⟩)
        · exact ⟨j, v, bv0, by simp [Dict.get_cons], hb, h⟩
        · exact ⟨k, v', bv, by simp [Dict.get_cons, hne, h1], h2, h3⟩
      · rintro ⟨k, v', bv, h1, h2, h3⟩
        rw [Dict.get_cons] at h1
        by_cases h : j = k
        · subst h; rw [hb] at h2; cases h2; simp at h1; subst h1; exact Or.inl h3
        · exact Or.inr ⟨k, v', bv, h, by simpa [h] using h1, h2, h3⟩

/-- What `mergeKeyed` leaves under a key. -/
def mergedItem (sheet : Str) : Option Fields → Option Fields → Option Fields
  | none, b => b
  | some v, none => some v
  | some v, some bv => some (mergeFields sheet v bv).1

theorem keyGet_tail_none {α : Type} {j k : Val} {v : α} {r : List (Val × α)} (hd : KeysDistinct ((j, v) :: r))
    (h : j.pyEq k = true) : keyGet r k = none := by
  rw [keyGet_none_iff]
  intro e he h2
  exact (List.pairwise_cons.1 hd).1 e he (Val.pyEq_trans h (Val.pyEq_symm h2))

theorem mergeKeyed_get (sheet : Str) (ks : List (Val × Fields)) (hd : KeysDistinct ks)
    (bk : List (Val × Fields)) (k : Val) :
    keyGet (mergeKeyed sheet ks bk).1 k = mergedItem sheet (keyGet ks k) (keyGet bk k) := by
  induction ks generalizing bk with
  | nil => simp [mergeKeyed, mergedItem]
  | cons e r ih =>
    obtain ⟨j, v⟩ := e
    have hd' := (List.pairwise_cons.1 hd).2
    simp only [mergeKeyed]
    cases hb : keyGet bk j with
    | none =>
      simp only [ih hd', keyGet_cons, keyGet_keySet]
      by_cases h : j.pyEq k = true
      · simp [h, keyGet_tail_none hd h, ← keyGet_congr h, hb, mergedItem]
      · simp [h]
    | some bv =>
      simp only [ih hd', keyGet_cons, keyGet_keySet]
      by_cases h : j.pyEq k = true
      · simp [h, keyGet_tail_none hd h, ← keyGet_congr h, hb, mergedItem]
      · simp [h]

theorem mergeKeyed_warn (sheet : Str) (ks : List (Val × Fields)) (hd : KeysDistinct ks)
    (bk : List (Val × Fields)) (w : Warn) :
    w ∈ (mergeKeyed sheet ks bk).2 ↔
      ∃ k fs bfs, keyGet ks k = some fs ∧ keyGet bk k = some bfs ∧ w ∈ (mergeFields sheet fs bfs).2 := by
  induction ks generalizing bk with
  | nil => simp [mergeKeyed]
  | cons e r ih =>
    obtain ⟨j, v⟩ := e
    have hd' := (List.pairwise_cons.1 hd).2
    have key : ∀ x, (∃ k v' bv, keyGet r k = some v' ∧ keyGet (keySet bk j x) k = some bv ∧
          w ∈ (mergeFields sheet v' bv).2) ↔
        (∃ k v' bv, ¬ j.pyEq k = true ∧ keyGet r k = some v' ∧ keyGet bk k = some bv ∧
          w ∈ (mergeFields sheet v' bv).2) := by
      intro x
      constructor
      · rintro ⟨k, v', bv, h1, h2, h3⟩
        have hne : ¬ j.pyEq k = true := by
          intro h; rw [keyGet_tail_none hd h] at h1; cases h1
        rw [keyGet_keySet, if_neg hne] at h2
        exact ⟨k, v', bv, hne, h1, h2, h3⟩
      · rintro ⟨k, v', bv, hne, h1, h2, h3⟩
        exact ⟨k, v', bv, h1, by rw [keyGet_keySet, if_neg hne]; exact h2, h3⟩
    simp only [mergeKeyed]
    cases hb : keyGet bk j with
    | none =>
      simp only [ih hd', key]
      constructor
      · rintro ⟨k, v', bv, hne, h1, h2, h3⟩
        exact ⟨k, v', bv, by simp [keyGet_cons, hne, h1], h2, h3⟩
      · rintro ⟨k, v', bv, h1, h2, h3⟩
        rw [keyGet_cons] at h1
        by_cases h : j.pyEq k = true
        · rw [← keyGet_congr h, hb] at h2; cases h2
        · exact ⟨k, v', bv, h, by simpa [h] using h1, h2, h3⟩
    | some bv0 =>
      simp only [List.mem_append, ih hd', key]
      have hjj : j.pyEq j = true := by
        obtain ⟨k', _, h2⟩ := keyGet_some_mem hb
        exact Val.pyEq_right h2
      constructor
      · rintro (h | ⟨k, v', bv, hne, h1, h2, h3⟩)
        · exact ⟨j, v, bv0, by simp [keyGet_cons, hjj], hb, h⟩
        · exact ⟨k, v', bv, by simp [keyGet_cons, hne, h1], h2, h3⟩
      · rintro ⟨k, v', bv, h1, h2, h3⟩
        rw [keyGet_cons] at h1
        by_cases h : j.pyEq k = true
        · rw [← keyGet_congr h, hb] at h2; cases h2; simp [h] at h1; subst h1; exact Or.inl h3
        · exact Or.inr ⟨k, v', bv, h, by simpa [h] using h1, h2, h3⟩

/-! ### Shape invariant -/

/-- `v` is a key for an object whose own id is `k` (equal, or the very same object: NaN). -/
def SameKey (k v : Val) : Prop := k = v ∨ k.pyEq v = true

mutual
/-- Dict keys are distinct; items of arrays are filed under their own id, distinct ids; items
without id have none. -/
def WFTree (n : Option Str) (xml : Bool) : Tree → Prop
  | .cell c => ∀ s ∈ c.sub, s.1.pyEq c.value = true
  | .obj fs => WFFields n xml fs
  | .tmp keyed rest => KeysDistinct keyed ∧ WFKeyed n xml keyed ∧ WFItems n xml rest
def WFFields (n : Option Str) (xml : Bool) : List (Str × Tree) → Prop
  | [] => True
  | (k, t) :: r => k ∉ Dict.keys r ∧ WFTree n xml t ∧ WFFields n xml r
def WFKeyed (n : Option Str) (xml : Bool) : List (Val × List (Str × Tree)) → Prop
  | [] => True
  | (k, fs) :: r => (k.hashable = true ∧ ∃ v, itemKey n xml fs = .ok (some v) ∧ SameKey k v) ∧
      WFFields n xml fs ∧ WFKeyed n xml r
def WFItems (n : Option Str) (xml : Bool) : List (List (Str × Tree)) → Prop
  | [] => True
  | fs :: r => itemKey n xml fs = .ok none ∧ WFFields n xml fs ∧ WFItems n xml r
end

theorem wfFields_iff {n : Option Str} {xml : Bool} {fs : Fields} :
    WFFields n xml fs ↔ (Dict.keys fs).Nodup ∧ ∀ k t, Dict.get fs k = some t → WFTree n xml t := by
  induction fs with
  | nil => simp [WFFields, Dict.keys]
  | cons e r ih =>
    obtain ⟨j, t⟩ := e
    simp only [WFFields, ih, Dict.keys, List.map_cons, List.nodup_cons]
    constructor
    · rintro ⟨h1, h2, h3, h4⟩
      refine ⟨⟨h1, h3⟩, ?_⟩
      intro k t' h
      rw [Dict.get_cons] at h
      by_cases hk : j = k
      · simp [hk] at h; exact h ▸ h2
      · simp [hk] at h; exact h4 k t' h
    · rintro ⟨⟨h1, h3⟩, h4⟩
      refine ⟨h1, h4 j t (by simp [Dict.get_cons]), h3, ?_⟩
      intro k t' h
      apply h4 k
      rw [Dict.get_cons]
      have : j ≠ k := by
        rintro rfl
        exact h1 (Dict.mem_keys_of_mem (Dict.get_eq_some_mem h))
      simp [this, h]

theorem wfFields_nodup {n : Option Str} {xml : Bool} {fs : Fields} (h : WFFields n xml fs) :
    (Dict.keys fs).Nodup := (wfFields_iff.1 h).1

theorem wfKeyed_iff {n : Option Str} {xml : Bool} {ks : List (Val × Fields)} :
    WFKeyed n xml ks ↔ ∀ e ∈ ks, (e.1.hashable = true ∧ ∃ v, itemKey n xml e.2 = .ok (some v) ∧ SameKey e.1 v) ∧
      WFFields n xml e.2 := by
  induction ks with
  | nil => simp [WFKeyed]
  | cons e r ih =>
    obtain ⟨j, t⟩ := e
    simp only [WFKeyed, ih, List.mem_cons, forall_eq_or_imp]
    constructor
    · rintro ⟨h1, h2, h3⟩; exact ⟨⟨h1, h2⟩, h3⟩
    · rintro ⟨⟨h1, h2⟩, h3⟩; exact ⟨h1, h2, h3⟩

theorem wfItems_iff {n : Option Str} {xml : Bool} {is : List Fields} :
    WFItems n xml is ↔ ∀ fs ∈ is, itemKey n xml fs = .ok none ∧ WFFields n xml fs := by
  induction is with
  | nil => simp [WFItems]
  | cons e r ih =>
    simp only [WFItems, ih, List.mem_cons, forall_eq_or_imp]
    constructor
    · rintro ⟨h1, h2, h3⟩; exact ⟨⟨h1, h2⟩, h3⟩
    · rintro ⟨⟨h1, h2⟩, h3⟩; exact ⟨h1, h2, h3⟩

theorem mergeCell_cell (sheet key : Str) (c b : Cell) :
    ∃ b', (mergeCell sheet key c (.cell b)).1 = .cell b' ∧ b'.value = b.value ∧ b'.loc = b.loc := by
  unfold mergeCell
  split
  · exact ⟨b, rfl, rfl, rfl⟩
  · rename_i h _; cases h; split
    · exact ⟨_, rfl, rfl, rfl⟩
    · exact ⟨_, rfl, rfl, rfl⟩
  · exact ⟨b, rfl, rfl, rfl⟩

theorem mergeTree_cell (sheet key : Str) (v : Tree) (b : Cell) :
    ∃ b', (mergeTree sheet key v (.cell b)).1 = .cell b' ∧ b'.value = b.value ∧ b'.loc = b.loc := by
  cases v with
  | cell c => simp only [mergeTree]; exact mergeCell_cell _ _ _ _
  | obj fs => exact ⟨b, by simp [mergeTree], rfl, rfl⟩
  | tmp k r => exact ⟨b, by simp [mergeTree], rfl, rfl⟩

theorem mergeCell_obj (sheet key : Str) (c : Cell) (bfs : Fields) :
    (mergeCell sheet key c (.obj bfs)).1 = .obj bfs := by
  unfold mergeCell
  split
  · rfl
  · rename_i h _; cases h
  · rfl

theorem mergeCell_tmp (sheet key : Str) (c : Cell) (bk : List (Val × Fields)) (br : List Fields) :
    (mergeCell sheet key c (.tmp bk br)).1 = .tmp bk br := by
  unfold mergeCell
  split
  · rfl
  · rename_i h _; cases h
  · rfl

/-- The id of an object is not changed by merging something into it. -/
theorem itemKey_merge {n : Option Str} {xml : Bool} (sheet : Str) {fs base : Fields} {v : Val}
    (hn : (Dict.keys fs).Nodup) (hsub : ∀ k gs, Dict.get fs k = some (.obj gs) → (Dict.keys gs).Nodup)
    (h : itemKey n xml base = .ok (some v)) :
    itemKey n xml (mergeFields sheet fs base).1 = .ok (some v) := by
  unfold itemKey at h ⊢
  cases n with
  | none => simp at h
  | some m =>
    simp only at h ⊢
    rw [mergeFields_get sheet fs hn base m]
    cases hb : Dict.get base m with
    | none => rw [hb] at h; simp at h
    | some bt =>
      rw [hb] at h
      cases hf : Dict.get fs m with
      | none => simpa [mergedAt] using h
      | some ft =>
        simp only [mergedAt]
        cases bt with
        | cell c =>
          obtain ⟨b', e1, e2, _⟩ := mergeTree_cell sheet m ft c
          simp only [e1, e2]; simpa using h
        | tmp bk br =>
          simp at h; split at h <;> simp at h
        | obj bfs =>
          simp only at h
          by_cases hx : xml = true
          · simp only [hx, if_true] at h ⊢
            cases ft with
            | cell c => simp only [mergeTree, mergeCell_obj]; exact h
            | tmp k r => simpa only [mergeTree] using h
            | obj gs =>
              simp only [mergeTree]
              rw [mergeFields_get sheet gs (hsub m gs hf)]
              cases hbt : Dict.get bfs s%"text()" with
              | none => rw [hbt] at h; simp at h
              | some bt2 =>
                rw [hbt] at h
                cases bt2 with
                | cell c2 =>
                  cases hg : Dict.get gs s%"text()" with
                  | none => simpa [mergedAt] using h
                  | some gt =>
                    obtain ⟨b', e1, e2, _⟩ := mergeTree_cell sheet s%"text()" gt c2
                    simp only [mergedAt, e1, e2]; simpa using h
                | obj _ => simp at h
                | tmp _ _ => simp at h
          · simp [hx] at h

mutual
theorem wf_mergeFields (n : Option Str) (xml : Bool) (sheet : Str) : ∀ (fs base : Fields),
    WFFields n xml fs → WFFields n xml base → WFFields n xml (mergeFields sheet fs base).1
  | [], base, _, hb => by simpa [mergeFields] using hb
  | (k, v) :: r, base, hf, hb => by
    simp only [WFFields] at hf
    simp only [mergeFields]
    have hset : ∀ t, WFTree n xml t → WFFields n xml (Dict.set base k t) := by
      intro t ht
      rw [wfFields_iff] at hb ⊢
      refine ⟨Dict.nodup_keys_set _ _ hb.1, ?_⟩
      intro k' t' h
      rw [Dict.get_set] at h
      by_cases hk : k = k'
      · simp [hk] at h; exact h ▸ ht
      · simp [hk] at h; exact hb.2 k' t' h
    cases hg : Dict.get base k with
    | none => exact wf_mergeFields n xml sheet r _ hf.2.2 (hset v hf.2.1)
    | some bv =>
      have hbv : WFTree n xml bv := (wfFields_iff.1 hb).2 k bv hg
      exact wf_mergeFields n xml sheet r _ hf.2.2 (hset _ (wf_mergeTree n xml sheet k v bv hf.2.1 hbv))
theorem wf_mergeTree (n : Option Str) (xml : Bool) (sheet key : Str) : ∀ (v bv : Tree),
    WFTree n xml v → WFTree n xml bv → WFTree n xml (mergeTree sheet key v bv).1
  | .cell c, bv, hv, hb => by
    simp only [mergeTree]
    unfold mergeCell
    split
    · exact hb
    · split
      · next h =>
        simp only [WFTree] at hb ⊢
        intro s hs
        rcases List.mem_append.1 hs with hs | hs
        · exact hb s hs
        · simp at hs; subst hs; exact Val.pyEq_symm h
      · exact hb
    · exact hb
  | .obj fs, bv, hv, hb => by
    simp only [mergeTree]
    cases bv with
    | obj bfs =>
      simp only [WFTree] at hv hb ⊢
      exact wf_mergeFields n xml sheet fs bfs hv hb
    | cell c => exact hb
    | tmp a b => exact hb
  | .tmp keyed rest, bv, hv, hb => by
    simp only [mergeTree]
    cases bv with
    | tmp bk br =>
      simp only [WFTree] at hv hb ⊢
      obtain ⟨hd, hk⟩ := wf_mergeKeyed n xml sheet keyed bk hv.2.1 hb.1 hb.2.1
      refine ⟨hd, hk, ?_⟩
      rw [wfItems_iff] at *
      intro fs hfs
      rcases List.mem_append.1 hfs with h | h
      · exact hb.2.2 fs h
      · exact hv.2.2 fs h
    | cell c => exact hb
    | obj a => exact hb
theorem wf_mergeKeyed (n : Option Str) (xml : Bool) (sheet : Str) : ∀ (keyed bk : List (Val × Fields)),
    WFKeyed n xml keyed → KeysDistinct bk → WFKeyed n xml bk →
    KeysDistinct (mergeKeyed sheet keyed bk).1 ∧ WFKeyed n xml (mergeKeyed sheet keyed bk).1
  | [], bk, _, hd, hb => by simp only [mergeKeyed]; exact ⟨hd, hb⟩
  | (k, fs) :: r, bk, hk, hd, hb => by
    simp only [WFKeyed] at hk
    simp only [mergeKeyed]
    have hb' := wfKeyed_iff.1 hb
    cases hg : keyGet bk k with
    | none =>
      simp only
      apply wf_mergeKeyed n xml sheet r _ hk.2.2 (keysDistinct_keySet hd _ _)
      rw [keySet_of_none _ hg, wfKeyed_iff]
      intro e he
      rcases List.mem_append.1 he with he | he
      · exact hb' e he
      · simp at he; subst he; exact ⟨hk.1, hk.2.1⟩
    | some bfs =>
      simp only
      apply wf_mergeKeyed n xml sheet r _ hk.2.2 (keysDistinct_keySet hd _ _)
      obtain ⟨a, k', b, e1, e2, e3⟩ := keySet_of_some (mergeFields sheet fs bfs).1 hg
      rw [e2, wfKeyed_iff]
      intro e he
      rcases List.mem_append.1 he with he | he
      · exact hb' e (by rw [e1]; simp [he])
      · rcases List.mem_cons.1 he with he | he
        · subst he
          have hold := hb' (k', bfs) (by rw [e1]; simp)
          obtain ⟨⟨hh, v, hv, hs⟩, hw⟩ := hold
          refine ⟨⟨hh, v, ?_, hs⟩, wf_mergeFields n xml sheet fs bfs hk.2.1 hw⟩
          apply itemKey_merge sheet (wfFields_nodup hk.2.1) ?_ hv
          intro j gs hj
          have := (wfFields_iff.1 hk.2.1).2 j _ hj
          simp only [WFTree] at this
          exact wfFields_nodup this
        · exact hb' e (by rw [e1]; simp [he])
end

end Verif
