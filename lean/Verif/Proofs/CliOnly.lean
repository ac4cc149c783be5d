import Verif.Proofs.Cli
/-! Only complete command lines are accepted. -/
namespace Verif.Cli
open Verif.Spec Verif.Spec.CommandLine

/-- The words after an option that still takes some. -/
def Fills (c : Command) (items : List Item) : Pending → List Str → Prop
  | .nothing, pre => pre = []
  | .needs o, pre => ∃ v, pre = [v] ∧ Takes o v ∧ Plain c v
  | .may o, pre => (∃ v, pre = [v] ∧ Takes o v ∧ Plain c v) ∨ (pre = [] ∧ ∀ n b, items ≠ .input n :: b)
  | .gathers _ _, pre => (∀ v ∈ pre, Plain c v) ∧ ∀ n b, items ≠ .input n :: b

def pendingOpt : Pending → Option Opt
  | .nothing => none
  | .needs o | .may o | .gathers o _ => some o

/-- The pending option is one that can be. -/
def POk (c : Command) : Pending → Prop
  | .nothing => True
  | .needs o => o ∈ c.options ∧ (o.action = .store ∨ o.action = .number)
  | .may o => o ∈ c.options ∧ o.action = .collect
  | .gathers o _ => o ∈ c.options ∧ o.action = .many

theorem give_ok {st st' : PState} {o : Opt} {v : Str} (h : st.give o v = .ok st') :
    Takes o v ∧ st'.pending = .nothing ∧ st'.seen = o.dest :: st.seen := by
  unfold PState.give at h
  unfold Takes
  cases ha : o.action <;> simp only [ha] at h ⊢
  · split at h
    · simp only [Except.ok.injEq] at h; subst h; exact ⟨‹_›, rfl, rfl⟩
    · simp at h
  · cases hi : Py.int? v with
    | none => simp [hi] at h
    | some i => simp only [hi, Except.ok.injEq] at h; subst h; exact ⟨rfl, rfl, rfl⟩
  all_goals first
    | (simp only [Except.ok.injEq] at h; subst h; exact ⟨trivial, rfl, rfl⟩)
    | simp at h

theorem close_ok {st st' : PState} (h : st.close = .ok st') :
    st'.pending = .nothing ∧ (∀ o, st.pending ≠ .needs o) ∧
      (∀ p, p ∈ st'.seen ↔ p ∈ st.seen ∨ ∃ o, pendingOpt st.pending = some o ∧ p = o.dest) := by
  obtain ⟨ns, seen, pend⟩ := st
  unfold PState.close at h
  cases pend with
  | nothing =>
    simp only [Except.ok.injEq] at h; subst h
    simp [pendingOpt]
  | needs o => simp at h
  | may o =>
    simp only [Except.ok.injEq] at h; subst h
    simp only [PState.put, pendingOpt]
    refine ⟨by first | rfl | trivial, by simp, fun p => ?_⟩
    simp [or_comm]
  | gathers o l =>
    simp only [Except.ok.injEq] at h; subst h
    simp only [PState.put, pendingOpt]
    refine ⟨by first | rfl | trivial, by simp, fun p => ?_⟩
    simp [or_comm]

/-- The words are those of some items. -/
def Only (c : Command) (ws : List Str) (st fin : PState) : Prop :=
    ∃ pre items, ws = pre ++ items.flatMap Item.words ∧ Fills c items st.pending pre ∧ (∀ i ∈ items, i.Fits c) ∧
      (∀ a x n b, items = a ++ x :: .input n :: b → ¬ x.Open) ∧
      ((items.filter isInput).length ≤ if s%"input_name" ∈ st.seen then 0 else 1) ∧
      (∀ p ∈ fin.seen, p ∈ st.seen ∨ (∃ o, pendingOpt st.pending = some o ∧ p = o.dest) ∨ ∃ i ∈ items, i.param = p)

theorem words_only {c : Command} (t : Table c) (ws : List Str) (st fin : PState) (hpo : POk c st.pending) (h : words c ws st = .ok fin) :
    Only c ws st fin := by
  induction ws generalizing st with
  | nil =>
    unfold words at h
    obtain ⟨-, h2, h3⟩ := close_ok h
    refine ⟨[], [], rfl, ?_, by simp, by simp, by simp, fun p hp => ?_⟩
    · cases hp : st.pending with
      | nothing => rfl
      | needs o => exact absurd hp (h2 o)
      | may o => exact Or.inr ⟨rfl, by simp⟩
      | gathers o l => exact ⟨by simp, by simp⟩
    · rcases (h3 p).mp hp with h | h
      · exact Or.inl h
      · exact Or.inr (Or.inl h)
  | cons w r ih =>
    unfold words at h
    cases hw : st.word c w with
    | error e => simp [hw] at h
    | ok st1 =>
      simp only [hw] at h
      have hrd := reads t w
      unfold PState.word at hw
      -- an option: the one before is closed; `i` is what is read when the option takes the words `pre`
      have optionCase : ∀ (o : Opt) (stc : PState), st.close = .ok stc → o ∈ c.options →
          ∀ (mk : List Str → Item → Prop),
          (POk c st1.pending) →
          (∀ p, p ∈ st1.seen → p ∈ stc.seen ∨ p = o.dest) → (∀ p, p ∈ stc.seen → p ∈ st1.seen) →
          (∀ q, pendingOpt st1.pending = some q → q = o) →
          (∀ items pre, Fills c items st1.pending pre → ∃ i, mk pre i ∧ i.words = w :: pre ∧ i.Fits c ∧ i.param = o.dest ∧ isInput i = false ∧
            (∀ n b, items = .input n :: b → ¬ i.Open)) →
          Only c (w :: r) st fin := by
        intro o stc hclose ho mk hpo1 hseen hseen' hpend hmk
        obtain ⟨pre, items, he, hfill, hfit, hap, hin, hsn⟩ := ih st1 hpo1 h
        obtain ⟨i, -, hiw, hif, hip, hii, hio⟩ := hmk items pre hfill
        obtain ⟨-, hcn, hcs⟩ := close_ok hclose
        refine ⟨[], i :: items, by rw [List.nil_append, List.flatMap_cons, hiw, he]; rfl, ?_, ?_, ?_, ?_, ?_⟩
        · have hni : ∀ n b, i :: items ≠ .input n :: b := by
            intro n b e
            simp only [List.cons.injEq] at e
            rw [e.1] at hii
            simp [isInput] at hii
          cases hp : st.pending with
          | nothing => rfl
          | needs o => exact absurd hp (hcn o)
          | may o => exact Or.inr ⟨rfl, hni⟩
          | gathers o l => exact ⟨by simp, hni⟩
        · intro j hj
          rcases List.mem_cons.mp hj with rfl | hj
          · exact hif
          · exact hfit j hj
        · intro a x n b e
          cases a with
          | nil =>
            simp only [List.nil_append, List.cons.injEq] at e
            obtain ⟨rfl, e⟩ := e
            exact hio n b e
          | cons y a =>
            simp only [List.cons_append, List.cons.injEq] at e
            exact hap a x n b e.2
        · rw [List.filter_cons, if_neg (by simp [hii])]
          refine Nat.le_trans hin ?_
          by_cases hs : s%"input_name" ∈ st.seen
          · rw [if_pos hs, if_pos (hseen' _ ((hcs _).mpr (Or.inl hs)))]; omega
          · rw [if_neg hs]; split <;> omega
        · intro p hp
          rcases hsn p hp with h1 | ⟨q, h1, h2⟩ | ⟨j, hj, h1⟩
          · rcases hseen p h1 with h1 | h1
            · rcases (hcs p).mp h1 with h1 | h1
              · exact Or.inl h1
              · exact Or.inr (Or.inl h1)
            · exact Or.inr (Or.inr ⟨i, by simp, by rw [hip, h1]⟩)
          · exact Or.inr (Or.inr ⟨i, by simp, by rw [hip, h2, hpend q h1]⟩)
          · exact Or.inr (Or.inr ⟨j, by simp [hj], h1⟩)
      -- an option with its text in the same word
      have explicitCase : ∀ (o : Opt) (v : Str) (i : Item), classify c.options w = .opt o (some v) → o ∈ c.options → i.words = [w] →
          (Takes o v → i.Fits c) → i.param = o.dest → isInput i = false → ¬ i.Open → Only c (w :: r) st fin := by
        intro o v i hcl ho hiw hif hip hii hio
        rw [hcl] at hw
        simp only at hw
        cases hclose : st.close with
        | error e => simp [hclose] at hw
        | ok stc =>
          simp only [hclose, PState.option] at hw
          obtain ⟨ht, hpn, hse⟩ := give_ok hw
          refine optionCase o stc hclose ho (fun _ _ => True) (by rw [hpn]; trivial) ?_ ?_ ?_ ?_
          · intro p hp; rw [hse] at hp
            rcases List.mem_cons.mp hp with h | h
            · exact Or.inr h
            · exact Or.inl h
          · intro p hp; rw [hse]; simp [hp]
          · rw [hpn]; intro q hq; simp [pendingOpt] at hq
          · rw [hpn]
            intro items pre hpre
            simp only [Fills] at hpre
            subst hpre
            exact ⟨i, trivial, hiw, hif ht, hip, hii, fun _ _ _ => hio⟩
      generalize hcl : classify c.options w = k at hrd
      cases hrd with
      | arg hpl =>
        rw [hcl] at hw
        simp only at hw
        unfold PState.arg at hw
        cases hp : st.pending with
        | nothing =>
          simp only [hp] at hw
          split at hw
          · rename_i hcond
            rw [Bool.and_eq_true] at hcond
            simp only [Except.ok.injEq] at hw
            have hns : s%"input_name" ∉ st.seen := by simpa using hcond.2
            subst hw
            obtain ⟨pre, items, he, hfill, hfit, hap, hin, hsn⟩ := ih _ (by trivial) h
            simp only [PState.put, Fills] at hfill
            subst hfill
            refine ⟨[], .input w :: items, by rw [List.nil_append, List.flatMap_cons, he]; rfl, by rw [hp]; rfl, ?_, ?_, ?_, ?_⟩
            · intro j hj
              rcases List.mem_cons.mp hj with rfl | hj
              · exact ⟨hcond.1, hpl⟩
              · exact hfit j hj
            · intro a x n b e
              cases a with
              | nil =>
                simp only [List.nil_append, List.cons.injEq] at e
                obtain ⟨rfl, -⟩ := e
                simp [Item.Open]
              | cons y a =>
                simp only [List.cons_append, List.cons.injEq] at e
                exact hap a x n b e.2
            · simp only [PState.put, List.mem_cons, true_or, if_true, Nat.le_zero] at hin
              rw [if_neg hns, List.filter_cons, if_pos (show isInput (.input w) = true from rfl), List.length_cons, hin]
              omega
            · intro p hp
              rcases hsn p hp with h1 | ⟨q, h1, h2⟩ | ⟨j, hj, h1⟩
              · simp only [PState.put, List.mem_cons] at h1
                rcases h1 with h1 | h1
                · exact Or.inr (Or.inr ⟨_, List.mem_cons_self .., h1.symm⟩)
                · exact Or.inl h1
              · simp [PState.put, pendingOpt] at h1
              · exact Or.inr (Or.inr ⟨j, by simp [hj], h1⟩)
          · simp at hw
        | needs o =>
          simp only [hp] at hw
          obtain ⟨ht, hpn, hse⟩ := give_ok hw
          obtain ⟨pre, items, he, hfill, hfit, hap, hin, hsn⟩ := ih st1 (by rw [hpn]; trivial) h
          rw [hpn] at hfill
          simp only [Fills] at hfill
          subst hfill
          refine ⟨[w], items, by rw [he]; rfl, by rw [hp]; exact ⟨w, rfl, ht, hpl⟩, hfit, hap, ?_, ?_⟩
          · refine Nat.le_trans hin ?_
            by_cases hs : s%"input_name" ∈ st.seen
            · rw [if_pos hs, if_pos (by rw [hse]; simp [hs])]; omega
            · rw [if_neg hs]; split <;> omega
          · intro p hp'
            rcases hsn p hp' with h1 | ⟨q, h1, h2⟩ | h1
            · rw [hse] at h1
              rcases List.mem_cons.mp h1 with h1 | h1
              · exact Or.inr (Or.inl ⟨o, by rw [hp]; rfl, h1⟩)
              · exact Or.inl h1
            · rw [hpn] at h1; simp [pendingOpt] at h1
            · exact Or.inr (Or.inr h1)
        | may o =>
          simp only [hp] at hw
          obtain ⟨ht, hpn, hse⟩ := give_ok hw
          obtain ⟨pre, items, he, hfill, hfit, hap, hin, hsn⟩ := ih st1 (by rw [hpn]; trivial) h
          rw [hpn] at hfill
          simp only [Fills] at hfill
          subst hfill
          refine ⟨[w], items, by rw [he]; rfl, by rw [hp]; exact Or.inl ⟨w, rfl, ht, hpl⟩, hfit, hap, ?_, ?_⟩
          · refine Nat.le_trans hin ?_
            by_cases hs : s%"input_name" ∈ st.seen
            · rw [if_pos hs, if_pos (by rw [hse]; simp [hs])]; omega
            · rw [if_neg hs]; split <;> omega
          · intro p hp'
            rcases hsn p hp' with h1 | ⟨q, h1, h2⟩ | h1
            · rw [hse] at h1
              rcases List.mem_cons.mp h1 with h1 | h1
              · exact Or.inr (Or.inl ⟨o, by rw [hp]; rfl, h1⟩)
              · exact Or.inl h1
            · rw [hpn] at h1; simp [pendingOpt] at h1
            · exact Or.inr (Or.inr h1)
        | gathers o l =>
          simp only [hp, Except.ok.injEq] at hw
          subst hw
          rw [hp] at hpo
          obtain ⟨pre, items, he, hfill, hfit, hap, hin, hsn⟩ := ih _ hpo h
          refine ⟨w :: pre, items, by rw [he]; rfl, ?_, hfit, hap, hin, ?_⟩
          · rw [hp]
            refine ⟨?_, hfill.2⟩
            intro v hv
            rcases List.mem_cons.mp hv with rfl | hv
            · exact hpl
            · exact hfill.1 v hv
          · intro p hp'
            rw [hp]
            exact hsn p hp'
      | «exact» o hn =>
        rw [hcl] at hw
        simp only at hw
        cases hclose : st.close with
        | error e => simp [hclose] at hw
        | ok stc =>
          simp only [hclose, PState.option] at hw
          have hstc := (close_ok hclose).1
          cases ha : o.action with
          | flag =>
            simp only [ha, Except.ok.injEq] at hw
            subst hw
            refine optionCase o stc hclose hn.1 (fun _ _ => True) trivial ?_ ?_ ?_ ?_
            · intro p hp; simp only [PState.put, List.mem_cons] at hp; exact hp.symm
            · intro p hp; simp [PState.put, hp]
            · intro q hq; simp [PState.put, pendingOpt] at hq
            · intro items pre hpre
              simp only [PState.put, Fills] at hpre
              subst hpre
              exact ⟨.on o w, trivial, rfl, ⟨hn, ha⟩, rfl, rfl, fun _ _ _ => by simp [Item.Open]⟩
          | help => simp [ha] at hw
          | store =>
            simp only [ha, Except.ok.injEq] at hw
            subst hw
            refine optionCase o stc hclose hn.1 (fun _ _ => True) ⟨hn.1, Or.inl ha⟩ (fun p hp => Or.inl hp) (fun p hp => hp) ?_ ?_
            · intro q hq; simp only [pendingOpt, Option.some.injEq] at hq; exact hq.symm
            · rintro items pre ⟨v, rfl, h1, h2⟩
              exact ⟨.next o w v, trivial, rfl, ⟨hn, by rw [ha]; simp, h1, h2⟩, rfl, rfl, fun _ _ _ => by simp [Item.Open]⟩
          | number =>
            simp only [ha, Except.ok.injEq] at hw
            subst hw
            refine optionCase o stc hclose hn.1 (fun _ _ => True) ⟨hn.1, Or.inr ha⟩ (fun p hp => Or.inl hp) (fun p hp => hp) ?_ ?_
            · intro q hq; simp only [pendingOpt, Option.some.injEq] at hq; exact hq.symm
            · rintro items pre ⟨v, rfl, h1, h2⟩
              exact ⟨.next o w v, trivial, rfl, ⟨hn, by rw [ha]; simp, h1, h2⟩, rfl, rfl, fun _ _ _ => by simp [Item.Open]⟩
          | collect =>
            simp only [ha, Except.ok.injEq] at hw
            subst hw
            refine optionCase o stc hclose hn.1 (fun _ _ => True) ⟨hn.1, ha⟩ (fun p hp => Or.inl hp) (fun p hp => hp) ?_ ?_
            · intro q hq; simp only [pendingOpt, Option.some.injEq] at hq; exact hq.symm
            · rintro items pre (⟨v, rfl, h1, h2⟩ | ⟨rfl, h1⟩)
              · exact ⟨.next o w v, trivial, rfl, ⟨hn, by rw [ha]; simp, h1, h2⟩, rfl, rfl, fun _ _ _ => by simp [Item.Open]⟩
              · exact ⟨.alone o w, trivial, rfl, ⟨hn, ha⟩, rfl, rfl, fun n b e => absurd e (h1 n b)⟩
          | many =>
            simp only [ha, Except.ok.injEq] at hw
            subst hw
            refine optionCase o stc hclose hn.1 (fun _ _ => True) ⟨hn.1, ha⟩ (fun p hp => Or.inl hp) (fun p hp => hp) ?_ ?_
            · intro q hq; simp only [pendingOpt, Option.some.injEq] at hq; exact hq.symm
            · rintro items pre ⟨h1, h2⟩
              exact ⟨.several o w pre, trivial, rfl, ⟨hn, ha, h1⟩, rfl, rfl, fun n b e => absurd e (h2 n b)⟩
      | equals o p v hn he => exact explicitCase o v (.equals o p v) hcl hn.1 (by rw [he]; rfl) (fun ht => ⟨hn, ht⟩) rfl rfl (by simp [Item.Open])
      | joined o p v hn hl h1 h2 he =>
        exact explicitCase o v (.joined o p v) hcl hn.1 (by rw [he]; rfl) (fun ht => ⟨hn, hl, ht, h1, h2⟩) rfl rfl (by simp [Item.Open])
      | ambiguous => rw [hcl] at hw; simp at hw
      | unknown => rw [hcl] at hw; simp at hw

end Verif.Cli
