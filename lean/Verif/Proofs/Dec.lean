import Verif.Proofs.Str
import Verif.Model.Api
/-! `Decimal(str(d)) == d`, and numeric equality. -/
namespace Verif.Py

theorem takeDigits_append (ds rest : Str) (hd : ∀ c ∈ ds, IsDigit c)
    (hr : ∀ c, rest.head? = some c → digitVal c = none) (acc n : Nat) :
    takeDigits acc n (ds ++ rest) = (digitsVal acc ds, n + ds.length, rest) := by
  induction ds generalizing acc n with
  | nil =>
    cases rest with
    | nil => simp [takeDigits, digitsVal]
    | cons c cs => simp [takeDigits, digitsVal, hr c rfl]
  | cons d ds ih =>
    simp only [List.cons_append, takeDigits, digitVal_of_isDigit (hd d (by simp))]
    rw [ih (fun c hc => hd c (by simp [hc]))]
    simp [digitsVal]; omega

theorem takeDigits_all (ds : Str) (hd : ∀ c ∈ ds, IsDigit c) (acc n : Nat) :
    takeDigits acc n ds = (digitsVal acc ds, n + ds.length, []) := by
  have := takeDigits_append ds [] hd (by simp) acc n
  simpa using this

/-- The exponent suffix written by `decStr`. -/
def expStr (k : Int) : Str := if k < 0 then intStr k else '+' :: intStr k

theorem expPart_expStr (k : Int) : expPart ('E' :: expStr k) = some k := by
  unfold expPart expStr
  by_cases hk : k < 0
  · simp only [hk, if_true, intStr]
    simp only [or_true, if_true]
    rw [takeDigits_all _ (natStr_isDigit _)]
    have : (natStr k.natAbs).length ≠ 0 := by simpa using natStr_ne_nil _
    simp only [natStr_val]
    simp [this]; omega
  · simp only [hk, if_false, intStr]
    simp only [or_true, if_true]
    rw [takeDigits_all _ (natStr_isDigit _)]
    have : (natStr k.natAbs).length ≠ 0 := by simpa using natStr_ne_nil _
    simp only [natStr_val]
    simp [this]; omega

theorem digitsVal_append (acc : Nat) (a b : Str) :
    digitsVal acc (a ++ b) = digitsVal (digitsVal acc a) b := by
  simp [digitsVal]

theorem digitsVal_zeros (k : Nat) : digitsVal 0 (List.replicate k '0') = 0 := by
  induction k with
  | zero => rfl
  | succ k ih => 
    rw [List.replicate_succ]
    show digitsVal 0 _ = 0
    exact ih

theorem isDigit_zero : IsDigit '0' := ⟨0, by omega, rfl⟩

/-- The characters of a finite decimal's text. -/
def DecChar (c : Char) : Prop := IsDigit c ∨ c = '.' ∨ c = 'E' ∨ c = '+' ∨ c = '-'

theorem decChar_ok {c : Char} (h : DecChar c) : isSpace c = false ∧ c ≠ '_' := by
  rcases h with h | h | h | h | h
  · exact ⟨isDigit_not_isSpace h, isDigit_ne h (by decide)⟩
  all_goals subst h; decide

/-- Shape of the text: digits, optional fraction, optional exponent. -/
theorem unsignedDec_shape (neg : Bool) (ip fds : Str) (frac : Bool) (ex : Str) (k : Int)
    (hip : ∀ c ∈ ip, IsDigit c) (hne : ip ≠ []) (hf : ∀ c ∈ fds, IsDigit c)
    (hfr : frac = false → fds = []) (hex : ex = [] ∧ k = 0 ∨ ex = 'E' :: expStr k) :
    unsignedDec neg (ip ++ ((if frac then '.' :: fds else []) ++ ex)) =
      some (.fin neg (digitsVal 0 (ip ++ fds)) (k - fds.length)) := by
  have hexp : expPart ex = some k := by
    rcases hex with ⟨rfl, rfl⟩ | rfl
    · rfl
    · exact expPart_expStr k
  have hexhead : ∀ c, ex.head? = some c → digitVal c = none := by
    rcases hex with ⟨rfl, _⟩ | rfl
    · simp
    · intro c hc; simp at hc; subst hc; decide
  have hlen : ip.length ≠ 0 := by simpa using hne
  unfold unsignedDec
  cases frac with
  | false =>
    have := hfr rfl; subst this
    simp only [Bool.false_eq_true, if_false, List.nil_append]
    rw [takeDigits_append ip ex hip hexhead]
    rcases hex with ⟨rfl, rfl⟩ | rfl
    · simp [hexp, hne]
    · simp [hne]
      rw [hexp]
  | true =>
    simp only [if_true]
    rw [takeDigits_append ip _ hip (by intro c hc; simp at hc; subst hc; decide)]
    simp only [List.cons_append]
    rw [takeDigits_append fds ex hf hexhead]
    simp only [hexp, digitsVal_append]
    simp [hne]

theorem dec?_signed (neg : Bool) (body : Str) (d : Dec) (hb : ∀ c ∈ body, DecChar c)
    (hh : ∃ c r, body = c :: r ∧ IsDigit c) (h : unsignedDec neg body = some d) :
    dec? ((if neg then s%"-" else []) ++ body) = some d := by
  have key : ∀ s : Str, (∀ c ∈ s, DecChar c) → (strip isSpace s).filter (· ≠ '_') = s := by
    intro s hs
    rw [strip_all (fun c hc => (decChar_ok (hs c hc)).1)]
    rw [List.filter_eq_self]
    intro c hc; simp [(decChar_ok (hs c hc)).2]
  unfold dec?
  cases neg with
  | true =>
    simp only [if_true]
    rw [key _ (by intro c hc; simp at hc; rcases hc with rfl | hc; exact Or.inr (by decide); exact hb c hc)]
    exact h
  | false =>
    simp only [Bool.false_eq_true, if_false, List.nil_append]
    rw [key _ hb]
    obtain ⟨c, r, rfl, hc⟩ := hh
    have h1 : c ≠ '+' := isDigit_ne hc (by decide)
    have h2 : c ≠ '-' := isDigit_ne hc (by decide)
    split
    · next e => cases e; exact absurd rfl h1
    · next e => cases e; exact absurd rfl h2
    · exact h

theorem intStr_chars (k : Int) : ∀ c ∈ intStr k, DecChar c := by
  intro c hc; unfold intStr at hc; split at hc
  · simp at hc; rcases hc with rfl | hc
    · exact Or.inr (by decide)
    · exact Or.inl (natStr_isDigit _ c hc)
  · exact Or.inl (natStr_isDigit _ c hc)

theorem expStr_chars (k : Int) : ∀ c ∈ 'E' :: expStr k, DecChar c := by
  intro c hc; unfold expStr at hc; simp at hc
  rcases hc with rfl | hc
  · exact Or.inr (by decide)
  · split at hc
    · exact intStr_chars _ c hc
    · simp at hc; rcases hc with rfl | hc
      · exact Or.inr (by decide)
      · exact intStr_chars _ c hc

theorem dec?_shape (neg : Bool) (ip fds : Str) (frac : Bool) (ex : Str) (k : Int)
    (hip : ∀ c ∈ ip, IsDigit c) (hne : ip ≠ []) (hf : ∀ c ∈ fds, IsDigit c)
    (hfr : frac = false → fds = []) (hex : ex = [] ∧ k = 0 ∨ ex = 'E' :: expStr k) :
    dec? ((if neg then s%"-" else []) ++ (ip ++ ((if frac then '.' :: fds else []) ++ ex))) =
      some (.fin neg (digitsVal 0 (ip ++ fds)) (k - fds.length)) := by
  apply dec?_signed _ _ _ _ _ (unsignedDec_shape neg ip fds frac ex k hip hne hf hfr hex)
  · intro c hc
    simp only [List.mem_append] at hc
    rcases hc with hc | hc | hc
    · exact Or.inl (hip c hc)
    · split at hc
      · simp at hc; rcases hc with rfl | hc
        · exact Or.inr (by decide)
        · exact Or.inl (hf c hc)
      · simp at hc
    · rcases hex with ⟨rfl, _⟩ | rfl
      · simp at hc
      · exact expStr_chars k c hc
  · cases ip with
    | nil => exact absurd rfl hne
    | cons c r => exact ⟨c, _, rfl, hip c (by simp)⟩

theorem decStr_chars (neg : Bool) (k : Nat) (e : Int) : ∀ c ∈ decStr (.fin neg k e), DecChar c := by
  have hds := natStr_isDigit k
  have hdot : DecChar '.' := Or.inr (by decide)
  have hz : DecChar '0' := Or.inl isDigit_zero
  have hm : DecChar '-' := Or.inr (by decide)
  intro c hc
  unfold decStr at hc
  simp only at hc
  generalize natStr k = ds at *
  generalize (if e ≤ 0 ∧ e + ↑ds.length > -6 then e + (ds.length : Int) else 1) = dot at *
  simp only [List.mem_append] at hc
  rcases hc with hc | hc | hc | hc
  · split at hc
    · simp at hc; subst hc; exact hm
    · simp at hc
  · split at hc
    · simp at hc; subst hc; exact hz
    · split at hc
      · simp only [List.mem_append, List.mem_replicate] at hc
        rcases hc with hc | ⟨_, rfl⟩
        · exact Or.inl (hds c hc)
        · exact hz
      · exact Or.inl (hds c (List.mem_of_mem_take hc))
  · split at hc
    · simp only [List.mem_cons, List.mem_append, List.mem_replicate] at hc
      rcases hc with rfl | ⟨_, rfl⟩ | hc
      · exact hdot
      · exact hz
      · exact Or.inl (hds c hc)
    · split at hc
      · simp at hc
      · simp only [List.mem_cons] at hc
        rcases hc with rfl | hc
        · exact hdot
        · exact Or.inl (hds c (List.mem_of_mem_drop hc))
  · split at hc
    · simp at hc
    · exact expStr_chars _ c hc

/-- `Decimal(str(d)) == d`, digit for digit, for every finite decimal. -/
theorem dec?_decStr (neg : Bool) (c : Nat) (e : Int) :
    dec? (decStr (.fin neg c e)) = some (.fin neg c e) := by
  have hds := natStr_isDigit c
  have hdn := natStr_ne_nil c
  have hdv := natStr_val c
  have hpos : 0 < (natStr c).length := by
    cases h : natStr c with
    | nil => exact absurd h hdn
    | cons => simp
  unfold decStr
  simp only
  generalize hds' : natStr c = ds at *
  generalize hdot : (if e ≤ 0 ∧ e + ↑ds.length > -6 then e + (ds.length : Int) else 1) = dot
  have hcase : (e ≤ 0 ∧ e + (ds.length : Int) > -6 ∧ dot = e + ds.length) ∨
      (¬(e ≤ 0 ∧ e + (ds.length : Int) > -6) ∧ dot = 1) := by
    split at hdot
    · next h => exact Or.inl ⟨h.1, h.2, hdot.symm⟩
    · next h => exact Or.inr ⟨h, hdot.symm⟩
  have hexp : ∀ k, k = e + (ds.length : Int) - dot → ((if e + (ds.length : Int) = dot then [] else
      'E' :: (if e + (ds.length : Int) - dot < 0 then intStr (e + (ds.length : Int) - dot)
        else '+' :: intStr (e + (ds.length : Int) - dot))) = [] ∧ k = 0 ∨
      (if e + (ds.length : Int) = dot then [] else
      'E' :: (if e + (ds.length : Int) - dot < 0 then intStr (e + (ds.length : Int) - dot)
        else '+' :: intStr (e + (ds.length : Int) - dot))) = 'E' :: expStr k) := by
    intro k hk
    by_cases h : e + (ds.length : Int) = dot
    · exact Or.inl ⟨by simp [h], by omega⟩
    · refine Or.inr ?_
      rw [if_neg h, hk]; rfl
  generalize (if e + (ds.length : Int) = dot then [] else
      'E' :: (if e + (ds.length : Int) - dot < 0 then intStr (e + (ds.length : Int) - dot)
        else '+' :: intStr (e + (ds.length : Int) - dot))) = ex at *
  by_cases h1 : dot ≤ 0
  · have hd : dot = e + ds.length := by rcases hcase with h | h <;> omega
    simp only [h1, if_true]
    have := dec?_shape neg s%"0" (List.replicate (-dot).toNat '0' ++ ds) true ex _
      (by intro x hx; simp at hx; subst hx; exact isDigit_zero) (by simp)
      (by intro x hx; simp only [List.mem_append, List.mem_replicate] at hx
          rcases hx with ⟨_, rfl⟩ | hx
          · exact isDigit_zero
          · exact hds x hx)
      (by simp) (hexp _ rfl)
    simp only [if_true] at this
    rw [this]
    congr 1
    rw [← List.append_assoc]
    simp only [digitsVal_append]
    have hz : digitsVal (digitsVal 0 s%"0") (List.replicate (-dot).toNat '0') = 0 := digitsVal_zeros _
    rw [hz, hdv]
    congr 1
    simp; omega
  · by_cases h2 : dot ≥ (ds.length : Int)
    · have hz : (dot - (ds.length : Int)).toNat = 0 := by rcases hcase with h | h <;> omega
      simp only [h1, if_false, h2, if_true, hz, List.replicate_zero, List.append_nil]
      have := dec?_shape neg ds [] false ex _ hds hdn (by simp) (by simp) (hexp _ rfl)
      simp only [Bool.false_eq_true, if_false, List.append_nil] at this
      rw [this, hdv]
      congr 2
      simp; rcases hcase with h | h <;> omega
    · simp only [h1, if_false, h2]
      have := dec?_shape neg (ds.take dot.toNat) (ds.drop dot.toNat) true ex _
        (fun x hx => hds x (List.mem_of_mem_take hx))
        (by intro h; rw [List.take_eq_nil_iff] at h; rcases h with h | h
            · omega
            · exact hdn h)
        (fun x hx => hds x (List.mem_of_mem_drop hx))
        (by simp) (hexp _ rfl)
      simp only [if_true] at this
      rw [this, List.take_append_drop, hdv]
      congr 2
      simp; rcases hcase with h | h <;> omega

end Verif.Py
