import Verif.Spec.Text
import Verif.Proofs.Str
/-! `s.lower()` and equality up to case. -/
namespace Verif
open Spec

theorem ofNat_toNat {n : Nat} (h : n < 0xd800) : (Char.ofNat n).toNat = n := by
  have hv : n.isValidChar := Or.inl h
  simp [Char.ofNat, hv, Char.ofNatAux, Char.toNat]

theorem lowerChar_upper {a : Char} (h1 : (decide (a.toNat ≥ 65) && decide (a.toNat ≤ 90)) = true) :
    Py.lowerChar a = [Char.ofNat (a.toNat + 32)] := by
  simp only [Py.lowerChar, h1]; rfl

theorem lower_eq_iff (s w : Str)
    (hw : ∀ c ∈ w, c.toNat < 128 ∧ ¬ (65 ≤ c.toNat ∧ c.toNat ≤ 90) ∧ c ≠ 'i' ∧ c ≠ 'k') :
    Py.lower s = w ↔ SameIgnoringCase s w := by
  induction s generalizing w with
  | nil => cases w <;> simp [Py.lower, SameIgnoringCase]
  | cons a s ih =>
    have hcons : Py.lower (a :: s) = Py.lowerChar a ++ Py.lower s := by simp [Py.lower]
    rw [hcons]
    cases w with
    | nil =>
      simp only [SameIgnoringCase, iff_false]
      unfold Py.lowerChar
      split
      · simp
      · split
        · simp
        · split <;> simp
    | cons b w =>
      have hb := hw b (by simp)
      have ihw := ih w (fun c hc => hw c (by simp [hc]))
      simp only [SameIgnoringCase, ← ihw]
      have key : ∀ c, Py.lowerChar a = [c] → (c = b ↔ (a = b ∨ a = upperOf b)) →
          (Py.lowerChar a ++ Py.lower s = b :: w ↔ (a = b ∨ a = upperOf b) ∧ Py.lower s = w) := by
        intro c hc h
        rw [hc]; simp [h]
      have hup : (97 ≤ b.toNat ∧ b.toNat ≤ 122 ∧ (upperOf b).toNat = b.toNat - 32) ∨
          (¬ (97 ≤ b.toNat ∧ b.toNat ≤ 122) ∧ upperOf b = b) := by
        unfold upperOf
        by_cases h : 97 ≤ b.toNat ∧ b.toNat ≤ 122
        · rw [if_pos h]; exact Or.inl ⟨h.1, h.2, ofNat_toNat (by omega)⟩
        · rw [if_neg h]; exact Or.inr ⟨h, rfl⟩
      have hupA : a = upperOf b → a.toNat = b.toNat ∨ (97 ≤ b.toNat ∧ b.toNat ≤ 122 ∧ a.toNat = b.toNat - 32) := by
        intro e
        rcases hup with ⟨g1, g2, g3⟩ | ⟨_, g⟩
        · right; rw [e]; exact ⟨g1, g2, g3⟩
        · left; rw [e, g]
      by_cases h1 : a.toNat ≥ 65 && a.toNat ≤ 90
      · refine key (Char.ofNat (a.toNat + 32)) (lowerChar_upper h1) ?_
        simp at h1
        have hv : (Char.ofNat (a.toNat + 32)).toNat = a.toNat + 32 := ofNat_toNat (by omega)
        constructor
        · rintro rfl
          right
          apply Char.toNat_inj.1
          rcases hup with ⟨g1, g2, g3⟩ | ⟨g, _⟩
          · rw [g3]; omega
          · omega
        · rintro (rfl | h)
          · omega
          · apply Char.toNat_inj.1
            have := hupA h
            rw [hv]; omega
      · by_cases h2 : a.toNat == 0x130
        · have : Py.lowerChar a = ['i', Char.ofNat 0x307] := by simp only [Py.lowerChar, h1, h2]; rfl
          rw [this]
          simp at h2
          constructor
          · intro h; injection h with h _; exact absurd h.symm hb.2.2.1
          · rintro ⟨rfl | h, _⟩
            · omega
            · have := hupA h; omega
        · by_cases h3 : a.toNat == 0x212a
          · have : Py.lowerChar a = ['k'] := by simp only [Py.lowerChar, h1, h2, h3]; rfl
            rw [this]
            simp at h3
            constructor
            · intro h; injection h with h _; exact absurd h.symm hb.2.2.2
            · rintro ⟨rfl | h, _⟩
              · omega
              · have := hupA h; omega
          · refine key a (by simp only [Py.lowerChar, h1, h2, h3]; rfl) ?_
            simp at h1
            constructor
            · exact Or.inl
            · rintro (h | h)
              · exact h
              · have := hupA h
                apply Char.toNat_inj.1
                omega

end Verif
