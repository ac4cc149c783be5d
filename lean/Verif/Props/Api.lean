import Verif.Model.Api
import Verif.Proofs.Lower
import Verif.Proofs.Dict
/-! C48, C49: local references, option checks. -/
namespace Verif
open Spec

/-! ### C48 -/

theorem isRefLocal_iff (uri : Str) : Api.isRefLocal uri = true ↔
    ¬ SameIgnoringCase (uri.take 7) s%"http://" ∧ ¬ SameIgnoringCase (uri.take 8) s%"https://" := by
  have h1 := lower_eq_iff (uri.take 7) s%"http://" (by decide)
  have h2 := lower_eq_iff (uri.take 8) s%"https://" (by decide)
  simp only [Api.isRefLocal, Bool.and_eq_true, decide_eq_true_eq, ne_eq, h1, h2]

/-- **C48.** With local references disabled, whatever the loader: a reference is loaded only if
its URI starts, ignoring case, with `http://` or `https://`; for any other the loader has no
influence on the outcome, which is an error. -/
theorem C48_no_local_refs (uri : Str) :
    (SameIgnoringCase (uri.take 7) s%"http://" ∨ SameIgnoringCase (uri.take 8) s%"https://" →
      ∀ (load : Str → Except Err Json), Api.loadRef load uri = load uri) ∧
    (¬ (SameIgnoringCase (uri.take 7) s%"http://" ∨ SameIgnoringCase (uri.take 8) s%"https://") →
      ∃ e, ∀ (load : Str → Except Err Json), Api.loadRef load uri = .error e) := by
  have h := isRefLocal_iff uri
  constructor
  · intro hs load
    have : Api.isRefLocal uri = false := by
      rw [← Bool.not_eq_true, h]; grind
    simp [Api.loadRef, this]
  · intro hs
    have : Api.isRefLocal uri = true := by rw [h]; grind
    exact ⟨.value, fun load => by simp [Api.loadRef, this]⟩

example : SameIgnoringCase (List.take 7 s%"HtTp://x") s%"http://" := by
  simp [SameIgnoringCase]; decide
example : Api.isRefLocal s%"file:///etc/passwd" = true := by decide

/-! ### C49 -/

/-- **C49.** `flatten` refuses exactly: one of the two filter options without the other, or an
unknown line terminator. -/
theorem C49_flatten_checks (filterField filterValue : Option Str) (lt : Str) :
    (∃ e, Api.flattenPreChecks filterField filterValue lt = .error e) ↔
      (filterField.isSome ≠ filterValue.isSome ∨ (lt ≠ s%"LF" ∧ lt ≠ s%"CRLF")) := by
  unfold Api.flattenPreChecks
  have hl : lt ∉ Api.lineTerminators ↔ (lt ≠ s%"LF" ∧ lt ≠ s%"CRLF") := by simp [Api.lineTerminators]
  by_cases h : lt ∈ Api.lineTerminators
  · have : ¬ (lt ≠ s%"LF" ∧ lt ≠ s%"CRLF") := fun h' => (hl.2 h') h
    cases filterField <;> cases filterValue <;> simp [h, this]
  · have := hl.1 h
    cases filterField <;> cases filterValue <;> simp [h, this]

/-- **C49.** The formats written are the one asked for, or all; anything else is refused. -/
theorem C49_output_formats (fmt : Str) :
    (fmt = s%"all" → Api.outputFormats fmt = .ok [s%"xlsx", s%"csv", s%"ods"]) ∧
    (fmt ∈ [s%"xlsx", s%"csv", s%"ods"] → Api.outputFormats fmt = .ok [fmt]) ∧
    (fmt ∉ [s%"all", s%"xlsx", s%"csv", s%"ods"] → ∃ e, Api.outputFormats fmt = .error e) := by
  refine ⟨?_, ?_, ?_⟩
  · rintro rfl; rfl
  · intro h
    simp at h
    rcases h with rfl | rfl | rfl <;> rfl
  · intro h
    simp at h
    exact ⟨.value, by simp [Api.outputFormats, Api.formats, h]⟩

/-- **C49.** `unflatten` refuses exactly: no or an unknown input format, or base JSON together
with a metatab (empty names count as not given). -/
theorem C49_unflatten_checks (fmt metatab base : Option Str) :
    (∃ e, Api.unflattenChecks fmt metatab base = .error e) ↔
      ((∀ f ∈ [s%"xlsx", s%"csv", s%"ods"], fmt ≠ some f) ∨
        ((∃ m, metatab = some m ∧ m ≠ []) ∧ (∃ b, base = some b ∧ b ≠ []))) := by
  have hopt : ∀ o : Option Str, o.getD [] ≠ [] ↔ ∃ m, o = some m ∧ m ≠ [] := by
    intro o; cases o <;> simp
  unfold Api.unflattenChecks
  cases fmt with
  | none => simp
  | some f =>
    simp only [hopt]
    by_cases hf : f ∈ Api.formats
    · have h1 : ¬ (∀ g ∈ [s%"xlsx", s%"csv", s%"ods"], some f ≠ some g) := by
        intro h; exact h f hf rfl
      simp only [hf, not_true_eq_false, if_false, h1, false_or]
      by_cases h2 : (∃ m, metatab = some m ∧ m ≠ []) ∧ ∃ b, base = some b ∧ b ≠ []
      · simp only [h2, and_self, if_true, iff_true]; exact ⟨_, rfl⟩
      · simp only [h2, if_false, iff_false]; rintro ⟨e, he⟩; cases he
    · have h1 : ∀ g ∈ [s%"xlsx", s%"csv", s%"ods"], some f ≠ some g := by
        intro g hg e; injection e with e; subst e; exact hf hg
      simp only [hf, not_false_eq_true, if_true]
      exact ⟨fun _ => Or.inl h1, fun _ => ⟨_, rfl⟩⟩

end Verif
