import Verif.Proofs.CliOnly
/-! C75: the command line calls the function with exactly the options that are given. -/
namespace Verif
open Cli Spec.CommandLine

theorem Cli.find_command {c : Command} (hc : c ∈ commands) : commands.find? (fun x => x.name = c.name) = some c := by
  revert c; decide +kernel

theorem Cli.classify_command {c : Command} (hc : c ∈ commands) : classify topOptions c.name = .arg := by
  revert c; decide +kernel

theorem Cli.parseArgs_complete {c : Command} (t : Table c) (hh : ∀ o ∈ c.options, o.required = true → o.action ≠ .help) {items : List Item}
    (h : Complete c items) : parseArgs c (items.flatMap Item.words) = .ok (items.foldl PState.after { ns := Cli.defaults c }).ns := by
  have hin : (items.filter isInput).length = if c.positional then 1 else 0 := by
    rw [← h.input]
    refine congrArg (fun p => (items.filter p).length) (funext fun i => ?_)
    cases i <;> rfl
  have hw := words_items t items h.fits h.apart { ns := Cli.defaults c } _ rfl (fun _ _ _ => rfl) (by
    rw [hin]; simp only [List.not_mem_nil, if_false]; split <;> omega)
  unfold Cli.defaults at hw
  unfold parseArgs
  rw [hw]
  simp only
  rw [if_pos]
  · rfl
  rw [Bool.and_eq_true]
  constructor
  · rw [List.all_eq_true]
    intro o ho
    cases hr : o.required with
    | false => rfl
    | true =>
      obtain ⟨i, hi, he⟩ := h.required o ho hr
      simp only [Bool.not_true, Bool.false_or, List.contains_iff_mem]
      exact (fold_seen _ _ _).mpr (Or.inr ⟨i, hi, he⟩)
  · cases hp : c.positional with
    | false => rfl
    | true =>
      rw [hp, if_pos rfl] at hin
      obtain ⟨i, hi⟩ : ∃ i, i ∈ items.filter isInput := by
        cases hl : items.filter isInput with
        | nil => simp [hl] at hin
        | cons a r => exact ⟨a, by simp⟩
      obtain ⟨h1, h2⟩ := List.mem_filter.mp hi
      simp only [Bool.not_true, Bool.false_or, List.contains_iff_mem]
      exact (fold_seen _ _ _).mpr (Or.inr ⟨i, h1, (param_input t (h.fits i h1)).mpr h2⟩)

/-- C75: for every complete command line the function of the command is called once, and every parameter of the function has the value given
for it on the command line (of several values the last one; `--rollup` collects them), or its default when none is given. -/
theorem C75_options (c : Command) (hc : c ∈ commands) (items : List Item) (h : Complete c items) :
    ∃ args, main (c.name :: items.flatMap Item.words) = .call c.name false args ∧ args.map (·.1) = c.signature.map (·.1) ∧
      ∀ p d, (p, d) ∈ c.signature → Dict.get args p = some (passed items p (defaultOf c p d)) := by
  have t := table c hc
  have hp := parseArgs_complete t (table_help c hc) h
  refine ⟨Cli.bind c.signature (kwargs (items.foldl PState.after { ns := Cli.defaults c }).ns), ?_, ?_, ?_⟩
  · rw [main, classify_command hc]
    simp only [find_command hc, hp]
  · simp [Cli.bind, List.map_map, Function.comp_def]
  · intro p d hpd
    rw [get_bind t.sig hpd, get_kwargs (fold_nodup items { ns := Cli.defaults c } t.nsdup), fold_get]
    exact congrArg some (passed_eq t h.fits hpd)

/-- C75: `-v` before the command changes nothing but the form of error messages. -/
theorem C75_verbose (c : Command) (hc : c ∈ commands) (items : List Item) (h : Complete c items) (args : List (Str × CVal))
    (ha : main (c.name :: items.flatMap Item.words) = .call c.name false args) :
    main (s%"-v" :: c.name :: items.flatMap Item.words) = .call c.name true args ∧
    main (s%"--verbose" :: c.name :: items.flatMap Item.words) = .call c.name true args := by
  have h1 : classify topOptions s%"-v" = .opt { flags := [s%"-v", s%"--verbose"], dest := s%"verbose", action := .flag, default := .bool false } none := by
    decide +kernel
  have h2 : classify topOptions s%"--verbose" = .opt { flags := [s%"-v", s%"--verbose"], dest := s%"verbose", action := .flag, default := .bool false } none := by
    decide +kernel
  have hp := parseArgs_complete (table c hc) (table_help c hc) h
  have hm : main (c.name :: items.flatMap Item.words) true = .call c.name true args := by
    rw [main, classify_command hc] at ha ⊢
    simp only [find_command hc, hp, Outcome.call.injEq, true_and] at ha ⊢
    exact ha
  constructor
  · rw [main, h1]; simpa using hm
  · rw [main, h2]; simpa using hm

/-- C75: every option but `--help` is for a parameter of the function: nothing that can be given is ignored. -/
theorem C75_no_option_is_lost (c : Command) (hc : c ∈ commands) (o : Opt) (ho : o ∈ c.options) (hh : o.action ≠ .help) :
    o.dest ∈ c.signature.map (·.1) := by
  have : ∀ c ∈ commands, ∀ o ∈ c.options, o.action ≠ .help → o.dest ∈ c.signature.map (·.1) := by decide +kernel
  exact this c hc o ho hh

/-- C75: only complete command lines call anything: whatever else is written (an option the command does not have, a value that is not one of
the choices, no input or two, a required option that is missing) is refused. -/
theorem C75_only (c : Command) (hc : c ∈ commands) (ws : List Str) (name : Str) (verbose : Bool) (args : List (Str × CVal))
    (h : main (c.name :: ws) = .call name verbose args) : ∃ items, Complete c items ∧ ws = items.flatMap Item.words := by
  have t := table c hc
  rw [main, classify_command hc] at h
  simp only [find_command hc] at h
  cases hp : parseArgs c ws with
  | error e => rw [hp] at h; cases e <;> simp at h
  | ok ns =>
    unfold parseArgs at hp
    cases hw : words c ws { ns := (c.options.filter (fun o => o.action ≠ .help)).map (fun o => (o.dest, o.default)) } with
    | error e => rw [hw] at hp; simp at hp
    | ok fin =>
      rw [hw] at hp
      simp only at hp
      split at hp
      · rename_i hreq
        rw [Bool.and_eq_true, List.all_eq_true] at hreq
        obtain ⟨pre, items, he, hfill, hfit, hap, hin, hsn⟩ := words_only t ws _ fin (by exact trivial) hw
        simp only [Fills] at hfill
        subst hfill
        have hsn' : ∀ p ∈ fin.seen, ∃ i ∈ items, i.param = p := by
          intro p hp
          rcases hsn p hp with h | ⟨o, h, _⟩ | h
          · simp at h
          · simp [pendingOpt] at h
          · exact h
        refine ⟨items, ⟨hfit, hap, ?_, ?_⟩, he⟩
        · have hq : (items.filter (fun i => match i with | .input _ => true | _ => false)).length = (items.filter isInput).length := by
            refine congrArg (fun p => (items.filter p).length) (funext fun i => ?_)
            cases i <;> rfl
          refine Eq.trans hq ?_
          cases hpos : c.positional with
          | false =>
            simp only [Bool.false_eq_true, if_false, List.length_eq_zero_iff, List.filter_eq_nil_iff]
            intro i hi hii
            cases i with
            | input n => have := (hfit _ hi).1; rw [hpos] at this; simp at this
            | _ => simp [isInput] at hii
          | true =>
            simp only [if_true]
            have hs := hreq.2
            rw [hpos] at hs
            simp only [Bool.not_true, Bool.false_or, List.contains_iff_mem] at hs
            obtain ⟨i, hi, hip⟩ := hsn' _ hs
            have : i ∈ items.filter isInput := List.mem_filter.mpr ⟨hi, (param_input t (hfit i hi)).mp hip⟩
            have := List.length_pos_of_mem this
            simp only [List.not_mem_nil, if_false] at hin
            omega
        · intro o ho hr
          have := hreq.1 o ho
          simp only [hr, Bool.not_true, Bool.false_or, List.contains_iff_mem] at this
          exact hsn' _ this
      · simp at hp

/-! #### Examples -/

namespace CliExamples

instance (o : Opt) (v : Str) : Decidable (Takes o v) := by
  unfold Takes
  cases o.action <;> infer_instance

def opt (c : Command) (f : Str) : Opt := (optionFor c.options f).getD { flags := [], dest := [] }

/-- `flatten-tool flatten --rollup -fcsv input.json --root-list=items --rollup=a --roll b --truncation-length 5 --sheet-prefix=`. -/
def items : List Item :=
  [.alone (opt Cli.flatten s%"--rollup") s%"--rollup",
   .joined (opt Cli.flatten s%"-f") s%"-f" s%"csv",
   .input s%"input.json",
   .equals (opt Cli.flatten s%"--root-list-path") s%"--root-list" s%"items",
   .equals (opt Cli.flatten s%"--rollup") s%"--rollup" s%"a",
   .next (opt Cli.flatten s%"--rollup") s%"--roll" s%"b",
   .next (opt Cli.flatten s%"--truncation-length") s%"--truncation-length" s%"5",
   .equals (opt Cli.flatten s%"--sheet-prefix") s%"--sheet-prefix" s%""]

theorem items_complete : Complete Cli.flatten items := by
  refine ⟨?_, ?_, by decide +kernel, ?_⟩
  · intro i hi
    simp only [items, List.mem_cons, List.not_mem_nil, or_false] at hi
    rcases hi with rfl | rfl | rfl | rfl | rfl | rfl | rfl | rfl
    · exact ⟨⟨by decide +kernel, Or.inl (by decide +kernel)⟩, by decide +kernel⟩
    · exact ⟨⟨by decide +kernel, Or.inl (by decide +kernel)⟩, rfl, by decide +kernel, by simp, by simp⟩
    · exact ⟨rfl, Or.inl (by simp)⟩
    · exact ⟨⟨by decide +kernel, Or.inr (by decide +kernel)⟩, by decide +kernel⟩
    · exact ⟨⟨by decide +kernel, Or.inl (by decide +kernel)⟩, by decide +kernel⟩
    · exact ⟨⟨by decide +kernel, Or.inr (by decide +kernel)⟩, by decide +kernel, by decide +kernel, Or.inl (by simp)⟩
    · exact ⟨⟨by decide +kernel, Or.inl (by decide +kernel)⟩, by decide +kernel, by decide +kernel, Or.inl (by simp)⟩
    · exact ⟨⟨by decide +kernel, Or.inl (by decide +kernel)⟩, by decide +kernel⟩
  · intro a x n b e
    match a, e with
    | [], e => simp [items] at e
    | [_], e => simp only [items, List.cons_append, List.nil_append, List.cons.injEq] at e; rw [← e.2.1]; simp [Item.Open]
    | [_, _], e => simp [items] at e
    | [_, _, _], e => simp [items] at e
    | [_, _, _, _], e => simp [items] at e
    | [_, _, _, _, _], e => simp [items] at e
    | [_, _, _, _, _, _], e => simp [items] at e
    | [_, _, _, _, _, _, _], e => simp [items] at e
    | _ :: _ :: _ :: _ :: _ :: _ :: _ :: _ :: a, e => simp [items] at e
  · intro o ho hr
    have : ∀ o ∈ Cli.flatten.options, o.required = false := by decide +kernel
    rw [this o ho] at hr; simp at hr

example : ∃ args, main (s%"flatten" :: items.flatMap Item.words) = .call s%"flatten" false args ∧
    Dict.get args s%"rollup" = some (.rollup [none, some s%"a", some s%"b"]) ∧
    Dict.get args s%"truncation_length" = some (.int 5) ∧
    Dict.get args s%"sheet_prefix" = some (.str s%"") ∧
    Dict.get args s%"id_name" = some (.str s%"id") := by
  obtain ⟨args, h1, _, h2⟩ := C75_options Cli.flatten (by decide +kernel) items items_complete
  refine ⟨args, h1, ?_, ?_, ?_, ?_⟩
  · rw [h2 _ (.bool false) (by decide +kernel)]; decide +kernel
  · rw [h2 _ (.int 3) (by decide +kernel)]; decide +kernel
  · rw [h2 _ (.str s%"") (by decide +kernel)]; decide +kernel
  · rw [h2 _ (.str s%"id") (by decide +kernel)]; decide +kernel

/-- `-v` after the command. -/
example : main [s%"flatten", s%"input.json", s%"-v"] = .usage := by decide +kernel

/-- A negative number is a value. -/
example : main [s%"create-template", s%"-s", s%"a.json", s%"--truncation-length", s%"-1"] ≠ .usage := by decide +kernel

/-- `--rollup` directly before the input takes the input. -/
example : main [s%"flatten", s%"--rollup", s%"input.json"] = .usage := by decide +kernel

/-- `--xml-schema` too. -/
example : main [s%"unflatten", s%"-fcsv", s%"--xml-schema", s%"a.xsd", s%"b.xsd", s%"input"] = .usage := by decide +kernel

/-- A prefix that two options have is refused (`--root-list-path`, `--root-is-list`). -/
example : main [s%"unflatten", s%"-fcsv", s%"--root-", s%"a", s%"input"] = .usage := by decide +kernel

/-- `create-template` without a readable schema: status 0. -/
example : status (fun _ _ => .osError) (main [s%"create-template", s%"-s", s%"missing.json"]) = 0 := by decide +kernel

/-- `flatten` without a readable input: status 1. -/
example : status (fun _ _ => .osError) (main [s%"flatten", s%"missing.json"]) = 1 := by decide +kernel

end CliExamples
end Verif
