import Verif.Spec.Sheets
import Verif.Model.Lib
/-! C39: configuration cells. -/
namespace Verif
open Spec

theorem parseConfig_append (items : List Str) (x : Str) :
    parseConfig (items ++ [x]) = configItem (parseConfig items) x := by
  simp [parseConfig, List.foldl_append]

/-- Everything one configuration cell can do, in terms of what it says. -/
theorem configItem_spec (c : SheetConfig) (x : Str) :
    configItem c x =
      { skipRows := (((argOf s%"skiprows" x).bind Py.int?).map (max · 0)).or c.skipRows,
        headerRows := (((argOf s%"headerrows" x).bind Py.int?).map (max · 1)).or c.headerRows,
        ignore := c.ignore || isFlag [s%"ignore"] x,
        hashcomments := c.hashcomments || isFlag [s%"hashcomments", s%"hashcomment"] x,
        xmlRootTag := (argOf s%"xmlroottag" x).or c.xmlRootTag,
        rootListPath := (argOf s%"rootlistpath" x).or c.rootListPath,
        idName := (argOf s%"idname" x).or c.idName } := by
  unfold configItem argOf isFlag
  match Py.words x with
  | [] => simp
  | [w] =>
    simp only
    by_cases h1 : Py.lower w = s%"ignore"
    · simp [h1]
    · by_cases h2 : Py.lower w = s%"hashcomments" ∨ Py.lower w = s%"hashcomment"
      · rcases h2 with h2 | h2 <;> simp [h2]
      · simp only [h1, h2, if_false]
        have : ¬ (Py.lower w = s%"hashcomments") ∧ ¬ (Py.lower w = s%"hashcomment") := by grind
        simp [h1, this]
  | [w, a] =>
    simp only
    by_cases h1 : Py.lower w = s%"skiprows"
    · cases h : Py.int? a <;> simp [h1, h]
    · by_cases h2 : Py.lower w = s%"headerrows"
      · cases h : Py.int? a <;> simp [h2, h]
      · by_cases h3 : Py.lower w = s%"xmlroottag"
        · simp [h3]
        · by_cases h4 : Py.lower w = s%"rootlistpath"
          · simp [h4]
          · by_cases h5 : Py.lower w = s%"idname"
            · simp [h5]
            · simp [h1, h2, h3, h4, h5]
  | _ :: _ :: _ :: _ => simp

theorem getLast?_filterMap_append {α β : Type} (f : α → Option β) (l : List α) (x : α) :
    ((l ++ [x]).filterMap f).getLast? = (f x).or ((l.filterMap f).getLast?) := by
  rw [List.filterMap_append]
  cases h : f x <;> simp [h]

/-- **C39.** The whole meaning of configuration cells: every option takes its value from the last
cell that has exactly that option name and one (valid) argument, `skiprows` at least 0 and
`headerrows` at least 1; the flags are set by one-word cells; nothing else has any influence. -/
theorem C39_config_meaning (items : List Str) :
    parseConfig items =
      { skipRows := ((intArgsOf s%"skiprows" items).getLast?).map (max · 0),
        headerRows := ((intArgsOf s%"headerrows" items).getLast?).map (max · 1),
        ignore := items.any (isFlag [s%"ignore"]),
        hashcomments := items.any (isFlag [s%"hashcomments", s%"hashcomment"]),
        xmlRootTag := (argsOf s%"xmlroottag" items).getLast?,
        rootListPath := (argsOf s%"rootlistpath" items).getLast?,
        idName := (argsOf s%"idname" items).getLast? } := by
  have aux : ∀ l : List Str, parseConfig l.reverse =
      { skipRows := ((intArgsOf s%"skiprows" l.reverse).getLast?).map (max · 0),
        headerRows := ((intArgsOf s%"headerrows" l.reverse).getLast?).map (max · 1),
        ignore := l.reverse.any (isFlag [s%"ignore"]),
        hashcomments := l.reverse.any (isFlag [s%"hashcomments", s%"hashcomment"]),
        xmlRootTag := (argsOf s%"xmlroottag" l.reverse).getLast?,
        rootListPath := (argsOf s%"rootlistpath" l.reverse).getLast?,
        idName := (argsOf s%"idname" l.reverse).getLast? } := by
    intro l
    induction l with
    | nil => rfl
    | cons x r ih =>
      rw [List.reverse_cons, parseConfig_append, configItem_spec, ih]
      have hint : ∀ o, intArgsOf o (r.reverse ++ [x]) = intArgsOf o r.reverse ++ ((argOf o x).bind Py.int?).toList := by
        intro o
        simp only [intArgsOf, argsOf, List.filterMap_append]
        cases h : argOf o x with
        | none => simp [h]
        | some a => cases h2 : Py.int? a <;> simp [h, h2]
      have hlast : ∀ o (f : Int → Int), ((intArgsOf o (r.reverse ++ [x])).getLast?).map f =
          (((argOf o x).bind Py.int?).map f).or (((intArgsOf o r.reverse).getLast?).map f) := by
        intro o f
        rw [hint]
        cases h : (argOf o x).bind Py.int? <;> simp
      simp only [hlast]
      simp only [argsOf, getLast?_filterMap_append, List.any_append, List.any_cons, List.any_nil, Bool.or_false]
  have := aux items.reverse
  rwa [List.reverse_reverse] at this

/-- **C39.** Values are clamped. -/
theorem C39_clamped (items : List Str) :
    (∀ i, (parseConfig items).skipRows = some i → 0 ≤ i) ∧
    (∀ i, (parseConfig items).headerRows = some i → 1 ≤ i) := by
  rw [C39_config_meaning]
  constructor
  · intro i h
    simp only [Option.map_eq_some_iff] at h
    obtain ⟨a, _, rfl⟩ := h; omega
  · intro i h
    simp only [Option.map_eq_some_iff] at h
    obtain ⟨a, _, rfl⟩ := h; omega

/-- **C39.** A cell that is no documented option is inert, wherever it stands. -/
theorem C39_other_cells_inert (before after : List Str) (x : Str)
    (h1 : ∀ o ∈ [s%"skiprows", s%"headerrows", s%"xmlroottag", s%"rootlistpath", s%"idname"], argOf o x = none)
    (h2 : isFlag [s%"ignore", s%"hashcomments", s%"hashcomment"] x = false) :
    parseConfig (before ++ x :: after) = parseConfig (before ++ after) := by
  have e : ∀ c, configItem c x = c := by
    intro c
    rw [configItem_spec]
    have g1 := h1 s%"skiprows" (by simp)
    have g2 := h1 s%"headerrows" (by simp)
    have g3 := h1 s%"xmlroottag" (by simp)
    have g4 := h1 s%"rootlistpath" (by simp)
    have g5 := h1 s%"idname" (by simp)
    have f1 : isFlag [s%"ignore"] x = false ∧ isFlag [s%"hashcomments", s%"hashcomment"] x = false := by
      unfold isFlag at h2 ⊢
      split <;> simp_all
    simp [g1, g2, g3, g4, g5, f1]
  simp [parseConfig, List.foldl_append, e]

example : parseConfig [s%"skipRows 2", s%"SkipRows -3", s%"skiprows 1 2", s%"headerrows 2", s%"note"] =
    { skipRows := some 0, headerRows := some 2 } := by decide +kernel
example : argOf s%"skiprows" s%" SkipRows  7 " = some s%"7" := by decide +kernel

end Verif
