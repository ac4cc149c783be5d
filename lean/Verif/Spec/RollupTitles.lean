import Verif.Spec.Flatten
/-! Rollup with titles: the headings under which the values of a root object are on the main sheet. -/
namespace Verif.Spec

/-- The heading of a sheet for a path: the title that the schema has for it on this sheet, or the path. -/
def headingOn (sh : Sheet) (path : Str) : Str := (Dict.get sh.titles path).getD path

/-- The heading of the main sheet for a field `k` of the only object in an array `key`: the title that the schema has for it on the main sheet; if there is none, the
array is to be rolled up, and the schema has a sheet for the array: the title on that sheet (or the path; if that is again a path with a title on the main
sheet, this title). -/
inductive RollsTo (cfg : FCfg) (sp : Parsed) (key k : Str) : Str → Prop
  | main {t} : Dict.get sp.main.titles (pathText [key, s%"0", k]) = some t → RollsTo cfg sp key k t
  | sub {name sh} : Dict.get sp.main.titles (pathText [key, s%"0", k]) = none → key ∈ cfg.rollup →
      Dict.get sp.subTitles ([], key) = some name → Dict.get sp.subs name = some sh →
      RollsTo cfg sp key k (headingOn sp.main (headingOn sh (pathText [key, s%"0", k])))

/-- With rollup and titles, the root object has the value `v` for the heading `h` of the main sheet: a value of its own, a value of the only object of an array,
or the text of warning, for a field of one of several objects in an array. -/
inductive TitledValue (cfg : FCfg) (sp : Parsed) (fs : List (Str × Json)) : Str → Json → Prop
  | cell {q v} : HasCell everything [] fs q v → TitledValue cfg sp fs (headingOn sp.main (pathText q)) v
  | one {key gs k v h} : (key, .arr [.obj gs]) ∈ fs → (k, v) ∈ gs → RollsTo cfg sp key k h → TitledValue cfg sp fs h v
  | many {key l gs k v} : (key, .arr l) ∈ fs → 2 ≤ l.length → .obj gs ∈ l → (k, v) ∈ gs → Rolls cfg key k →
      TitledValue cfg sp fs (headingOn sp.main (pathText [key, s%"0", k]))
        (.leaf (.str s%"WARNING: More than one value supplied, consult the relevant sub-sheet for the data."))

end Verif.Spec
