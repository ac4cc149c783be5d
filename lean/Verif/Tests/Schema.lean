import Verif.Model.Titles
import Verif.Model.Flatten
import Verif.Tests.Unflatten
/-!
More of the project's unit-test data (with schemas, titles, and flattening), replayed
on the model.  Tests of the model's fidelity, not proofs.
-/
namespace Verif.Tests

/-- Same lines as dicts, in order. -/
def sameLines (a b : List FLine) : Bool := sameList (a.map .obj) (b.map .obj)

/-- Result as expected, whatever the warnings. -/
def chkT (r : Except Err (List Json × List Warn)) (expected : List Json) (_ : Nat) : Bool :=
  match r with
  | .ok (o, _) => sameList o expected
  | .error _ => false

/-- Flatten gives these main lines and these sub-sheets with lines. -/
def chkF (r : Except Err FState) (main : List FLine) (subs : List (Str × List FLine)) : Bool :=
  match r with
  | .ok st =>
    let ne := st.subs.filter (fun p => !p.2.lines.isEmpty)
    sameLines st.main.lines main && ne.length == subs.length &&
      subs.all (fun p => match Dict.get ne p.1 with | some sh => sameLines sh.lines p.2 | none => false)
  | .error _ => false

def schemaN : Schema := (.mk { type := .absent } (some [(s%"id", (.mk { type := (.one s%"integer"), title := some s%"Identifier" } none none none)), (s%"testA", (.mk { type := (.one s%"integer"), title := some s%"A title" } none none none)), (s%"testDateTime", (.mk { type := (.one s%"string") } none none none)), (s%"testDate", (.mk { type := (.one s%"string"), isDate := true } none none none)), (s%"testB", (.mk { type := (.one s%"object"), title := some s%"B title" } (some [(s%"id", (.mk { type := (.one s%"integer"), title := some s%"Identifier" } none none none)), (s%"testC", (.mk { type := (.one s%"integer"), title := some s%"C title" } none none none)), (s%"testD", (.mk { type := (.one s%"integer"), title := some s%"D title" } none none none)), (s%"subField", (.mk { type := (.one s%"array"), title := some s%"Sub title" } none (some (.mk { type := (.one s%"object") } (some [(s%"id", (.mk { type := (.one s%"integer"), title := some s%"Identifier" } none none none)), (s%"testE", (.mk { type := (.one s%"integer"), title := some s%"E title" } none none none))]) none none)) none))]) none none)), (s%"testArr", (.mk { type := (.one s%"array"), title := some s%"Arr title" } none (some (.mk { type := (.one s%"object") } (some [(s%"id", (.mk { type := (.one s%"string"), title := some s%"Identifier" } none none none)), (s%"testB", (.mk { type := (.one s%"string"), title := some s%"B title" } none none none)), (s%"testC", (.mk { type := (.one s%"string"), title := some s%"C title" } none none none)), (s%"testNest", (.mk { type := (.one s%"array"), title := some s%"Nest title" } none (some (.mk { type := (.one s%"object") } (some [(s%"id", (.mk { type := (.one s%"string"), title := some s%"Identifier" } none none none)), (s%"testD", (.mk { type := (.one s%"string"), title := some s%"D title" } none none none))]) none none)) none)), (s%"testNestObj", (.mk { type := (.one s%"object"), title := some s%"NestObj title" } (some [(s%"id", (.mk { type := (.one s%"string"), title := some s%"Identifier" } none none none)), (s%"testD", (.mk { type := (.one s%"string"), title := some s%"D title" } none none none))]) none none))]) none none)) none)), (s%"testR", (.mk { type := (.one s%"array"), title := some s%"R title", rollUp := some [s%"id", s%"testB"] } none (some (.mk { type := (.one s%"object") } (some [(s%"id", (.mk { type := (.one s%"string"), title := some s%"Identifier" } none none none)), (s%"testB", (.mk { type := (.one s%"string"), title := some s%"B title" } none none none)), (s%"testC", (.mk { type := (.one s%"string"), title := some s%"C title" } none none none)), (s%"testSA", (.mk { type := (.one s%"array"), title := some s%"SA title" } none (some (.mk { type := (.one s%"string") } none none none)) none))]) none none)) none)), (s%"testU", (.mk { type := (.one s%"string"), title := some s%"éαГ😼𝒞人" } none none none)), (s%"testSA", (.mk { type := (.one s%"array"), title := some s%"SA title" } none (some (.mk { type := (.one s%"string") } none none none)) none)), (s%"apoint", (.mk { type := (.one s%"object") } (some [(s%"type", (.mk { type := .absent } none none none)), (s%"coordinates", (.mk { type := .absent } none none none))]) none none)), (s%"alinestring", (.mk { type := (.one s%"object") } (some [(s%"type", (.mk { type := .absent } none none none)), (s%"coordinates", (.mk { type := .absent } none none none))]) none none))]) none none)
def parsedN : Parsed := match parseRoot { rollup := true, rootId := s%"" } schemaN with
  | .ok p => p | .error _ => { main := {}, subs := [], subTitles := [], lookup := .node [] [], flattened := [], rollup := [], warns := [] }
def parsedTN : Parsed := match parseRoot { rollup := true, useTitles := true, rootId := s%"" } schemaN with
  | .ok p => p | .error _ => { main := {}, subs := [], subTitles := [], lookup := .node [] [], flattened := [], rollup := [], warns := [] }
-- Basic flat
example : chk (unflatten { rootId := none, row := { types := parsedN.types } } [{ name := s%"custom_main", lines := [[(s%"id", (.int (2))), (s%"testA", (.int (3)))]] }])
  [(.obj [(s%"id", (.leaf (.int (2)))), (s%"testA", (.leaf (.int (3))))])] 0 = true := by decide +kernel
-- Basic with float
example : chk (unflatten { rootId := none, row := { types := parsedN.types } } [{ name := s%"custom_main", lines := [[(s%"id", (.int (2))), (s%"testA", (.float ⟨s%"3.0", (.fin false 3 (0))⟩))]] }])
  [(.obj [(s%"id", (.leaf (.int (2)))), (s%"testA", (.leaf (.int (3))))])] 0 = true := by decide +kernel
-- Basic with zero
example : chk (unflatten { rootId := none, row := { types := parsedN.types } } [{ name := s%"custom_main", lines := [[(s%"id", (.int (2))), (s%"testA", (.int (0)))]] }])
  [(.obj [(s%"id", (.leaf (.int (2)))), (s%"testA", (.leaf (.int (0))))])] 0 = true := by decide +kernel
-- Basic with date-time
example : chk (unflatten { rootId := none, row := { types := parsedN.types } } [{ name := s%"custom_main", lines := [[(s%"id", (.int (2))), (s%"testDateTime", (.datetime ⟨s%"2020-01-01 00:00:00", s%"2020-01-01T00:00:00+00:00", s%"2020-01-01"⟩))]] }])
  [(.obj [(s%"id", (.leaf (.int (2)))), (s%"testDateTime", (.leaf (.str s%"2020-01-01T00:00:00+00:00")))])] 0 = true := by decide +kernel
-- Basic with date
example : chk (unflatten { rootId := none, row := { types := parsedN.types } } [{ name := s%"custom_main", lines := [[(s%"id", (.int (2))), (s%"testDate", (.datetime ⟨s%"2020-01-01 00:00:00", s%"2020-01-01T00:00:00+00:00", s%"2020-01-01"⟩))]] }])
  [(.obj [(s%"id", (.leaf (.int (2)))), (s%"testDate", (.leaf (.str s%"2020-01-01")))])] 0 = true := by decide +kernel
-- Nested
example : chk (unflatten { rootId := none, row := { types := parsedN.types } } [{ name := s%"custom_main", lines := [[(s%"id", (.int (2))), (s%"testO/testB", (.int (3))), (s%"testO/testC", (.int (4)))]] }])
  [(.obj [(s%"id", (.leaf (.int (2)))), (s%"testO", (.obj [(s%"testB", (.leaf (.int (3)))), (s%"testC", (.leaf (.int (4))))]))])] 0 = true := by decide +kernel
-- Unicode
example : chk (unflatten { rootId := none, row := { types := parsedN.types } } [{ name := s%"custom_main", lines := [[(s%"testU", (.str s%"éαГ😼𝒞人"))]] }])
  [(.obj [(s%"testU", (.leaf (.str s%"éαГ😼𝒞人")))])] 0 = true := by decide +kernel
-- Single item array
example : chk (unflatten { rootId := none, row := { types := parsedN.types } } [{ name := s%"custom_main", lines := [[(s%"id", (.int (2))), (s%"testL/0/id", (.int (3))), (s%"testL/0/testB", (.int (4)))]] }])
  [(.obj [(s%"id", (.leaf (.int (2)))), (s%"testL", (.arr [(.obj [(s%"id", (.leaf (.int (3)))), (s%"testB", (.leaf (.int (4))))])]))])] 0 = true := by decide +kernel
-- Single item array without parent ID
example : chk (unflatten { rootId := none, row := { types := parsedN.types } } [{ name := s%"custom_main", lines := [[(s%"testL/0/id", (.str s%"2")), (s%"testL/0/testB", (.str s%"3"))]] }])
  [(.obj [(s%"testL", (.arr [(.obj [(s%"id", (.leaf (.str s%"2"))), (s%"testB", (.leaf (.str s%"3")))])]))])] 0 = true := by decide +kernel
-- Empty
example : chk (unflatten { rootId := none, row := { types := parsedN.types } } [{ name := s%"custom_main", lines := [[(s%"id", (.str s%"")), (s%"testA", (.str s%"")), (s%"testB", (.str s%"")), (s%"testC", (.str s%"")), (s%"testD", (.str s%"")), (s%"testE", (.str s%""))]] }])
  [] 0 = true := by decide +kernel
-- Mismatch of object/array for field not in schema
example : chk (unflatten { rootId := none, row := { types := parsedN.types } } [{ name := s%"custom_main", lines := [[(s%"id", (.int (2))), (s%"newtest/a", (.int (3))), (s%"newtest/0/a", (.int (4)))]] }])
  [(.obj [(s%"id", (.leaf (.int (2)))), (s%"newtest", (.obj [(s%"a", (.leaf (.int (3))))]))])] 1 = true := by decide +kernel
-- Mismatch of array/object for field not in schema
example : chk (unflatten { rootId := none, row := { types := parsedN.types } } [{ name := s%"custom_main", lines := [[(s%"id", (.int (2))), (s%"newtest/0/a", (.int (4))), (s%"newtest/a", (.int (3)))]] }])
  [(.obj [(s%"id", (.leaf (.int (2)))), (s%"newtest", (.arr [(.obj [(s%"a", (.leaf (.int (4))))])]))])] 1 = true := by decide +kernel
-- str / array mixing
example : chk (unflatten { rootId := none, row := { types := parsedN.types } } [{ name := s%"custom_main", lines := [[(s%"id", (.int (2))), (s%"newtest", (.int (3))), (s%"newtest/0/a", (.int (4)))]] }])
  [(.obj [(s%"id", (.leaf (.int (2)))), (s%"newtest", (.leaf (.int (3))))])] 1 = true := by decide +kernel
-- str / object mixing
example : chk (unflatten { rootId := none, row := { types := parsedN.types } } [{ name := s%"custom_main", lines := [[(s%"id", (.int (2))), (s%"newtest", (.int (3))), (s%"newtest/a", (.int (4)))]] }])
  [(.obj [(s%"id", (.leaf (.int (2)))), (s%"newtest", (.leaf (.int (3))))])] 1 = true := by decide +kernel
-- array / str mixing
example : chk (unflatten { rootId := none, row := { types := parsedN.types } } [{ name := s%"custom_main", lines := [[(s%"id", (.int (2))), (s%"nest/newtest/0/a", (.int (3))), (s%"nest/newtest", (.int (4)))]] }])
  [(.obj [(s%"id", (.leaf (.int (2)))), (s%"nest", (.obj [(s%"newtest", (.arr [(.obj [(s%"a", (.leaf (.int (3))))])]))]))])] 1 = true := by decide +kernel
-- object / str mixing
example : chk (unflatten { rootId := none, row := { types := parsedN.types } } [{ name := s%"custom_main", lines := [[(s%"id", (.int (2))), (s%"newtest/a", (.int (3))), (s%"newtest", (.int (4)))]] }])
  [(.obj [(s%"id", (.leaf (.int (2)))), (s%"newtest", (.obj [(s%"a", (.leaf (.int (3))))]))])] 1 = true := by decide +kernel
-- Mismatch of object/array for field not in schema (multiline)
example : chk (unflatten { rootId := none, row := { types := parsedN.types } } [{ name := s%"custom_main", lines := [[(s%"id", (.int (2))), (s%"nest/newtest/a", (.int (3)))], [(s%"id", (.int (2))), (s%"nest/newtest/0/a", (.int (4)))]] }])
  [(.obj [(s%"id", (.leaf (.int (2)))), (s%"nest", (.obj [(s%"newtest", (.obj [(s%"a", (.leaf (.int (3))))]))]))])] 1 = true := by decide +kernel
-- Mismatch of array/object for field not in schema (multiline)
example : chk (unflatten { rootId := none, row := { types := parsedN.types } } [{ name := s%"custom_main", lines := [[(s%"id", (.int (2))), (s%"newtest/0/a", (.int (4)))], [(s%"id", (.int (2))), (s%"newtest/a", (.int (3)))]] }])
  [(.obj [(s%"id", (.leaf (.int (2)))), (s%"newtest", (.arr [(.obj [(s%"a", (.leaf (.int (4))))])]))])] 1 = true := by decide +kernel
-- str / array mixing multiline
example : chk (unflatten { rootId := none, row := { types := parsedN.types } } [{ name := s%"custom_main", lines := [[(s%"id", (.int (2))), (s%"nest/newtest", (.int (3)))], [(s%"id", (.int (2))), (s%"nest/newtest/0/a", (.int (4))), (s%"nest/newtest/0/b", (.int (5)))]] }])
  [(.obj [(s%"id", (.leaf (.int (2)))), (s%"nest", (.obj [(s%"newtest", (.leaf (.int (3))))]))])] 2 = true := by decide +kernel
-- array / str mixing multiline
example : chk (unflatten { rootId := none, row := { types := parsedN.types } } [{ name := s%"custom_main", lines := [[(s%"id", (.int (2))), (s%"nest/newtest/0/a", (.int (4)))], [(s%"id", (.int (2))), (s%"nest/newtest", (.int (3)))]] }])
  [(.obj [(s%"id", (.leaf (.int (2)))), (s%"nest", (.obj [(s%"newtest", (.arr [(.obj [(s%"a", (.leaf (.int (4))))])]))]))])] 1 = true := by decide +kernel
-- str / object mixing multiline
example : chk (unflatten { rootId := none, row := { types := parsedN.types } } [{ name := s%"custom_main", lines := [[(s%"id", (.int (2))), (s%"newtest", (.int (3)))], [(s%"id", (.int (2))), (s%"newtest/a", (.int (4))), (s%"newtest/b", (.int (5)))]] }])
  [(.obj [(s%"id", (.leaf (.int (2)))), (s%"newtest", (.leaf (.int (3))))])] 2 = true := by decide +kernel
-- object / str mixing multiline
example : chk (unflatten { rootId := none, row := { types := parsedN.types } } [{ name := s%"custom_main", lines := [[(s%"id", (.int (2))), (s%"newtest/a", (.int (4)))], [(s%"id", (.int (2))), (s%"newtest", (.int (3)))]] }])
  [(.obj [(s%"id", (.leaf (.int (2)))), (s%"newtest", (.obj [(s%"a", (.leaf (.int (4))))]))])] 1 = true := by decide +kernel
-- Root ID is missing
example : chk (unflatten { rootId := none, row := { types := parsedN.types } } [{ name := s%"custom_main", lines := [[(s%"id", (.int (2))), (s%"testA", (.int (3)))]] }])
  [(.obj [(s%"id", (.leaf (.int (2)))), (s%"testA", (.leaf (.int (3))))])] 0 = true := by decide +kernel
-- Single item array without json numbering
example : chk (unflatten { rootId := none, row := { types := parsedN.types } } [{ name := s%"custom_main", lines := [[(s%"testR/id", (.str s%"2")), (s%"testR/testB", (.str s%"3")), (s%"testR/testX", (.str s%"3"))]] }])
  [(.obj [(s%"testR", (.arr [(.obj [(s%"id", (.leaf (.str s%"2"))), (s%"testB", (.leaf (.str s%"3"))), (s%"testX", (.leaf (.str s%"3")))])]))])] 0 = true := by decide +kernel
-- Multi item array one with varied numbering
example : chk (unflatten { rootId := none, row := { types := parsedN.types } } [{ name := s%"custom_main", lines := [[(s%"testR/id", (.str s%"-1")), (s%"testR/testB", (.str s%"-1")), (s%"testR/testX", (.str s%"-2")), (s%"testR/0/id", (.str s%"0")), (s%"testR/0/testB", (.str s%"1")), (s%"testR/0/testX", (.str s%"1")), (s%"testR/5/id", (.str s%"5")), (s%"testR/5/testB", (.str s%"5")), (s%"testR/5/testX", (.str s%"6"))]] }])
  [(.obj [(s%"testR", (.arr [(.obj [(s%"id", (.leaf (.str s%"-1"))), (s%"testB", (.leaf (.str s%"-1"))), (s%"testX", (.leaf (.str s%"-2")))]), (.obj [(s%"id", (.leaf (.str s%"0"))), (s%"testB", (.leaf (.str s%"1"))), (s%"testX", (.leaf (.str s%"1")))]), (.obj [(s%"id", (.leaf (.str s%"5"))), (s%"testB", (.leaf (.str s%"5"))), (s%"testX", (.leaf (.str s%"6")))])]))])] 0 = true := by decide +kernel
-- titles: Basic flat
example : chkT (unflatten { rootId := none, row := { types := parsedN.types } } (titleSheets parsedN.lookup [{ name := s%"custom_main", lines := [[(s%"Identifier", (.int (2))), (s%"A title", (.int (3)))]] }]))
  [(.obj [(s%"id", (.leaf (.int (2)))), (s%"testA", (.leaf (.int (3))))])] 0 = true := by decide +kernel
-- titles: Nested
example : chkT (unflatten { rootId := none, row := { types := parsedN.types } } (titleSheets parsedN.lookup [{ name := s%"custom_main", lines := [[(s%"Identifier", (.int (2))), (s%"B title:C title", (.int (3))), (s%"B title:D title", (.int (4)))]] }]))
  [(.obj [(s%"id", (.leaf (.int (2)))), (s%"testB", (.obj [(s%"testC", (.leaf (.int (3)))), (s%"testD", (.leaf (.int (4))))]))])] 0 = true := by decide +kernel
-- titles: Nested titles should be converted individually
example : chkT (unflatten { rootId := none, row := { types := parsedN.types } } (titleSheets parsedN.lookup [{ name := s%"custom_main", lines := [[(s%"Identifier", (.int (2))), (s%"B title:C title", (.int (3))), (s%"B title:Not in schema", (.int (4)))]] }]))
  [(.obj [(s%"id", (.leaf (.int (2)))), (s%"testB", (.obj [(s%"testC", (.leaf (.int (3)))), (s%"Not in schema", (.leaf (.int (4))))]))])] 0 = true := by decide +kernel
-- titles: Should be space and case invariant
example : chkT (unflatten { rootId := none, row := { types := parsedN.types } } (titleSheets parsedN.lookup [{ name := s%"custom_main", lines := [[(s%"Identifier", (.int (2))), (s%"B  title : c  title", (.int (3))), (s%"btitle : Not in schema", (.int (4)))]] }]))
  [(.obj [(s%"id", (.leaf (.int (2)))), (s%"testB", (.obj [(s%"testC", (.leaf (.int (3)))), (s%"Not in schema", (.leaf (.int (4))))]))])] 0 = true := by decide +kernel
-- titles: Unicode
example : chkT (unflatten { rootId := none, row := { types := parsedN.types } } (titleSheets parsedN.lookup [{ name := s%"custom_main", lines := [[(s%"éαГ😼𝒞人", (.str s%"éαГ😼𝒞人"))]] }]))
  [(.obj [(s%"testU", (.leaf (.str s%"éαГ😼𝒞人")))])] 0 = true := by decide +kernel
-- titles: Single item array
example : chkT (unflatten { rootId := none, row := { types := parsedN.types } } (titleSheets parsedN.lookup [{ name := s%"custom_main", lines := [[(s%"Identifier", (.int (2))), (s%"R title:Identifier", (.int (3))), (s%"R title:B title", (.int (4)))]] }]))
  [(.obj [(s%"id", (.leaf (.int (2)))), (s%"testR", (.arr [(.obj [(s%"id", (.leaf (.str s%"3"))), (s%"testB", (.leaf (.str s%"4")))])]))])] 0 = true := by decide +kernel
-- titles: Single item array without parent ID
example : chkT (unflatten { rootId := none, row := { types := parsedN.types } } (titleSheets parsedN.lookup [{ name := s%"custom_main", lines := [[(s%"R title:Identifier", (.str s%"2")), (s%"R title:B title", (.str s%"3"))]] }]))
  [(.obj [(s%"testR", (.arr [(.obj [(s%"id", (.leaf (.str s%"2"))), (s%"testB", (.leaf (.str s%"3")))])]))])] 0 = true := by decide +kernel
-- titles: Properties of a single item array shouldn't need to be in rollUp list for their titles to be converted
example : chkT (unflatten { rootId := none, row := { types := parsedN.types } } (titleSheets parsedN.lookup [{ name := s%"custom_main", lines := [[(s%"Identifier", (.int (2))), (s%"R title:Identifier", (.int (3))), (s%"R title:C title", (.int (4)))]] }]))
  [(.obj [(s%"id", (.leaf (.int (2)))), (s%"testR", (.arr [(.obj [(s%"id", (.leaf (.str s%"3"))), (s%"testC", (.leaf (.str s%"4")))])]))])] 0 = true := by decide +kernel
-- titles: Single item array, titles should be converted individually
example : chkT (unflatten { rootId := none, row := { types := parsedN.types } } (titleSheets parsedN.lookup [{ name := s%"custom_main", lines := [[(s%"Identifier", (.int (2))), (s%"R title:C title", (.int (3))), (s%"R title:Not in schema", (.int (4)))]] }]))
  [(.obj [(s%"id", (.leaf (.int (2)))), (s%"testR", (.arr [(.obj [(s%"testC", (.leaf (.str s%"3"))), (s%"Not in schema", (.leaf (.int (4))))])]))])] 0 = true := by decide +kernel
-- titles: Multi item array, allow numbering
example : chkT (unflatten { rootId := none, row := { types := parsedN.types } } (titleSheets parsedN.lookup [{ name := s%"custom_main", lines := [[(s%"Identifier", (.int (2))), (s%"R title:C title", (.int (3))), (s%"R title:Not in schema", (.int (4))), (s%"R title:0:C title", (.int (5))), (s%"R title:0:Not in schema", (.int (6))), (s%"R title:5:C title", (.int (7))), (s%"R title:5:Not in schema", (.int (8)))]] }]))
  [(.obj [(s%"id", (.leaf (.int (2)))), (s%"testR", (.arr [(.obj [(s%"testC", (.leaf (.str s%"3"))), (s%"Not in schema", (.leaf (.int (4))))]), (.obj [(s%"testC", (.leaf (.str s%"5"))), (s%"Not in schema", (.leaf (.int (6))))]), (.obj [(s%"testC", (.leaf (.str s%"7"))), (s%"Not in schema", (.leaf (.int (8))))])]))])] 0 = true := by decide +kernel
-- titles: Empty
example : chkT (unflatten { rootId := none, row := { types := parsedN.types } } (titleSheets parsedN.lookup [{ name := s%"custom_main", lines := [[(s%"Identifier", (.str s%"")), (s%"A title", (.str s%"")), (s%"B title", (.str s%"")), (s%"C title", (.str s%"")), (s%"D title", (.str s%"")), (s%"E title", (.str s%""))]] }]))
  [] 0 = true := by decide +kernel
-- titles: Test arrays of strings (1 item)
example : chkT (unflatten { rootId := none, row := { types := parsedN.types } } (titleSheets parsedN.lookup [{ name := s%"custom_main", lines := [[(s%"Identifier", (.int (2))), (s%"SA title", (.str s%"a"))]] }]))
  [(.obj [(s%"id", (.leaf (.int (2)))), (s%"testSA", (.arr [(.leaf (.str s%"a"))]))])] 0 = true := by decide +kernel
-- titles: Test arrays of strings (2 items)
example : chkT (unflatten { rootId := none, row := { types := parsedN.types } } (titleSheets parsedN.lookup [{ name := s%"custom_main", lines := [[(s%"Identifier", (.int (2))), (s%"SA title", (.str s%"a;b"))]] }]))
  [(.obj [(s%"id", (.leaf (.int (2)))), (s%"testSA", (.arr [(.leaf (.str s%"a")), (.leaf (.str s%"b"))]))])] 0 = true := by decide +kernel
-- titles: Test arrays of strings within an object array (1 item)
example : chkT (unflatten { rootId := none, row := { types := parsedN.types } } (titleSheets parsedN.lookup [{ name := s%"custom_main", lines := [[(s%"Identifier", (.int (2))), (s%"R title:SA title", (.str s%"a"))]] }]))
  [(.obj [(s%"id", (.leaf (.int (2)))), (s%"testR", (.arr [(.obj [(s%"testSA", (.arr [(.leaf (.str s%"a"))]))])]))])] 0 = true := by decide +kernel
-- titles: Test arrays of strings within an object array (2 items)
example : chkT (unflatten { rootId := none, row := { types := parsedN.types } } (titleSheets parsedN.lookup [{ name := s%"custom_main", lines := [[(s%"Identifier", (.int (2))), (s%"R title:SA title", (.str s%"a;b"))]] }]))
  [(.obj [(s%"id", (.leaf (.int (2)))), (s%"testR", (.arr [(.obj [(s%"testSA", (.arr [(.leaf (.str s%"a")), (.leaf (.str s%"b"))]))])]))])] 0 = true := by decide +kernel
-- Basic sub sheet
example : chkT (unflatten { rootId := none, row := { types := parsedN.types } } (titleSheets parsedN.lookup [{ name := s%"custom_main", lines := [[(s%"id", (.int (2)))], [(s%"id", (.int (3)))]] }, { name := s%"testArr", lines := [[(s%"id", (.int (2))), (s%"testArr/0/testC", (.str s%"3"))], [(s%"id", (.int (2))), (s%"testArr/0/testC", (.str s%"4"))]] }]))
  [(.obj [(s%"id", (.leaf (.int (2)))), (s%"testArr", (.arr [(.obj [(s%"testC", (.leaf (.str s%"3")))]), (.obj [(s%"testC", (.leaf (.str s%"4")))])]))]), (.obj [(s%"id", (.leaf (.int (3))))])] 0 = true := by decide +kernel
-- Nested sub sheet (with id)
example : chkT (unflatten { rootId := none, row := { types := parsedN.types } } (titleSheets parsedN.lookup [{ name := s%"custom_main", lines := [[(s%"id", (.int (2))), (s%"testB/id", (.int (3))), (s%"testB/testC", (.int (4)))]] }, { name := s%"tes_subField", lines := [[(s%"id", (.int (2))), (s%"testB/id", (.int (3))), (s%"testB/subField/0/testD", (.int (5)))]] }]))
  [(.obj [(s%"id", (.leaf (.int (2)))), (s%"testB", (.obj [(s%"id", (.leaf (.int (3)))), (s%"testC", (.leaf (.int (4)))), (s%"subField", (.arr [(.obj [(s%"testD", (.leaf (.int (5))))])]))]))])] 0 = true := by decide +kernel
-- Nested sub sheet (without id)
example : chkT (unflatten { rootId := none, row := { types := parsedN.types } } (titleSheets parsedN.lookup [{ name := s%"custom_main", lines := [[(s%"id", (.int (2))), (s%"testB/id", (.int (3))), (s%"testB/testC", (.int (4)))]] }, { name := s%"sub", lines := [[(s%"id", (.int (2))), (s%"testB/subField/0/testD", (.int (5)))]] }]))
  [(.obj [(s%"id", (.leaf (.int (2)))), (s%"testB", (.obj [(s%"id", (.leaf (.int (3)))), (s%"testC", (.leaf (.int (4)))), (s%"subField", (.arr [(.obj [(s%"testD", (.leaf (.int (5))))])]))]))])] 0 = true := by decide +kernel
-- Basic two sub sheets
example : chkT (unflatten { rootId := none, row := { types := parsedN.types } } (titleSheets parsedN.lookup [{ name := s%"custom_main", lines := [[(s%"id", (.int (2)))], [(s%"id", (.int (6)))]] }, { name := s%"sub1Field", lines := [[(s%"id", (.int (2))), (s%"sub1Field/0/id", (.int (3))), (s%"sub1Field/0/testA", (.int (4)))]] }, { name := s%"sub_sub2Field", lines := [[(s%"id", (.int (2))), (s%"sub1Field/0/id", (.int (3))), (s%"sub1Field/0/sub2Field/0/testB", (.int (5)))]] }]))
  [(.obj [(s%"id", (.leaf (.int (2)))), (s%"sub1Field", (.arr [(.obj [(s%"id", (.leaf (.int (3)))), (s%"testA", (.leaf (.int (4)))), (s%"sub2Field", (.arr [(.obj [(s%"testB", (.leaf (.int (5))))])]))])]))]), (.obj [(s%"id", (.leaf (.int (6))))])] 0 = true := by decide +kernel
-- Nested id
example : chkT (unflatten { rootId := none, row := { types := parsedN.types } } (titleSheets parsedN.lookup [{ name := s%"custom_main", lines := [[(s%"id", (.int (2)))]] }, { name := s%"subField", lines := [[(s%"id", (.int (2))), (s%"subField/0/id", (.int (3))), (s%"subField/0/testA/id", (.int (4)))]] }]))
  [(.obj [(s%"id", (.leaf (.int (2)))), (s%"subField", (.arr [(.obj [(s%"id", (.leaf (.int (3)))), (s%"testA", (.obj [(s%"id", (.leaf (.int (4))))]))])]))])] 0 = true := by decide +kernel
-- Missing columns
example : chkT (unflatten { rootId := none, row := { types := parsedN.types } } (titleSheets parsedN.lookup [{ name := s%"custom_main", lines := [[(s%"id", (.int (2)))]] }, { name := s%"sub", lines := [[(s%"id", (.str s%"")), (s%"subField/0/id", (.int (3))), (s%"subField/0/testA", (.int (4)))], [(s%"id", (.int (2))), (s%"subField/0/id", (.int (3))), (s%"subField/0/testA", (.int (5)))]] }]))
  [(.obj [(s%"id", (.leaf (.int (2)))), (s%"subField", (.arr [(.obj [(s%"id", (.leaf (.int (3)))), (s%"testA", (.leaf (.int (5))))])]))]), (.obj [(s%"subField", (.arr [(.obj [(s%"id", (.leaf (.int (3)))), (s%"testA", (.leaf (.int (4))))])]))])] 0 = true := by decide +kernel
-- Unmatched id
example : chkT (unflatten { rootId := none, row := { types := parsedN.types } } (titleSheets parsedN.lookup [{ name := s%"custom_main", lines := [[(s%"id", (.int (2)))]] }, { name := s%"sub", lines := [[(s%"id", (.int (100))), (s%"subField/0/id", (.int (3))), (s%"subField/0/testA", (.int (4)))], [(s%"id", (.int (2))), (s%"subField/0/id", (.int (3))), (s%"subField/0/testA", (.int (5)))]] }]))
  [(.obj [(s%"id", (.leaf (.int (2)))), (s%"subField", (.arr [(.obj [(s%"id", (.leaf (.int (3)))), (s%"testA", (.leaf (.int (5))))])]))]), (.obj [(s%"id", (.leaf (.int (100)))), (s%"subField", (.arr [(.obj [(s%"id", (.leaf (.int (3)))), (s%"testA", (.leaf (.int (4))))])]))])] 0 = true := by decide +kernel
-- Test same rollup
example : chkT (unflatten { rootId := none, row := { types := parsedN.types } } (titleSheets parsedN.lookup [{ name := s%"main", lines := [[(s%"id", (.int (2))), (s%"testC", (.int (3))), (s%"testArr/0/id", (.str s%"4")), (s%"testArr/0/testB", (.str s%"5"))], [(s%"id", (.int (7))), (s%"testC", (.int (8))), (s%"testArr/0/testB", (.str s%"9"))]] }, { name := s%"testArr", lines := [[(s%"id", (.int (2))), (s%"testArr/0/id", (.str s%"4")), (s%"testArr/0/testB", (.str s%"5"))], [(s%"id", (.int (7))), (s%"testArr/0/testB", (.str s%"9"))]] }]))
  [(.obj [(s%"id", (.leaf (.int (2)))), (s%"testC", (.leaf (.int (3)))), (s%"testArr", (.arr [(.obj [(s%"id", (.leaf (.str s%"4"))), (s%"testB", (.leaf (.str s%"5")))])]))]), (.obj [(s%"id", (.leaf (.int (7)))), (s%"testC", (.leaf (.int (8)))), (s%"testArr", (.arr [(.obj [(s%"testB", (.leaf (.str s%"9")))]), (.obj [(s%"testB", (.leaf (.str s%"9")))])]))])] 0 = true := by decide +kernel
-- Test conflicting rollup
example : chkT (unflatten { rootId := none, row := { types := parsedN.types } } (titleSheets parsedN.lookup [{ name := s%"main", lines := [[(s%"id", (.int (2))), (s%"testArr/0/id", (.str s%"3")), (s%"testArr/0/testB", (.str s%"4"))]] }, { name := s%"testArr", lines := [[(s%"id", (.int (2))), (s%"testArr/0/id", (.str s%"3")), (s%"testArr/0/testB", (.str s%"5"))]] }]))
  [(.obj [(s%"id", (.leaf (.int (2)))), (s%"testArr", (.arr [(.obj [(s%"id", (.leaf (.str s%"3"))), (s%"testB", (.leaf (.str s%"4")))])]))])] 1 = true := by decide +kernel
-- Unflatten empty
example : chkT (unflatten { rootId := none, row := { types := parsedN.types } } (titleSheets parsedN.lookup [{ name := s%"custom_main", lines := [] }, { name := s%"subsheet", lines := [[(s%"id", (.str s%"")), (s%"testA", (.str s%"")), (s%"testB", (.str s%"")), (s%"testC", (.str s%"")), (s%"testD", (.str s%""))]] }]))
  [] 0 = true := by decide +kernel
-- Basic sub sheet
example : chkT (unflatten { rootId := none, row := { types := parsedN.types } } (titleSheets parsedN.lookup [{ name := s%"custom_main", lines := [[(s%"Identifier", (.int (2)))], [(s%"Identifier", (.int (3)))]] }, { name := s%"Arr title", lines := [[(s%"Identifier", (.int (2))), (s%"Arr title:C title", (.str s%"3"))], [(s%"Identifier", (.int (2))), (s%"Arr title:C title", (.str s%"4"))]] }, { name := s%"arr_not_in_schema", lines := [[(s%"Identifier", (.int (2))), (s%"arr_not_in_schema/0/testD", (.str s%"5"))], [(s%"Identifier", (.int (2))), (s%"arr_not_in_schema/0/testD", (.str s%"6"))]] }]))
  [(.obj [(s%"id", (.leaf (.int (2)))), (s%"testArr", (.arr [(.obj [(s%"testC", (.leaf (.str s%"3")))]), (.obj [(s%"testC", (.leaf (.str s%"4")))])])), (s%"arr_not_in_schema", (.arr [(.obj [(s%"testD", (.leaf (.str s%"5")))]), (.obj [(s%"testD", (.leaf (.str s%"6")))])]))]), (.obj [(s%"id", (.leaf (.int (3))))])] 0 = true := by decide +kernel
-- Nested sub sheet (with id)
example : chkT (unflatten { rootId := none, row := { types := parsedN.types } } (titleSheets parsedN.lookup [{ name := s%"custom_main", lines := [[(s%"Identifier", (.int (2))), (s%"B title:Identifier", (.int (3))), (s%"B title:C title", (.int (4)))]] }, { name := s%"B t_Sub title", lines := [[(s%"Identifier", (.int (2))), (s%"B title:Identifier", (.int (3))), (s%"B title:Sub title:E title", (.int (5)))]] }]))
  [(.obj [(s%"id", (.leaf (.int (2)))), (s%"testB", (.obj [(s%"id", (.leaf (.int (3)))), (s%"testC", (.leaf (.int (4)))), (s%"subField", (.arr [(.obj [(s%"testE", (.leaf (.int (5))))])]))]))])] 0 = true := by decide +kernel
-- Nested sub sheet (without id)
example : chkT (unflatten { rootId := none, row := { types := parsedN.types } } (titleSheets parsedN.lookup [{ name := s%"custom_main", lines := [[(s%"Identifier", (.int (2))), (s%"B title:Identifier", (.int (3))), (s%"B title:C title", (.int (4)))]] }, { name := s%"sub", lines := [[(s%"Identifier", (.int (2))), (s%"B title:Sub title:E title", (.int (5)))]] }]))
  [(.obj [(s%"id", (.leaf (.int (2)))), (s%"testB", (.obj [(s%"id", (.leaf (.int (3)))), (s%"testC", (.leaf (.int (4)))), (s%"subField", (.arr [(.obj [(s%"testE", (.leaf (.int (5))))])]))]))])] 0 = true := by decide +kernel
-- Basic two sub sheets
example : chkT (unflatten { rootId := none, row := { types := parsedN.types } } (titleSheets parsedN.lookup [{ name := s%"custom_main", lines := [[(s%"Identifier", (.int (2)))], [(s%"Identifier", (.int (6)))]] }, { name := s%"Arr title", lines := [[(s%"Identifier", (.int (2))), (s%"Arr title:Identifier", (.str s%"3")), (s%"Arr title:B title", (.str s%"4"))]] }, { name := s%"Arr_Nest title", lines := [[(s%"Identifier", (.int (2))), (s%"Arr title:Identifier", (.str s%"3")), (s%"Arr title:Nest title:D title", (.str s%"5"))]] }]))
  [(.obj [(s%"id", (.leaf (.int (2)))), (s%"testArr", (.arr [(.obj [(s%"id", (.leaf (.str s%"3"))), (s%"testB", (.leaf (.str s%"4"))), (s%"testNest", (.arr [(.obj [(s%"testD", (.leaf (.str s%"5")))])]))])]))]), (.obj [(s%"id", (.leaf (.int (6))))])] 0 = true := by decide +kernel
-- Nested id
example : chkT (unflatten { rootId := none, row := { types := parsedN.types } } (titleSheets parsedN.lookup [{ name := s%"custom_main", lines := [[(s%"Identifier", (.int (2)))]] }, { name := s%"Arr title", lines := [[(s%"Identifier", (.int (2))), (s%"Arr title:Identifier", (.str s%"3")), (s%"Arr title:NestObj title:Identifier", (.str s%"4"))]] }]))
  [(.obj [(s%"id", (.leaf (.int (2)))), (s%"testArr", (.arr [(.obj [(s%"id", (.leaf (.str s%"3"))), (s%"testNestObj", (.obj [(s%"id", (.leaf (.str s%"4")))]))])]))])] 0 = true := by decide +kernel
-- Missing columns
example : chkT (unflatten { rootId := none, row := { types := parsedN.types } } (titleSheets parsedN.lookup [{ name := s%"custom_main", lines := [[(s%"Identifier", (.int (2)))]] }, { name := s%"sub", lines := [[(s%"Identifier", (.str s%"")), (s%"Arr title:Identifier", (.int (3))), (s%"Arr title:B title", (.int (4)))], [(s%"Identifier", (.int (2))), (s%"Arr title:Identifier", (.int (3))), (s%"Arr title:B title", (.int (5)))]] }]))
  [(.obj [(s%"id", (.leaf (.int (2)))), (s%"testArr", (.arr [(.obj [(s%"id", (.leaf (.str s%"3"))), (s%"testB", (.leaf (.str s%"5")))])]))]), (.obj [(s%"testArr", (.arr [(.obj [(s%"id", (.leaf (.str s%"3"))), (s%"testB", (.leaf (.str s%"4")))])]))])] 0 = true := by decide +kernel
-- Unmatched id
example : chkT (unflatten { rootId := none, row := { types := parsedN.types } } (titleSheets parsedN.lookup [{ name := s%"custom_main", lines := [[(s%"Identifier", (.int (2)))]] }, { name := s%"sub", lines := [[(s%"Identifier", (.int (100))), (s%"Arr title:Identifier", (.int (3))), (s%"Arr title:B title", (.int (4)))], [(s%"Identifier", (.int (2))), (s%"Arr title:Identifier", (.int (3))), (s%"Arr title:B title", (.int (5)))]] }]))
  [(.obj [(s%"id", (.leaf (.int (2)))), (s%"testArr", (.arr [(.obj [(s%"id", (.leaf (.str s%"3"))), (s%"testB", (.leaf (.str s%"5")))])]))]), (.obj [(s%"id", (.leaf (.int (100)))), (s%"testArr", (.arr [(.obj [(s%"id", (.leaf (.str s%"3"))), (s%"testB", (.leaf (.str s%"4")))])]))])] 0 = true := by decide +kernel
-- Test same rollup
example : chkT (unflatten { rootId := none, row := { types := parsedN.types } } (titleSheets parsedN.lookup [{ name := s%"main", lines := [[(s%"Identifier", (.int (2))), (s%"A title", (.int (3))), (s%"Arr title:Identifier", (.int (4))), (s%"Arr title:B title", (.int (5)))], [(s%"Identifier", (.int (7))), (s%"A title", (.int (8))), (s%"Arr title:B title", (.int (9)))]] }, { name := s%"testArr", lines := [[(s%"Identifier", (.int (2))), (s%"Arr title:Identifier", (.int (4))), (s%"Arr title:B title", (.int (5)))], [(s%"Identifier", (.int (7))), (s%"Arr title:B title", (.int (9)))]] }]))
  [(.obj [(s%"id", (.leaf (.int (2)))), (s%"testA", (.leaf (.int (3)))), (s%"testArr", (.arr [(.obj [(s%"id", (.leaf (.str s%"4"))), (s%"testB", (.leaf (.str s%"5")))])]))]), (.obj [(s%"id", (.leaf (.int (7)))), (s%"testA", (.leaf (.int (8)))), (s%"testArr", (.arr [(.obj [(s%"testB", (.leaf (.str s%"9")))]), (.obj [(s%"testB", (.leaf (.str s%"9")))])]))])] 0 = true := by decide +kernel
-- Test conflicting rollup
example : chkT (unflatten { rootId := none, row := { types := parsedN.types } } (titleSheets parsedN.lookup [{ name := s%"main", lines := [[(s%"Identifier", (.int (2))), (s%"Arr title:Identifier", (.str s%"3")), (s%"Arr title:B title", (.str s%"4"))]] }, { name := s%"testArr", lines := [[(s%"Identifier", (.int (2))), (s%"Arr title:Identifier", (.str s%"3")), (s%"Arr title:B title", (.str s%"5"))]] }]))
  [(.obj [(s%"id", (.leaf (.int (2)))), (s%"testArr", (.arr [(.obj [(s%"id", (.leaf (.str s%"3"))), (s%"testB", (.leaf (.str s%"4")))])]))])] 1 = true := by decide +kernel
-- Unflatten empty
example : chkT (unflatten { rootId := none, row := { types := parsedN.types } } (titleSheets parsedN.lookup [{ name := s%"custom_main", lines := [] }, { name := s%"subsheet", lines := [[(s%"Identifier", (.str s%"")), (s%"A title", (.str s%"")), (s%"U title", (.str s%""))]] }]))
  [] 0 = true := by decide +kernel
-- flatten: Basic flat
example : chkF (flatten { rootId := none } [(.obj [(s%"id", (.leaf (.int (2)))), (s%"testA", (.leaf (.int (3))))])]) [[(s%"id", (.leaf (.int (2)))), (s%"testA", (.leaf (.int (3))))]] [] = true := by decide +kernel
-- flatten: Basic flat
example : chkF (flatten { rootId := none, useTitles := true } [(.obj [(s%"id", (.leaf (.int (2)))), (s%"testA", (.leaf (.int (3))))])]) [[(s%"id", (.leaf (.int (2)))), (s%"testA", (.leaf (.int (3))))]] [] = true := by decide +kernel
-- flatten: Basic flat
example : chkF (flatten { rootId := none, schema := some parsedN } [(.obj [(s%"id", (.leaf (.int (2)))), (s%"testA", (.leaf (.int (3))))])]) [[(s%"id", (.leaf (.int (2)))), (s%"testA", (.leaf (.int (3))))]] [] = true := by decide +kernel
-- flatten: Basic with float
example : chkF (flatten { rootId := none } [(.obj [(s%"id", (.leaf (.int (2)))), (s%"testA", (.leaf (.int (3))))])]) [[(s%"id", (.leaf (.int (2)))), (s%"testA", (.leaf (.float ⟨s%"3.0", (.fin false 3 (0))⟩)))]] [] = true := by decide +kernel
-- flatten: Basic with float
example : chkF (flatten { rootId := none, useTitles := true } [(.obj [(s%"id", (.leaf (.int (2)))), (s%"testA", (.leaf (.int (3))))])]) [[(s%"id", (.leaf (.int (2)))), (s%"testA", (.leaf (.float ⟨s%"3.0", (.fin false 3 (0))⟩)))]] [] = true := by decide +kernel
-- flatten: Basic with float
example : chkF (flatten { rootId := none, schema := some parsedN } [(.obj [(s%"id", (.leaf (.int (2)))), (s%"testA", (.leaf (.int (3))))])]) [[(s%"id", (.leaf (.int (2)))), (s%"testA", (.leaf (.float ⟨s%"3.0", (.fin false 3 (0))⟩)))]] [] = true := by decide +kernel
-- flatten: Basic with zero
example : chkF (flatten { rootId := none } [(.obj [(s%"id", (.leaf (.int (2)))), (s%"testA", (.leaf (.int (0))))])]) [[(s%"id", (.leaf (.int (2)))), (s%"testA", (.leaf (.int (0))))]] [] = true := by decide +kernel
-- flatten: Basic with zero
example : chkF (flatten { rootId := none, useTitles := true } [(.obj [(s%"id", (.leaf (.int (2)))), (s%"testA", (.leaf (.int (0))))])]) [[(s%"id", (.leaf (.int (2)))), (s%"testA", (.leaf (.int (0))))]] [] = true := by decide +kernel
-- flatten: Basic with zero
example : chkF (flatten { rootId := none, schema := some parsedN } [(.obj [(s%"id", (.leaf (.int (2)))), (s%"testA", (.leaf (.int (0))))])]) [[(s%"id", (.leaf (.int (2)))), (s%"testA", (.leaf (.int (0))))]] [] = true := by decide +kernel
-- flatten: Nested
example : chkF (flatten { rootId := none } [(.obj [(s%"id", (.leaf (.int (2)))), (s%"testO", (.obj [(s%"testB", (.leaf (.int (3)))), (s%"testC", (.leaf (.int (4))))]))])]) [[(s%"id", (.leaf (.int (2)))), (s%"testO/testB", (.leaf (.int (3)))), (s%"testO/testC", (.leaf (.int (4))))]] [] = true := by decide +kernel
-- flatten: Nested
example : chkF (flatten { rootId := none, useTitles := true } [(.obj [(s%"id", (.leaf (.int (2)))), (s%"testO", (.obj [(s%"testB", (.leaf (.int (3)))), (s%"testC", (.leaf (.int (4))))]))])]) [[(s%"id", (.leaf (.int (2)))), (s%"testO/testB", (.leaf (.int (3)))), (s%"testO/testC", (.leaf (.int (4))))]] [] = true := by decide +kernel
-- flatten: Nested
example : chkF (flatten { rootId := none, schema := some parsedN } [(.obj [(s%"id", (.leaf (.int (2)))), (s%"testO", (.obj [(s%"testB", (.leaf (.int (3)))), (s%"testC", (.leaf (.int (4))))]))])]) [[(s%"id", (.leaf (.int (2)))), (s%"testO/testB", (.leaf (.int (3)))), (s%"testO/testC", (.leaf (.int (4))))]] [] = true := by decide +kernel
-- flatten: Unicode
example : chkF (flatten { rootId := none } [(.obj [(s%"testU", (.leaf (.str s%"éαГ😼𝒞人")))])]) [[(s%"testU", (.leaf (.str s%"éαГ😼𝒞人")))]] [] = true := by decide +kernel
-- flatten: Unicode
example : chkF (flatten { rootId := none, useTitles := true } [(.obj [(s%"testU", (.leaf (.str s%"éαГ😼𝒞人")))])]) [[(s%"testU", (.leaf (.str s%"éαГ😼𝒞人")))]] [] = true := by decide +kernel
-- flatten: Unicode
example : chkF (flatten { rootId := none, schema := some parsedN } [(.obj [(s%"testU", (.leaf (.str s%"éαГ😼𝒞人")))])]) [[(s%"testU", (.leaf (.str s%"éαГ😼𝒞人")))]] [] = true := by decide +kernel
-- flatten: Basic sub sheet
example : chkF (flatten { rootId := none } [(.obj [(s%"id", (.leaf (.int (2)))), (s%"testArr", (.arr [(.obj [(s%"testC", (.leaf (.str s%"3")))]), (.obj [(s%"testC", (.leaf (.str s%"4")))])]))]), (.obj [(s%"id", (.leaf (.int (3))))])]) [[(s%"id", (.leaf (.int (2))))], [(s%"id", (.leaf (.int (3))))]] [(s%"testArr", [[(s%"id", (.leaf (.int (2)))), (s%"testArr/0/testC", (.leaf (.str s%"3")))], [(s%"id", (.leaf (.int (2)))), (s%"testArr/0/testC", (.leaf (.str s%"4")))]])] = true := by decide +kernel
-- flatten: Basic sub sheet
example : chkF (flatten { rootId := none, useTitles := true } [(.obj [(s%"id", (.leaf (.int (2)))), (s%"testArr", (.arr [(.obj [(s%"testC", (.leaf (.str s%"3")))]), (.obj [(s%"testC", (.leaf (.str s%"4")))])]))]), (.obj [(s%"id", (.leaf (.int (3))))])]) [[(s%"id", (.leaf (.int (2))))], [(s%"id", (.leaf (.int (3))))]] [(s%"testArr", [[(s%"id", (.leaf (.int (2)))), (s%"testArr/0/testC", (.leaf (.str s%"3")))], [(s%"id", (.leaf (.int (2)))), (s%"testArr/0/testC", (.leaf (.str s%"4")))]])] = true := by decide +kernel
-- flatten: Basic sub sheet
example : chkF (flatten { rootId := none, schema := some parsedN } [(.obj [(s%"id", (.leaf (.int (2)))), (s%"testArr", (.arr [(.obj [(s%"testC", (.leaf (.str s%"3")))]), (.obj [(s%"testC", (.leaf (.str s%"4")))])]))]), (.obj [(s%"id", (.leaf (.int (3))))])]) [[(s%"id", (.leaf (.int (2))))], [(s%"id", (.leaf (.int (3))))]] [(s%"testArr", [[(s%"id", (.leaf (.int (2)))), (s%"testArr/0/testC", (.leaf (.str s%"3")))], [(s%"id", (.leaf (.int (2)))), (s%"testArr/0/testC", (.leaf (.str s%"4")))]])] = true := by decide +kernel
-- flatten: Nested sub sheet (with id)
example : chkF (flatten { rootId := none } [(.obj [(s%"id", (.leaf (.int (2)))), (s%"testB", (.obj [(s%"id", (.leaf (.int (3)))), (s%"testC", (.leaf (.int (4)))), (s%"subField", (.arr [(.obj [(s%"testD", (.leaf (.int (5))))])]))]))])]) [[(s%"id", (.leaf (.int (2)))), (s%"testB/id", (.leaf (.int (3)))), (s%"testB/testC", (.leaf (.int (4))))]] [(s%"tes_subField", [[(s%"id", (.leaf (.int (2)))), (s%"testB/id", (.leaf (.int (3)))), (s%"testB/subField/0/testD", (.leaf (.int (5))))]])] = true := by decide +kernel
-- flatten: Nested sub sheet (with id)
example : chkF (flatten { rootId := none, useTitles := true } [(.obj [(s%"id", (.leaf (.int (2)))), (s%"testB", (.obj [(s%"id", (.leaf (.int (3)))), (s%"testC", (.leaf (.int (4)))), (s%"subField", (.arr [(.obj [(s%"testD", (.leaf (.int (5))))])]))]))])]) [[(s%"id", (.leaf (.int (2)))), (s%"testB/id", (.leaf (.int (3)))), (s%"testB/testC", (.leaf (.int (4))))]] [(s%"tes_subField", [[(s%"id", (.leaf (.int (2)))), (s%"testB/id", (.leaf (.int (3)))), (s%"testB/subField/0/testD", (.leaf (.int (5))))]])] = true := by decide +kernel
-- flatten: Nested sub sheet (with id)
example : chkF (flatten { rootId := none, schema := some parsedN } [(.obj [(s%"id", (.leaf (.int (2)))), (s%"testB", (.obj [(s%"id", (.leaf (.int (3)))), (s%"testC", (.leaf (.int (4)))), (s%"subField", (.arr [(.obj [(s%"testD", (.leaf (.int (5))))])]))]))])]) [[(s%"id", (.leaf (.int (2)))), (s%"testB/id", (.leaf (.int (3)))), (s%"testB/testC", (.leaf (.int (4))))]] [(s%"tes_subField", [[(s%"id", (.leaf (.int (2)))), (s%"testB/id", (.leaf (.int (3)))), (s%"testB/subField/0/testD", (.leaf (.int (5))))]])] = true := by decide +kernel
-- flatten: Basic two sub sheets
example : chkF (flatten { rootId := none } [(.obj [(s%"id", (.leaf (.int (2)))), (s%"sub1Field", (.arr [(.obj [(s%"id", (.leaf (.int (3)))), (s%"testA", (.leaf (.int (4)))), (s%"sub2Field", (.arr [(.obj [(s%"testB", (.leaf (.int (5))))])]))])]))]), (.obj [(s%"id", (.leaf (.int (6))))])]) [[(s%"id", (.leaf (.int (2))))], [(s%"id", (.leaf (.int (6))))]] [(s%"sub1Field", [[(s%"id", (.leaf (.int (2)))), (s%"sub1Field/0/id", (.leaf (.int (3)))), (s%"sub1Field/0/testA", (.leaf (.int (4))))]]), (s%"sub_sub2Field", [[(s%"id", (.leaf (.int (2)))), (s%"sub1Field/0/id", (.leaf (.int (3)))), (s%"sub1Field/0/sub2Field/0/testB", (.leaf (.int (5))))]])] = true := by decide +kernel
-- flatten: Basic two sub sheets
example : chkF (flatten { rootId := none, useTitles := true } [(.obj [(s%"id", (.leaf (.int (2)))), (s%"sub1Field", (.arr [(.obj [(s%"id", (.leaf (.int (3)))), (s%"testA", (.leaf (.int (4)))), (s%"sub2Field", (.arr [(.obj [(s%"testB", (.leaf (.int (5))))])]))])]))]), (.obj [(s%"id", (.leaf (.int (6))))])]) [[(s%"id", (.leaf (.int (2))))], [(s%"id", (.leaf (.int (6))))]] [(s%"sub1Field", [[(s%"id", (.leaf (.int (2)))), (s%"sub1Field/0/id", (.leaf (.int (3)))), (s%"sub1Field/0/testA", (.leaf (.int (4))))]]), (s%"sub_sub2Field", [[(s%"id", (.leaf (.int (2)))), (s%"sub1Field/0/id", (.leaf (.int (3)))), (s%"sub1Field/0/sub2Field/0/testB", (.leaf (.int (5))))]])] = true := by decide +kernel
-- flatten: Basic two sub sheets
example : chkF (flatten { rootId := none, schema := some parsedN } [(.obj [(s%"id", (.leaf (.int (2)))), (s%"sub1Field", (.arr [(.obj [(s%"id", (.leaf (.int (3)))), (s%"testA", (.leaf (.int (4)))), (s%"sub2Field", (.arr [(.obj [(s%"testB", (.leaf (.int (5))))])]))])]))]), (.obj [(s%"id", (.leaf (.int (6))))])]) [[(s%"id", (.leaf (.int (2))))], [(s%"id", (.leaf (.int (6))))]] [(s%"sub1Field", [[(s%"id", (.leaf (.int (2)))), (s%"sub1Field/0/id", (.leaf (.int (3)))), (s%"sub1Field/0/testA", (.leaf (.int (4))))]]), (s%"sub_sub2Field", [[(s%"id", (.leaf (.int (2)))), (s%"sub1Field/0/id", (.leaf (.int (3)))), (s%"sub1Field/0/sub2Field/0/testB", (.leaf (.int (5))))]])] = true := by decide +kernel
-- flatten: Nested id
example : chkF (flatten { rootId := none } [(.obj [(s%"id", (.leaf (.int (2)))), (s%"subField", (.arr [(.obj [(s%"id", (.leaf (.int (3)))), (s%"testA", (.obj [(s%"id", (.leaf (.int (4))))]))])]))])]) [[(s%"id", (.leaf (.int (2))))]] [(s%"subField", [[(s%"id", (.leaf (.int (2)))), (s%"subField/0/id", (.leaf (.int (3)))), (s%"subField/0/testA/id", (.leaf (.int (4))))]])] = true := by decide +kernel
-- flatten: Nested id
example : chkF (flatten { rootId := none, useTitles := true } [(.obj [(s%"id", (.leaf (.int (2)))), (s%"subField", (.arr [(.obj [(s%"id", (.leaf (.int (3)))), (s%"testA", (.obj [(s%"id", (.leaf (.int (4))))]))])]))])]) [[(s%"id", (.leaf (.int (2))))]] [(s%"subField", [[(s%"id", (.leaf (.int (2)))), (s%"subField/0/id", (.leaf (.int (3)))), (s%"subField/0/testA/id", (.leaf (.int (4))))]])] = true := by decide +kernel
-- flatten: Nested id
example : chkF (flatten { rootId := none, schema := some parsedN } [(.obj [(s%"id", (.leaf (.int (2)))), (s%"subField", (.arr [(.obj [(s%"id", (.leaf (.int (3)))), (s%"testA", (.obj [(s%"id", (.leaf (.int (4))))]))])]))])]) [[(s%"id", (.leaf (.int (2))))]] [(s%"subField", [[(s%"id", (.leaf (.int (2)))), (s%"subField/0/id", (.leaf (.int (3)))), (s%"subField/0/testA/id", (.leaf (.int (4))))]])] = true := by decide +kernel
-- flatten titles: Basic flat
example : chkF (flatten { rootId := none, useTitles := true, schema := some parsedTN } [(.obj [(s%"id", (.leaf (.int (2)))), (s%"testA", (.leaf (.int (3))))])]) [[(s%"Identifier", (.leaf (.int (2)))), (s%"A title", (.leaf (.int (3))))]] [] = true := by decide +kernel
-- flatten titles: Nested
example : chkF (flatten { rootId := none, useTitles := true, schema := some parsedTN } [(.obj [(s%"id", (.leaf (.int (2)))), (s%"testB", (.obj [(s%"testC", (.leaf (.int (3)))), (s%"testD", (.leaf (.int (4))))]))])]) [[(s%"Identifier", (.leaf (.int (2)))), (s%"B title:C title", (.leaf (.int (3)))), (s%"B title:D title", (.leaf (.int (4))))]] [] = true := by decide +kernel
-- flatten titles: Unicode
example : chkF (flatten { rootId := none, useTitles := true, schema := some parsedTN } [(.obj [(s%"testU", (.leaf (.str s%"éαГ😼𝒞人")))])]) [[(s%"éαГ😼𝒞人", (.leaf (.str s%"éαГ😼𝒞人")))]] [] = true := by decide +kernel
-- flatten titles: Test arrays of strings (1 item)
example : chkF (flatten { rootId := none, useTitles := true, schema := some parsedTN } [(.obj [(s%"id", (.leaf (.int (2)))), (s%"testSA", (.arr [(.leaf (.str s%"a"))]))])]) [[(s%"Identifier", (.leaf (.int (2)))), (s%"SA title", (.leaf (.str s%"a")))]] [] = true := by decide +kernel
-- flatten titles: Test arrays of strings (2 items)
example : chkF (flatten { rootId := none, useTitles := true, schema := some parsedTN } [(.obj [(s%"id", (.leaf (.int (2)))), (s%"testSA", (.arr [(.leaf (.str s%"a")), (.leaf (.str s%"b"))]))])]) [[(s%"Identifier", (.leaf (.int (2)))), (s%"SA title", (.leaf (.str s%"a;b")))]] [] = true := by decide +kernel
-- flatten titles: Basic sub sheet
example : chkF (flatten { rootId := none, useTitles := true, schema := some parsedTN } [(.obj [(s%"id", (.leaf (.int (2)))), (s%"testArr", (.arr [(.obj [(s%"testC", (.leaf (.str s%"3")))]), (.obj [(s%"testC", (.leaf (.str s%"4")))])])), (s%"arr_not_in_schema", (.arr [(.obj [(s%"testD", (.leaf (.str s%"5")))]), (.obj [(s%"testD", (.leaf (.str s%"6")))])]))]), (.obj [(s%"id", (.leaf (.int (3))))])]) [[(s%"Identifier", (.leaf (.int (2))))], [(s%"Identifier", (.leaf (.int (3))))]] [(s%"Arr title", [[(s%"Identifier", (.leaf (.int (2)))), (s%"Arr title:C title", (.leaf (.str s%"3")))], [(s%"Identifier", (.leaf (.int (2)))), (s%"Arr title:C title", (.leaf (.str s%"4")))]]), (s%"arr_not_in_schema", [[(s%"Identifier", (.leaf (.int (2)))), (s%"arr_not_in_schema/0/testD", (.leaf (.str s%"5")))], [(s%"Identifier", (.leaf (.int (2)))), (s%"arr_not_in_schema/0/testD", (.leaf (.str s%"6")))]])] = true := by decide +kernel
-- flatten titles: Nested sub sheet (with id)
example : chkF (flatten { rootId := none, useTitles := true, schema := some parsedTN } [(.obj [(s%"id", (.leaf (.int (2)))), (s%"testB", (.obj [(s%"id", (.leaf (.int (3)))), (s%"testC", (.leaf (.int (4)))), (s%"subField", (.arr [(.obj [(s%"testE", (.leaf (.int (5))))])]))]))])]) [[(s%"Identifier", (.leaf (.int (2)))), (s%"B title:Identifier", (.leaf (.int (3)))), (s%"B title:C title", (.leaf (.int (4))))]] [(s%"B t_Sub title", [[(s%"Identifier", (.leaf (.int (2)))), (s%"B title:Identifier", (.leaf (.int (3)))), (s%"B title:Sub title:E title", (.leaf (.int (5))))]])] = true := by decide +kernel
-- flatten titles: Basic two sub sheets
example : chkF (flatten { rootId := none, useTitles := true, schema := some parsedTN } [(.obj [(s%"id", (.leaf (.int (2)))), (s%"testArr", (.arr [(.obj [(s%"id", (.leaf (.str s%"3"))), (s%"testB", (.leaf (.str s%"4"))), (s%"testNest", (.arr [(.obj [(s%"testD", (.leaf (.str s%"5")))])]))])]))]), (.obj [(s%"id", (.leaf (.int (6))))])]) [[(s%"Identifier", (.leaf (.int (2))))], [(s%"Identifier", (.leaf (.int (6))))]] [(s%"Arr title", [[(s%"Identifier", (.leaf (.int (2)))), (s%"Arr title:Identifier", (.leaf (.str s%"3"))), (s%"Arr title:B title", (.leaf (.str s%"4")))]]), (s%"Arr_Nest title", [[(s%"Identifier", (.leaf (.int (2)))), (s%"Arr title:Identifier", (.leaf (.str s%"3"))), (s%"Arr title:Nest title:D title", (.leaf (.str s%"5")))]])] = true := by decide +kernel
-- flatten titles: Nested id
example : chkF (flatten { rootId := none, useTitles := true, schema := some parsedTN } [(.obj [(s%"id", (.leaf (.int (2)))), (s%"testArr", (.arr [(.obj [(s%"id", (.leaf (.str s%"3"))), (s%"testNestObj", (.obj [(s%"id", (.leaf (.str s%"4")))]))])]))])]) [[(s%"Identifier", (.leaf (.int (2))))]] [(s%"Arr title", [[(s%"Identifier", (.leaf (.int (2)))), (s%"Arr title:Identifier", (.leaf (.str s%"3"))), (s%"Arr title:NestObj title:Identifier", (.leaf (.str s%"4")))]])] = true := by decide +kernel

end Verif.Tests

