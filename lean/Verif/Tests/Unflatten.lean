import Verif.Model.SourceMap
/-!
The project's own unit-test data (flattentool/tests), replayed on the model and
checked by the kernel.  These are tests of the model's fidelity, not proofs of
properties.
-/
namespace Verif.Tests

mutual
/-- Equality of JSON up to the order of object keys. -/
def same : Json → Json → Bool
  | .leaf a, .leaf b => (Val.atom a).pyEq (.atom b)
  | .obj f, .obj g => f.length == g.length && sameFields f g
  | .arr l, .arr m => sameList l m
  | _, _ => false
def sameFields : List (Str × Json) → List (Str × Json) → Bool
  | [], _ => true
  | (k, v) :: r, g => (match Dict.get g k with | some w => same v w | none => false) && sameFields r g
def sameList : List Json → List Json → Bool
  | [], [] => true
  | a :: r, b :: s => same a b && sameList r s
  | _, _ => false
end

/-- Result and number of warnings are as expected. -/
def chk (r : Except Err (List Json × List Warn)) (expected : List Json) (n : Nat) : Bool :=
  match r with
  | .ok (o, w) => sameList o expected && w.length == n
  | .error _ => false

-- Basic flat
example : chk (unflatten {} [{ name := s%"custom_main", lines := [[(s%"ocid", (.str s%"1")), (s%"id", (.int (2))), (s%"testA", (.int (3)))]] }])
  [(.obj [(s%"ocid", (.leaf (.str s%"1"))), (s%"id", (.leaf (.int (2)))), (s%"testA", (.leaf (.int (3))))])] 0 = true := by decide +kernel
-- Basic with float
example : chk (unflatten {} [{ name := s%"custom_main", lines := [[(s%"ocid", (.str s%"1")), (s%"id", (.int (2))), (s%"testA", (.float ⟨s%"3.0", (.fin false 3 (0))⟩))]] }])
  [(.obj [(s%"ocid", (.leaf (.str s%"1"))), (s%"id", (.leaf (.int (2)))), (s%"testA", (.leaf (.int (3))))])] 0 = true := by decide +kernel
-- Basic with zero
example : chk (unflatten {} [{ name := s%"custom_main", lines := [[(s%"ocid", (.str s%"1")), (s%"id", (.int (2))), (s%"testA", (.int (0)))]] }])
  [(.obj [(s%"ocid", (.leaf (.str s%"1"))), (s%"id", (.leaf (.int (2)))), (s%"testA", (.leaf (.int (0))))])] 0 = true := by decide +kernel
-- Basic with date-time
example : chk (unflatten {} [{ name := s%"custom_main", lines := [[(s%"ocid", (.str s%"1")), (s%"id", (.int (2))), (s%"testDateTime", (.datetime ⟨s%"2020-01-01 00:00:00", s%"2020-01-01T00:00:00+00:00", s%"2020-01-01"⟩))]] }])
  [(.obj [(s%"ocid", (.leaf (.str s%"1"))), (s%"id", (.leaf (.int (2)))), (s%"testDateTime", (.leaf (.str s%"2020-01-01T00:00:00+00:00")))])] 0 = true := by decide +kernel
-- Nested
example : chk (unflatten {} [{ name := s%"custom_main", lines := [[(s%"ocid", (.str s%"1")), (s%"id", (.int (2))), (s%"testO/testB", (.int (3))), (s%"testO/testC", (.int (4)))]] }])
  [(.obj [(s%"ocid", (.leaf (.str s%"1"))), (s%"id", (.leaf (.int (2)))), (s%"testO", (.obj [(s%"testB", (.leaf (.int (3)))), (s%"testC", (.leaf (.int (4))))]))])] 0 = true := by decide +kernel
-- Unicode
example : chk (unflatten {} [{ name := s%"custom_main", lines := [[(s%"ocid", (.str s%"éαГ😼𝒞人")), (s%"testU", (.str s%"éαГ😼𝒞人"))]] }])
  [(.obj [(s%"ocid", (.leaf (.str s%"éαГ😼𝒞人"))), (s%"testU", (.leaf (.str s%"éαГ😼𝒞人")))])] 0 = true := by decide +kernel
-- Single item array
example : chk (unflatten {} [{ name := s%"custom_main", lines := [[(s%"ocid", (.str s%"1")), (s%"id", (.int (2))), (s%"testL/0/id", (.int (3))), (s%"testL/0/testB", (.int (4)))]] }])
  [(.obj [(s%"ocid", (.leaf (.str s%"1"))), (s%"id", (.leaf (.int (2)))), (s%"testL", (.arr [(.obj [(s%"id", (.leaf (.int (3)))), (s%"testB", (.leaf (.int (4))))])]))])] 0 = true := by decide +kernel
-- Single item array without parent ID
example : chk (unflatten {} [{ name := s%"custom_main", lines := [[(s%"ocid", (.str s%"1")), (s%"testL/0/id", (.str s%"2")), (s%"testL/0/testB", (.str s%"3"))]] }])
  [(.obj [(s%"ocid", (.leaf (.str s%"1"))), (s%"testL", (.arr [(.obj [(s%"id", (.leaf (.str s%"2"))), (s%"testB", (.leaf (.str s%"3")))])]))])] 0 = true := by decide +kernel
-- Empty
example : chk (unflatten {} [{ name := s%"custom_main", lines := [[(s%"ocid", (.str s%"")), (s%"id", (.str s%"")), (s%"testA", (.str s%"")), (s%"testB", (.str s%"")), (s%"testC", (.str s%"")), (s%"testD", (.str s%"")), (s%"testE", (.str s%""))]] }])
  [] 0 = true := by decide +kernel
-- Empty except for root id
example : chk (unflatten {} [{ name := s%"custom_main", lines := [[(s%"ocid", (.int (1))), (s%"id", (.str s%"")), (s%"testA", (.str s%"")), (s%"testB", (.str s%"")), (s%"testC", (.str s%"")), (s%"testD", (.str s%"")), (s%"testE", (.str s%""))]] }])
  [(.obj [(s%"ocid", (.leaf (.int (1))))])] 0 = true := by decide +kernel
-- Mismatch of object/array for field not in schema
example : chk (unflatten {} [{ name := s%"custom_main", lines := [[(s%"ocid", (.int (1))), (s%"id", (.int (2))), (s%"newtest/a", (.int (3))), (s%"newtest/0/a", (.int (4)))]] }])
  [(.obj [(s%"ocid", (.leaf (.int (1)))), (s%"id", (.leaf (.int (2)))), (s%"newtest", (.obj [(s%"a", (.leaf (.int (3))))]))])] 1 = true := by decide +kernel
-- Mismatch of array/object for field not in schema
example : chk (unflatten {} [{ name := s%"custom_main", lines := [[(s%"ocid", (.int (1))), (s%"id", (.int (2))), (s%"newtest/0/a", (.int (4))), (s%"newtest/a", (.int (3)))]] }])
  [(.obj [(s%"ocid", (.leaf (.int (1)))), (s%"id", (.leaf (.int (2)))), (s%"newtest", (.arr [(.obj [(s%"a", (.leaf (.int (4))))])]))])] 1 = true := by decide +kernel
-- str / array mixing
example : chk (unflatten {} [{ name := s%"custom_main", lines := [[(s%"ocid", (.int (1))), (s%"id", (.int (2))), (s%"newtest", (.int (3))), (s%"newtest/0/a", (.int (4)))]] }])
  [(.obj [(s%"ocid", (.leaf (.int (1)))), (s%"id", (.leaf (.int (2)))), (s%"newtest", (.leaf (.int (3))))])] 1 = true := by decide +kernel
-- str / object mixing
example : chk (unflatten {} [{ name := s%"custom_main", lines := [[(s%"ocid", (.int (1))), (s%"id", (.int (2))), (s%"newtest", (.int (3))), (s%"newtest/a", (.int (4)))]] }])
  [(.obj [(s%"ocid", (.leaf (.int (1)))), (s%"id", (.leaf (.int (2)))), (s%"newtest", (.leaf (.int (3))))])] 1 = true := by decide +kernel
-- array / str mixing
example : chk (unflatten {} [{ name := s%"custom_main", lines := [[(s%"ocid", (.int (1))), (s%"id", (.int (2))), (s%"nest/newtest/0/a", (.int (3))), (s%"nest/newtest", (.int (4)))]] }])
  [(.obj [(s%"ocid", (.leaf (.int (1)))), (s%"id", (.leaf (.int (2)))), (s%"nest", (.obj [(s%"newtest", (.arr [(.obj [(s%"a", (.leaf (.int (3))))])]))]))])] 1 = true := by decide +kernel
-- object / str mixing
example : chk (unflatten {} [{ name := s%"custom_main", lines := [[(s%"ocid", (.int (1))), (s%"id", (.int (2))), (s%"newtest/a", (.int (3))), (s%"newtest", (.int (4)))]] }])
  [(.obj [(s%"ocid", (.leaf (.int (1)))), (s%"id", (.leaf (.int (2)))), (s%"newtest", (.obj [(s%"a", (.leaf (.int (3))))]))])] 1 = true := by decide +kernel
-- Mismatch of object/array for field not in schema (multiline)
example : chk (unflatten {} [{ name := s%"custom_main", lines := [[(s%"ocid", (.int (1))), (s%"id", (.int (2))), (s%"nest/newtest/a", (.int (3)))], [(s%"ocid", (.int (1))), (s%"id", (.int (2))), (s%"nest/newtest/0/a", (.int (4)))]] }])
  [(.obj [(s%"ocid", (.leaf (.int (1)))), (s%"id", (.leaf (.int (2)))), (s%"nest", (.obj [(s%"newtest", (.obj [(s%"a", (.leaf (.int (3))))]))]))])] 1 = true := by decide +kernel
-- Mismatch of array/object for field not in schema (multiline)
example : chk (unflatten {} [{ name := s%"custom_main", lines := [[(s%"ocid", (.int (1))), (s%"id", (.int (2))), (s%"newtest/0/a", (.int (4)))], [(s%"ocid", (.int (1))), (s%"id", (.int (2))), (s%"newtest/a", (.int (3)))]] }])
  [(.obj [(s%"ocid", (.leaf (.int (1)))), (s%"id", (.leaf (.int (2)))), (s%"newtest", (.arr [(.obj [(s%"a", (.leaf (.int (4))))])]))])] 1 = true := by decide +kernel
-- str / array mixing multiline
example : chk (unflatten {} [{ name := s%"custom_main", lines := [[(s%"ocid", (.int (1))), (s%"id", (.int (2))), (s%"nest/newtest", (.int (3)))], [(s%"ocid", (.int (1))), (s%"id", (.int (2))), (s%"nest/newtest/0/a", (.int (4))), (s%"nest/newtest/0/b", (.int (5)))]] }])
  [(.obj [(s%"ocid", (.leaf (.int (1)))), (s%"id", (.leaf (.int (2)))), (s%"nest", (.obj [(s%"newtest", (.leaf (.int (3))))]))])] 2 = true := by decide +kernel
-- array / str mixing multiline
example : chk (unflatten {} [{ name := s%"custom_main", lines := [[(s%"ocid", (.int (1))), (s%"id", (.int (2))), (s%"nest/newtest/0/a", (.int (4)))], [(s%"ocid", (.int (1))), (s%"id", (.int (2))), (s%"nest/newtest", (.int (3)))]] }])
  [(.obj [(s%"ocid", (.leaf (.int (1)))), (s%"id", (.leaf (.int (2)))), (s%"nest", (.obj [(s%"newtest", (.arr [(.obj [(s%"a", (.leaf (.int (4))))])]))]))])] 1 = true := by decide +kernel
-- str / object mixing multiline
example : chk (unflatten {} [{ name := s%"custom_main", lines := [[(s%"ocid", (.int (1))), (s%"id", (.int (2))), (s%"newtest", (.int (3)))], [(s%"ocid", (.int (1))), (s%"id", (.int (2))), (s%"newtest/a", (.int (4))), (s%"newtest/b", (.int (5)))]] }])
  [(.obj [(s%"ocid", (.leaf (.int (1)))), (s%"id", (.leaf (.int (2)))), (s%"newtest", (.leaf (.int (3))))])] 2 = true := by decide +kernel
-- object / str mixing multiline
example : chk (unflatten {} [{ name := s%"custom_main", lines := [[(s%"ocid", (.int (1))), (s%"id", (.int (2))), (s%"newtest/a", (.int (4)))], [(s%"ocid", (.int (1))), (s%"id", (.int (2))), (s%"newtest", (.int (3)))]] }])
  [(.obj [(s%"ocid", (.leaf (.int (1)))), (s%"id", (.leaf (.int (2)))), (s%"newtest", (.obj [(s%"a", (.leaf (.int (4))))]))])] 1 = true := by decide +kernel
-- Root ID is missing
example : chk (unflatten {} [{ name := s%"custom_main", lines := [[(s%"id", (.int (2))), (s%"testA", (.int (3)))]] }])
  [(.obj [(s%"id", (.leaf (.int (2)))), (s%"testA", (.leaf (.int (3))))])] 0 = true := by decide +kernel
-- Basic flat
example : chk (unflatten { rootId := none } [{ name := s%"custom_main", lines := [[(s%"id", (.int (2))), (s%"testA", (.int (3)))]] }])
  [(.obj [(s%"id", (.leaf (.int (2)))), (s%"testA", (.leaf (.int (3))))])] 0 = true := by decide +kernel
-- Basic with float
example : chk (unflatten { rootId := none } [{ name := s%"custom_main", lines := [[(s%"id", (.int (2))), (s%"testA", (.float ⟨s%"3.0", (.fin false 3 (0))⟩))]] }])
  [(.obj [(s%"id", (.leaf (.int (2)))), (s%"testA", (.leaf (.int (3))))])] 0 = true := by decide +kernel
-- Basic with zero
example : chk (unflatten { rootId := none } [{ name := s%"custom_main", lines := [[(s%"id", (.int (2))), (s%"testA", (.int (0)))]] }])
  [(.obj [(s%"id", (.leaf (.int (2)))), (s%"testA", (.leaf (.int (0))))])] 0 = true := by decide +kernel
-- Basic with date-time
example : chk (unflatten { rootId := none } [{ name := s%"custom_main", lines := [[(s%"id", (.int (2))), (s%"testDateTime", (.datetime ⟨s%"2020-01-01 00:00:00", s%"2020-01-01T00:00:00+00:00", s%"2020-01-01"⟩))]] }])
  [(.obj [(s%"id", (.leaf (.int (2)))), (s%"testDateTime", (.leaf (.str s%"2020-01-01T00:00:00+00:00")))])] 0 = true := by decide +kernel
-- Nested
example : chk (unflatten { rootId := none } [{ name := s%"custom_main", lines := [[(s%"id", (.int (2))), (s%"testO/testB", (.int (3))), (s%"testO/testC", (.int (4)))]] }])
  [(.obj [(s%"id", (.leaf (.int (2)))), (s%"testO", (.obj [(s%"testB", (.leaf (.int (3)))), (s%"testC", (.leaf (.int (4))))]))])] 0 = true := by decide +kernel
-- Unicode
example : chk (unflatten { rootId := none } [{ name := s%"custom_main", lines := [[(s%"testU", (.str s%"éαГ😼𝒞人"))]] }])
  [(.obj [(s%"testU", (.leaf (.str s%"éαГ😼𝒞人")))])] 0 = true := by decide +kernel
-- Single item array
example : chk (unflatten { rootId := none } [{ name := s%"custom_main", lines := [[(s%"id", (.int (2))), (s%"testL/0/id", (.int (3))), (s%"testL/0/testB", (.int (4)))]] }])
  [(.obj [(s%"id", (.leaf (.int (2)))), (s%"testL", (.arr [(.obj [(s%"id", (.leaf (.int (3)))), (s%"testB", (.leaf (.int (4))))])]))])] 0 = true := by decide +kernel
-- Single item array without parent ID
example : chk (unflatten { rootId := none } [{ name := s%"custom_main", lines := [[(s%"testL/0/id", (.str s%"2")), (s%"testL/0/testB", (.str s%"3"))]] }])
  [(.obj [(s%"testL", (.arr [(.obj [(s%"id", (.leaf (.str s%"2"))), (s%"testB", (.leaf (.str s%"3")))])]))])] 0 = true := by decide +kernel
-- Empty
example : chk (unflatten { rootId := none } [{ name := s%"custom_main", lines := [[(s%"id", (.str s%"")), (s%"testA", (.str s%"")), (s%"testB", (.str s%"")), (s%"testC", (.str s%"")), (s%"testD", (.str s%"")), (s%"testE", (.str s%""))]] }])
  [] 0 = true := by decide +kernel
-- Mismatch of object/array for field not in schema
example : chk (unflatten { rootId := none } [{ name := s%"custom_main", lines := [[(s%"id", (.int (2))), (s%"newtest/a", (.int (3))), (s%"newtest/0/a", (.int (4)))]] }])
  [(.obj [(s%"id", (.leaf (.int (2)))), (s%"newtest", (.obj [(s%"a", (.leaf (.int (3))))]))])] 1 = true := by decide +kernel
-- Mismatch of array/object for field not in schema
example : chk (unflatten { rootId := none } [{ name := s%"custom_main", lines := [[(s%"id", (.int (2))), (s%"newtest/0/a", (.int (4))), (s%"newtest/a", (.int (3)))]] }])
  [(.obj [(s%"id", (.leaf (.int (2)))), (s%"newtest", (.arr [(.obj [(s%"a", (.leaf (.int (4))))])]))])] 1 = true := by decide +kernel
-- str / array mixing
example : chk (unflatten { rootId := none } [{ name := s%"custom_main", lines := [[(s%"id", (.int (2))), (s%"newtest", (.int (3))), (s%"newtest/0/a", (.int (4)))]] }])
  [(.obj [(s%"id", (.leaf (.int (2)))), (s%"newtest", (.leaf (.int (3))))])] 1 = true := by decide +kernel
-- str / object mixing
example : chk (unflatten { rootId := none } [{ name := s%"custom_main", lines := [[(s%"id", (.int (2))), (s%"newtest", (.int (3))), (s%"newtest/a", (.int (4)))]] }])
  [(.obj [(s%"id", (.leaf (.int (2)))), (s%"newtest", (.leaf (.int (3))))])] 1 = true := by decide +kernel
-- array / str mixing
example : chk (unflatten { rootId := none } [{ name := s%"custom_main", lines := [[(s%"id", (.int (2))), (s%"nest/newtest/0/a", (.int (3))), (s%"nest/newtest", (.int (4)))]] }])
  [(.obj [(s%"id", (.leaf (.int (2)))), (s%"nest", (.obj [(s%"newtest", (.arr [(.obj [(s%"a", (.leaf (.int (3))))])]))]))])] 1 = true := by decide +kernel
-- object / str mixing
example : chk (unflatten { rootId := none } [{ name := s%"custom_main", lines := [[(s%"id", (.int (2))), (s%"newtest/a", (.int (3))), (s%"newtest", (.int (4)))]] }])
  [(.obj [(s%"id", (.leaf (.int (2)))), (s%"newtest", (.obj [(s%"a", (.leaf (.int (3))))]))])] 1 = true := by decide +kernel
-- Mismatch of object/array for field not in schema (multiline)
example : chk (unflatten { rootId := none } [{ name := s%"custom_main", lines := [[(s%"id", (.int (2))), (s%"nest/newtest/a", (.int (3)))], [(s%"id", (.int (2))), (s%"nest/newtest/0/a", (.int (4)))]] }])
  [(.obj [(s%"id", (.leaf (.int (2)))), (s%"nest", (.obj [(s%"newtest", (.obj [(s%"a", (.leaf (.int (3))))]))]))])] 1 = true := by decide +kernel
-- Mismatch of array/object for field not in schema (multiline)
example : chk (unflatten { rootId := none } [{ name := s%"custom_main", lines := [[(s%"id", (.int (2))), (s%"newtest/0/a", (.int (4)))], [(s%"id", (.int (2))), (s%"newtest/a", (.int (3)))]] }])
  [(.obj [(s%"id", (.leaf (.int (2)))), (s%"newtest", (.arr [(.obj [(s%"a", (.leaf (.int (4))))])]))])] 1 = true := by decide +kernel
-- str / array mixing multiline
example : chk (unflatten { rootId := none } [{ name := s%"custom_main", lines := [[(s%"id", (.int (2))), (s%"nest/newtest", (.int (3)))], [(s%"id", (.int (2))), (s%"nest/newtest/0/a", (.int (4))), (s%"nest/newtest/0/b", (.int (5)))]] }])
  [(.obj [(s%"id", (.leaf (.int (2)))), (s%"nest", (.obj [(s%"newtest", (.leaf (.int (3))))]))])] 2 = true := by decide +kernel
-- array / str mixing multiline
example : chk (unflatten { rootId := none } [{ name := s%"custom_main", lines := [[(s%"id", (.int (2))), (s%"nest/newtest/0/a", (.int (4)))], [(s%"id", (.int (2))), (s%"nest/newtest", (.int (3)))]] }])
  [(.obj [(s%"id", (.leaf (.int (2)))), (s%"nest", (.obj [(s%"newtest", (.arr [(.obj [(s%"a", (.leaf (.int (4))))])]))]))])] 1 = true := by decide +kernel
-- str / object mixing multiline
example : chk (unflatten { rootId := none } [{ name := s%"custom_main", lines := [[(s%"id", (.int (2))), (s%"newtest", (.int (3)))], [(s%"id", (.int (2))), (s%"newtest/a", (.int (4))), (s%"newtest/b", (.int (5)))]] }])
  [(.obj [(s%"id", (.leaf (.int (2)))), (s%"newtest", (.leaf (.int (3))))])] 2 = true := by decide +kernel
-- object / str mixing multiline
example : chk (unflatten { rootId := none } [{ name := s%"custom_main", lines := [[(s%"id", (.int (2))), (s%"newtest/a", (.int (4)))], [(s%"id", (.int (2))), (s%"newtest", (.int (3)))]] }])
  [(.obj [(s%"id", (.leaf (.int (2)))), (s%"newtest", (.obj [(s%"a", (.leaf (.int (4))))]))])] 1 = true := by decide +kernel
-- Root ID is missing
example : chk (unflatten { rootId := none } [{ name := s%"custom_main", lines := [[(s%"id", (.int (2))), (s%"testA", (.int (3)))]] }])
  [(.obj [(s%"id", (.leaf (.int (2)))), (s%"testA", (.leaf (.int (3))))])] 0 = true := by decide +kernel
-- Basic sub sheet
example : chk (unflatten {} [{ name := s%"custom_main", lines := [[(s%"ocid", (.int (1))), (s%"id", (.int (2)))], [(s%"ocid", (.int (1))), (s%"id", (.int (3)))]] }, { name := s%"testArr", lines := [[(s%"ocid", (.int (1))), (s%"id", (.int (2))), (s%"testArr/0/testC", (.str s%"3"))], [(s%"ocid", (.int (1))), (s%"id", (.int (2))), (s%"testArr/0/testC", (.str s%"4"))]] }])
  [(.obj [(s%"ocid", (.leaf (.int (1)))), (s%"id", (.leaf (.int (2)))), (s%"testArr", (.arr [(.obj [(s%"testC", (.leaf (.str s%"3")))]), (.obj [(s%"testC", (.leaf (.str s%"4")))])]))]), (.obj [(s%"ocid", (.leaf (.int (1)))), (s%"id", (.leaf (.int (3))))])] 0 = true := by decide +kernel
-- Nested sub sheet (with id)
example : chk (unflatten {} [{ name := s%"custom_main", lines := [[(s%"ocid", (.int (1))), (s%"id", (.int (2))), (s%"testB/id", (.int (3))), (s%"testB/testC", (.int (4)))]] }, { name := s%"tes_subField", lines := [[(s%"ocid", (.int (1))), (s%"id", (.int (2))), (s%"testB/id", (.int (3))), (s%"testB/subField/0/testD", (.int (5)))]] }])
  [(.obj [(s%"ocid", (.leaf (.int (1)))), (s%"id", (.leaf (.int (2)))), (s%"testB", (.obj [(s%"id", (.leaf (.int (3)))), (s%"testC", (.leaf (.int (4)))), (s%"subField", (.arr [(.obj [(s%"testD", (.leaf (.int (5))))])]))]))])] 0 = true := by decide +kernel
-- Nested sub sheet (without id)
example : chk (unflatten {} [{ name := s%"custom_main", lines := [[(s%"ocid", (.int (1))), (s%"id", (.int (2))), (s%"testB/id", (.int (3))), (s%"testB/testC", (.int (4)))]] }, { name := s%"sub", lines := [[(s%"ocid", (.int (1))), (s%"id", (.int (2))), (s%"testB/subField/0/testD", (.int (5)))]] }])
  [(.obj [(s%"ocid", (.leaf (.int (1)))), (s%"id", (.leaf (.int (2)))), (s%"testB", (.obj [(s%"id", (.leaf (.int (3)))), (s%"testC", (.leaf (.int (4)))), (s%"subField", (.arr [(.obj [(s%"testD", (.leaf (.int (5))))])]))]))])] 0 = true := by decide +kernel
-- Basic two sub sheets
example : chk (unflatten {} [{ name := s%"custom_main", lines := [[(s%"ocid", (.int (1))), (s%"id", (.int (2)))], [(s%"ocid", (.int (1))), (s%"id", (.int (6)))]] }, { name := s%"sub1Field", lines := [[(s%"ocid", (.int (1))), (s%"id", (.int (2))), (s%"sub1Field/0/id", (.int (3))), (s%"sub1Field/0/testA", (.int (4)))]] }, { name := s%"sub_sub2Field", lines := [[(s%"ocid", (.int (1))), (s%"id", (.int (2))), (s%"sub1Field/0/id", (.int (3))), (s%"sub1Field/0/sub2Field/0/testB", (.int (5)))]] }])
  [(.obj [(s%"ocid", (.leaf (.int (1)))), (s%"id", (.leaf (.int (2)))), (s%"sub1Field", (.arr [(.obj [(s%"id", (.leaf (.int (3)))), (s%"testA", (.leaf (.int (4)))), (s%"sub2Field", (.arr [(.obj [(s%"testB", (.leaf (.int (5))))])]))])]))]), (.obj [(s%"ocid", (.leaf (.int (1)))), (s%"id", (.leaf (.int (6))))])] 0 = true := by decide +kernel
-- Nested id
example : chk (unflatten {} [{ name := s%"custom_main", lines := [[(s%"ocid", (.int (1))), (s%"id", (.int (2)))]] }, { name := s%"subField", lines := [[(s%"ocid", (.int (1))), (s%"id", (.int (2))), (s%"subField/0/id", (.int (3))), (s%"subField/0/testA/id", (.int (4)))]] }])
  [(.obj [(s%"ocid", (.leaf (.int (1)))), (s%"id", (.leaf (.int (2)))), (s%"subField", (.arr [(.obj [(s%"id", (.leaf (.int (3)))), (s%"testA", (.obj [(s%"id", (.leaf (.int (4))))]))])]))])] 0 = true := by decide +kernel
-- Missing columns
example : chk (unflatten {} [{ name := s%"custom_main", lines := [[(s%"ocid", (.int (1))), (s%"id", (.int (2)))]] }, { name := s%"sub", lines := [[(s%"ocid", (.int (1))), (s%"id", (.str s%"")), (s%"subField/0/id", (.int (3))), (s%"subField/0/testA", (.int (4)))], [(s%"ocid", (.int (1))), (s%"id", (.int (2))), (s%"subField/0/id", (.int (3))), (s%"subField/0/testA", (.int (5)))]] }])
  [(.obj [(s%"ocid", (.leaf (.int (1)))), (s%"id", (.leaf (.int (2)))), (s%"subField", (.arr [(.obj [(s%"id", (.leaf (.int (3)))), (s%"testA", (.leaf (.int (5))))])]))]), (.obj [(s%"ocid", (.leaf (.int (1)))), (s%"subField", (.arr [(.obj [(s%"id", (.leaf (.int (3)))), (s%"testA", (.leaf (.int (4))))])]))])] 0 = true := by decide +kernel
-- Unmatched id
example : chk (unflatten {} [{ name := s%"custom_main", lines := [[(s%"ocid", (.int (1))), (s%"id", (.int (2)))]] }, { name := s%"sub", lines := [[(s%"ocid", (.int (1))), (s%"id", (.int (100))), (s%"subField/0/id", (.int (3))), (s%"subField/0/testA", (.int (4)))], [(s%"ocid", (.int (1))), (s%"id", (.int (2))), (s%"subField/0/id", (.int (3))), (s%"subField/0/testA", (.int (5)))]] }])
  [(.obj [(s%"ocid", (.leaf (.int (1)))), (s%"id", (.leaf (.int (2)))), (s%"subField", (.arr [(.obj [(s%"id", (.leaf (.int (3)))), (s%"testA", (.leaf (.int (5))))])]))]), (.obj [(s%"ocid", (.leaf (.int (1)))), (s%"id", (.leaf (.int (100)))), (s%"subField", (.arr [(.obj [(s%"id", (.leaf (.int (3)))), (s%"testA", (.leaf (.int (4))))])]))])] 0 = true := by decide +kernel
-- Test same rollup
example : chk (unflatten {} [{ name := s%"main", lines := [[(s%"ocid", (.int (1))), (s%"id", (.int (2))), (s%"testC", (.int (3))), (s%"testArr/0/id", (.str s%"4")), (s%"testArr/0/testB", (.str s%"5"))], [(s%"ocid", (.int (6))), (s%"id", (.int (7))), (s%"testC", (.int (8))), (s%"testArr/0/testB", (.str s%"9"))]] }, { name := s%"testArr", lines := [[(s%"ocid", (.int (1))), (s%"id", (.int (2))), (s%"testArr/0/id", (.str s%"4")), (s%"testArr/0/testB", (.str s%"5"))], [(s%"ocid", (.int (6))), (s%"id", (.int (7))), (s%"testArr/0/testB", (.str s%"9"))]] }])
  [(.obj [(s%"ocid", (.leaf (.int (1)))), (s%"id", (.leaf (.int (2)))), (s%"testC", (.leaf (.int (3)))), (s%"testArr", (.arr [(.obj [(s%"id", (.leaf (.str s%"4"))), (s%"testB", (.leaf (.str s%"5")))])]))]), (.obj [(s%"ocid", (.leaf (.int (6)))), (s%"id", (.leaf (.int (7)))), (s%"testC", (.leaf (.int (8)))), (s%"testArr", (.arr [(.obj [(s%"testB", (.leaf (.str s%"9")))]), (.obj [(s%"testB", (.leaf (.str s%"9")))])]))])] 0 = true := by decide +kernel
-- Test conflicting rollup
example : chk (unflatten {} [{ name := s%"main", lines := [[(s%"ocid", (.int (1))), (s%"id", (.int (2))), (s%"testArr/0/id", (.str s%"3")), (s%"testArr/0/testB", (.str s%"4"))]] }, { name := s%"testArr", lines := [[(s%"ocid", (.int (1))), (s%"id", (.int (2))), (s%"testArr/0/id", (.str s%"3")), (s%"testArr/0/testB", (.str s%"5"))]] }])
  [(.obj [(s%"ocid", (.leaf (.int (1)))), (s%"id", (.leaf (.int (2)))), (s%"testArr", (.arr [(.obj [(s%"id", (.leaf (.str s%"3"))), (s%"testB", (.leaf (.str s%"4")))])]))])] 1 = true := by decide +kernel
-- Unflatten empty
example : chk (unflatten {} [{ name := s%"custom_main", lines := [] }, { name := s%"subsheet", lines := [[(s%"ocid", (.str s%"")), (s%"id", (.str s%"")), (s%"testA", (.str s%"")), (s%"testB", (.str s%"")), (s%"testC", (.str s%"")), (s%"testD", (.str s%""))]] }])
  [] 0 = true := by decide +kernel
-- Basic sub sheet
example : chk (unflatten { rootId := none } [{ name := s%"custom_main", lines := [[(s%"id", (.int (2)))], [(s%"id", (.int (3)))]] }, { name := s%"testArr", lines := [[(s%"id", (.int (2))), (s%"testArr/0/testC", (.str s%"3"))], [(s%"id", (.int (2))), (s%"testArr/0/testC", (.str s%"4"))]] }])
  [(.obj [(s%"id", (.leaf (.int (2)))), (s%"testArr", (.arr [(.obj [(s%"testC", (.leaf (.str s%"3")))]), (.obj [(s%"testC", (.leaf (.str s%"4")))])]))]), (.obj [(s%"id", (.leaf (.int (3))))])] 0 = true := by decide +kernel
-- Nested sub sheet (with id)
example : chk (unflatten { rootId := none } [{ name := s%"custom_main", lines := [[(s%"id", (.int (2))), (s%"testB/id", (.int (3))), (s%"testB/testC", (.int (4)))]] }, { name := s%"tes_subField", lines := [[(s%"id", (.int (2))), (s%"testB/id", (.int (3))), (s%"testB/subField/0/testD", (.int (5)))]] }])
  [(.obj [(s%"id", (.leaf (.int (2)))), (s%"testB", (.obj [(s%"id", (.leaf (.int (3)))), (s%"testC", (.leaf (.int (4)))), (s%"subField", (.arr [(.obj [(s%"testD", (.leaf (.int (5))))])]))]))])] 0 = true := by decide +kernel
-- Nested sub sheet (without id)
example : chk (unflatten { rootId := none } [{ name := s%"custom_main", lines := [[(s%"id", (.int (2))), (s%"testB/id", (.int (3))), (s%"testB/testC", (.int (4)))]] }, { name := s%"sub", lines := [[(s%"id", (.int (2))), (s%"testB/subField/0/testD", (.int (5)))]] }])
  [(.obj [(s%"id", (.leaf (.int (2)))), (s%"testB", (.obj [(s%"id", (.leaf (.int (3)))), (s%"testC", (.leaf (.int (4)))), (s%"subField", (.arr [(.obj [(s%"testD", (.leaf (.int (5))))])]))]))])] 0 = true := by decide +kernel
-- Basic two sub sheets
example : chk (unflatten { rootId := none } [{ name := s%"custom_main", lines := [[(s%"id", (.int (2)))], [(s%"id", (.int (6)))]] }, { name := s%"sub1Field", lines := [[(s%"id", (.int (2))), (s%"sub1Field/0/id", (.int (3))), (s%"sub1Field/0/testA", (.int (4)))]] }, { name := s%"sub_sub2Field", lines := [[(s%"id", (.int (2))), (s%"sub1Field/0/id", (.int (3))), (s%"sub1Field/0/sub2Field/0/testB", (.int (5)))]] }])
  [(.obj [(s%"id", (.leaf (.int (2)))), (s%"sub1Field", (.arr [(.obj [(s%"id", (.leaf (.int (3)))), (s%"testA", (.leaf (.int (4)))), (s%"sub2Field", (.arr [(.obj [(s%"testB", (.leaf (.int (5))))])]))])]))]), (.obj [(s%"id", (.leaf (.int (6))))])] 0 = true := by decide +kernel
-- Nested id
example : chk (unflatten { rootId := none } [{ name := s%"custom_main", lines := [[(s%"id", (.int (2)))]] }, { name := s%"subField", lines := [[(s%"id", (.int (2))), (s%"subField/0/id", (.int (3))), (s%"subField/0/testA/id", (.int (4)))]] }])
  [(.obj [(s%"id", (.leaf (.int (2)))), (s%"subField", (.arr [(.obj [(s%"id", (.leaf (.int (3)))), (s%"testA", (.obj [(s%"id", (.leaf (.int (4))))]))])]))])] 0 = true := by decide +kernel
-- Missing columns
example : chk (unflatten { rootId := none } [{ name := s%"custom_main", lines := [[(s%"id", (.int (2)))]] }, { name := s%"sub", lines := [[(s%"id", (.str s%"")), (s%"subField/0/id", (.int (3))), (s%"subField/0/testA", (.int (4)))], [(s%"id", (.int (2))), (s%"subField/0/id", (.int (3))), (s%"subField/0/testA", (.int (5)))]] }])
  [(.obj [(s%"id", (.leaf (.int (2)))), (s%"subField", (.arr [(.obj [(s%"id", (.leaf (.int (3)))), (s%"testA", (.leaf (.int (5))))])]))]), (.obj [(s%"subField", (.arr [(.obj [(s%"id", (.leaf (.int (3)))), (s%"testA", (.leaf (.int (4))))])]))])] 0 = true := by decide +kernel
-- Unmatched id
example : chk (unflatten { rootId := none } [{ name := s%"custom_main", lines := [[(s%"id", (.int (2)))]] }, { name := s%"sub", lines := [[(s%"id", (.int (100))), (s%"subField/0/id", (.int (3))), (s%"subField/0/testA", (.int (4)))], [(s%"id", (.int (2))), (s%"subField/0/id", (.int (3))), (s%"subField/0/testA", (.int (5)))]] }])
  [(.obj [(s%"id", (.leaf (.int (2)))), (s%"subField", (.arr [(.obj [(s%"id", (.leaf (.int (3)))), (s%"testA", (.leaf (.int (5))))])]))]), (.obj [(s%"id", (.leaf (.int (100)))), (s%"subField", (.arr [(.obj [(s%"id", (.leaf (.int (3)))), (s%"testA", (.leaf (.int (4))))])]))])] 0 = true := by decide +kernel
-- Test same rollup
example : chk (unflatten { rootId := none } [{ name := s%"main", lines := [[(s%"id", (.int (2))), (s%"testC", (.int (3))), (s%"testArr/0/id", (.str s%"4")), (s%"testArr/0/testB", (.str s%"5"))], [(s%"id", (.int (7))), (s%"testC", (.int (8))), (s%"testArr/0/testB", (.str s%"9"))]] }, { name := s%"testArr", lines := [[(s%"id", (.int (2))), (s%"testArr/0/id", (.str s%"4")), (s%"testArr/0/testB", (.str s%"5"))], [(s%"id", (.int (7))), (s%"testArr/0/testB", (.str s%"9"))]] }])
  [(.obj [(s%"id", (.leaf (.int (2)))), (s%"testC", (.leaf (.int (3)))), (s%"testArr", (.arr [(.obj [(s%"id", (.leaf (.str s%"4"))), (s%"testB", (.leaf (.str s%"5")))])]))]), (.obj [(s%"id", (.leaf (.int (7)))), (s%"testC", (.leaf (.int (8)))), (s%"testArr", (.arr [(.obj [(s%"testB", (.leaf (.str s%"9")))]), (.obj [(s%"testB", (.leaf (.str s%"9")))])]))])] 0 = true := by decide +kernel
-- Test conflicting rollup
example : chk (unflatten { rootId := none } [{ name := s%"main", lines := [[(s%"id", (.int (2))), (s%"testArr/0/id", (.str s%"3")), (s%"testArr/0/testB", (.str s%"4"))]] }, { name := s%"testArr", lines := [[(s%"id", (.int (2))), (s%"testArr/0/id", (.str s%"3")), (s%"testArr/0/testB", (.str s%"5"))]] }])
  [(.obj [(s%"id", (.leaf (.int (2)))), (s%"testArr", (.arr [(.obj [(s%"id", (.leaf (.str s%"3"))), (s%"testB", (.leaf (.str s%"4")))])]))])] 1 = true := by decide +kernel
-- Unflatten empty
example : chk (unflatten { rootId := none } [{ name := s%"custom_main", lines := [] }, { name := s%"subsheet", lines := [[(s%"id", (.str s%"")), (s%"testA", (.str s%"")), (s%"testB", (.str s%"")), (s%"testC", (.str s%"")), (s%"testD", (.str s%""))]] }])
  [] 0 = true := by decide +kernel
end Verif.Tests

