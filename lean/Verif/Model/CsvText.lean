import Verif.Py.Str
/-!
The text of CSV files: `csv.writer` as used by output.py:92-107, and `open(…)`, `NullCharacterFilter` (input.py:56-67) and `csv.reader` as used by
input.py:644-650, 691-709.  The encoding of texts as bytes (UTF-8) is not modelled.
-/
namespace Verif.Csv

/-! #### Writing (`csv.writer`, dialect `excel`: delimiter `,`, quote `"`, minimal quoting) -/

/-- output.py:175, __init__.py:62, 161: `LINE_TERMINATORS`. -/
def terminator (name : Str) : Str := if name = s%"LF" then s%"\n" else s%"\r\n"

/-- CPython `Modules/_csv.c`, `join_append_data`: the characters that make a field be quoted.  (The line terminators `\n` and `\r\n` have no others.  In earlier
versions of Python `\r` counts only if it is in the line terminator; that is not modelled.) -/
def special (c : Char) : Bool := c = ',' || c = '"' || c = '\n' || c = '\r'

/-- Quotes are doubled inside of a quoted field. -/
def escape (s : Str) : Str := s.flatMap (fun c => if c = '"' then ['"', '"'] else [c])

/-- One field. -/
def writeField (s : Str) : Str := if s.any special then '"' :: (escape s ++ ['"']) else s

/-- The fields of a row, with commas between. -/
def joinFields : List Str → Str
  | [] => []
  | [f] => f
  | f :: r => f ++ ',' :: joinFields r

/-- `csv_writerow`: a row with one empty field only is written as `""`. -/
def writeRow (lineTerminator : Str) (row : List Str) : Str :=
  if row = [[]] then ['"', '"'] ++ lineTerminator else joinFields (row.map writeField) ++ lineTerminator

/-- output.py:103-107: header and lines. -/
def writeText (lineTerminator : Str) (rows : List (List Str)) : Str := rows.flatMap (writeRow lineTerminator)

/-! #### Reading -/

/-- `open(…)` without `newline=""` (input.py:644, 691, 702): universal newlines. -/
def universalNewlines : Str → Str
  | [] => []
  | '\r' :: '\n' :: r => '\n' :: universalNewlines r
  | '\r' :: r => '\n' :: universalNewlines r
  | c :: r => c :: universalNewlines r

/-- The lines of a file, each with its newline; the last may have none. -/
def lines : Str → List Str
  | [] => []
  | c :: r =>
    if c = '\n' then [c] :: lines r
    else match lines r with
      | [] => [[c]]
      | l :: ls => (c :: l) :: ls

/-- `NullCharacterFilter` (input.py:63-67). -/
def dropNulls (s : Str) : Str := s.filter (· ≠ Char.ofNat 0)

/-- The states of `csv.reader`. -/
inductive State where
  | startRecord | startField | inField | inQuoted | quoteInQuoted | eatNewline
  deriving DecidableEq

/-- A `csv.reader`: its state, the current field, and the fields of the current record so far. -/
structure Reader where
  state : State := .startRecord
  field : Str := []
  fields : List Str := []

/-- `csv.field_size_limit()`. -/
def fieldLimit : Nat := 131072

/-- `parse_save_field`. -/
def Reader.save (p : Reader) (st : State) : Reader := { state := st, field := [], fields := p.fields ++ [p.field] }

/-- `parse_add_char`: fails (`csv.Error`) on fields longer than the limit. -/
def Reader.add (p : Reader) (c : Char) (st : State) : Option Reader :=
  if p.field.length ≥ fieldLimit then none else some { p with state := st, field := p.field ++ [c] }

/-- `parse_process_char` in the state `START_FIELD`; `none` is the end of the line. -/
def Reader.atField (p : Reader) : Option Char → Option Reader
  | none => some (p.save .startRecord)
  | some c =>
    if c = '\n' ∨ c = '\r' then some (p.save .eatNewline)
    else if c = '"' then some { p with state := .inQuoted }
    else if c = ',' then some (p.save .startField)
    else p.add c .inField

/-- `Modules/_csv.c`, `parse_process_char` for the dialect `excel` (not strict, no escape character); the end of the line is `none`.  The result `none` is
`csv.Error`. -/
def Reader.step (p : Reader) (c : Option Char) : Option Reader :=
  match p.state with
  | .startRecord =>
    match c with
    | none => some p
    | some a => if a = '\n' ∨ a = '\r' then some { p with state := .eatNewline } else { p with state := .startField }.atField c
  | .startField => p.atField c
  | .inField =>
    match c with
    | none => some (p.save .startRecord)
    | some a =>
      if a = '\n' ∨ a = '\r' then some (p.save .eatNewline)
      else if a = ',' then some (p.save .startField)
      else p.add a .inField
  | .inQuoted =>
    match c with
    | none => some p
    | some a => if a = '"' then some { p with state := .quoteInQuoted } else p.add a .inQuoted
  | .quoteInQuoted =>
    match c with
    | none => some (p.save .startRecord)
    | some a =>
      if a = '"' then p.add a .inQuoted
      else if a = ',' then some (p.save .startField)
      else if a = '\n' ∨ a = '\r' then some (p.save .eatNewline)
      else p.add a .inField
  | .eatNewline =>
    match c with
    | none => some { p with state := .startRecord }
    | some a => if a = '\n' ∨ a = '\r' then some p else none

/-- The characters of a line. -/
def Reader.feed (p : Reader) : Str → Option Reader
  | [] => some p
  | c :: r =>
    match p.step (some c) with
    | none => none
    | some p' => p'.feed r

/-- `Reader_iternext`: a line, with the end of the line. -/
def Reader.line (p : Reader) (l : Str) : Option Reader :=
  match p.feed l with
  | none => none
  | some p' => p'.step none

/-- `Reader_iternext`: the records of the lines from a state on.  Simplification: the code reads lazily, so that an error in one record is raised only when that
record is asked for. -/
def records : List Str → Reader → Option (List (List Str))
  | [], p => some (if p.field ≠ [] ∨ p.state = .inQuoted then [p.fields ++ [p.field]] else [])
  | l :: r, p =>
    match p.line l with
    | none => none
    | some p' =>
      if p'.state = .startRecord then
        match records r {} with
        | none => none
        | some rs => some (p'.fields :: rs)
      else records r p'

/-- input.py:644-650: the rows of a CSV file with the given text. -/
def readText (text : Str) : Option (List (List Str)) := records ((lines (universalNewlines text)).map dropNulls) {}

end Verif.Csv
