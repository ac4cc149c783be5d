import Verif.Model.Readers
import Verif.Model.SchemaModel
/-!
`SpreadsheetInput.convert_dict_titles` (input.py:285-299) and the type map given to
the row builder by a parsed schema.
-/
namespace Verif

/-- input.py:285-299: replace the headings of a line by field paths.  (The lookup of
the root of the schema is always used: 291-292.) -/
def convertTitles (t : TitleTree) (l : Line) : Line :=
  dictOf (l.map (fun p => (p.1.map (lookupHeader t), p.2)))

/-- `parser.flattened.get` (input.py:1009-1010). -/
def Parsed.types (p : Parsed) : Str → Option CType := fun k => Dict.get p.flattened k

/-- `get_sub_sheets_lines` (input.py:336-346) with `convert_titles`; an empty lookup is false (input.py:294), and then the headings
are left as they are. -/
def titleSheets (t : TitleTree) (sheets : List SheetIn) : List SheetIn :=
  if t.children.isEmpty then sheets
  else sheets.map (fun s => { s with lines := s.lines.map (convertTitles t) })

end Verif
