import Verif.Model.Readers
/-! Specification vocabulary: the layout of a sheet. -/
namespace Verif

/-- How a sheet is laid out: an optional configuration line, `skip` rows, the heading row,
further header rows, data rows. -/
structure Layout (row : Type) where
  conf : Option (List Str)
  skipped : List row
  header : row
  extra : List row
  data : List row

/-- The rows of a sheet; `ofTexts` makes a row of texts. -/
def Layout.rows {row : Type} (ofTexts : List Str → row) (L : Layout row) : List row :=
  (match L.conf with | some items => [ofTexts (s%"#" :: items)] | none => []) ++
    (L.skipped ++ (L.header :: (L.extra ++ L.data)))

/-- The configuration in force for a layout: that of the configuration line if there is one,
otherwise that given by the user; none at all when configuration is disabled. -/
def Layout.config {row : Type} (rc : ReadCfg) (L : Layout row) : SheetConfig :=
  if rc.useConfig then (match L.conf with | some items => parseConfig items | none => rc.base) else {}

/-- The layout fits: as many skipped and header rows as configured (1 header row by default), the
configuration line has at least one recognised option, and a sheet without a configuration line
does not look as if it had one. -/
structure Layout.Fits {row : Type} (rc : ReadCfg) (startsHash : row → Bool) (L : Layout row) : Prop where
  skip : (L.skipped.length : Int) = ((L.config rc).skipRows.getD 0)
  hdrs : (L.extra.length : Int) + 1 = ((L.config rc).headerRows.getD 1)
  conf : ∀ items, L.conf = some items → (parseConfig items).nonEmpty = true
  noconf : L.conf = none → startsHash ((L.skipped ++ [L.header]).headD L.header) = false
  keep : (L.config rc).ignore = false

/-- The row starts with a cell `#`. -/
def hashRow (r : List Str) : Bool := match r with | h :: _ => h = s%"#" | [] => false
def hashRowA (r : List Atom) : Bool := match r with | h :: _ => h = .str s%"#" | [] => false

end Verif
