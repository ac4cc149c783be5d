# Formal model of flatten-tool in Lean 4: design

## Layout

* `lean/Verif/Py/` – the Python primitives the code uses: `str` methods, `int()`, `Decimal()` and its text form, scalar values and Python's `==`.
* `lean/Verif/Model/` – the model of `/repo/flattentool`, function by function. Every definition cites the file and lines it models and says where it simplifies.
* `lean/Verif/Spec/` – small specifications, independent of the model's helpers, in which the theorems are stated (positions, content, coverage, groups of rows, XML elements, schema columns …).
* `lean/Verif/Proofs/` – lemmas.
* `lean/Verif/Props/` – the property theorems `Cnn_…`, each with concrete cases that meet the hypotheses (`example`), counterexamples where the obvious statement is false of the code, and the lemmas particular to them.
* `properties.jsonl` – the properties in English; `MANIFEST.json` – which theorems prove which; `seeded/LOG.jsonl` – the wrong programs tried against the theorems.

## Modelling choices

* Python `str` is `Str = List Char` (code points). `split`, `strip`, `rstrip("[]")`, `replace`, `lower`, `int()`, `Decimal()`, `str(Decimal)` are defined concretely.
  `lower` is exact for ASCII results (non-ASCII letters are left alone); `int()`/`Decimal()` accept all Unicode decimal digits, underscores and surrounding white space; CPython's limit of 4300 digits is not modelled.
* `dict`/`OrderedDict` are association lists in insertion order; assignment to an existing key keeps its place.
* Mutation becomes returning the new value. Exceptions are `Except Err` with one constructor per Python exception type. `warnings.warn` calls are collected in a list, in order, as structured values (`Warn`, `SWarn`), not as formatted text.
* `float` and `datetime` cells are modelled by the observations the code makes of them (`str()`, exact decimal value, ISO texts).
* Python `==` between values (`1 == True == Decimal(1)`) is `pyEq`, defined through a canonical form; C19 proves it to be numeric equality.
* Libraries (openpyxl, odfpy, ijson, ZODB, shapely, lxml, jsonref) are not modelled; where their results matter a parameter stands for them (geometry conversion, validity of XML names, the loader of references, the iteration order of sets), and theorems hold for every value of it.
* Inputs are taken after decoding: grids of cells, parsed JSON, parsed schemas, parsed XSD trees.

## What is modelled

| source | modelled | not modelled |
|--------|----------|--------------|
| `input.py` | `convert_type`, `warnings_for_ignored_columns`, `merge`, `convert_dict_titles`, `get_sub_sheets_lines`, `do_unflatten`, `unflatten`, `fancy_unflatten`, `extract_*`, the three readers on decoded grids, sheet selection and configuration, `list_as_dicts_to_temporary_dicts`, `unflatten_main_with_parser`, `TemporaryDict`, `temporarydicts_to_lists`, `path_search` as used for XML input | decoding of files other than the text of CSV files (`Model/CsvText.lean`), `datetime` arithmetic (parameters) |
| `json_input.py` | `sheet_key_*`, `lists_of_dicts_paths`, `dicts_to_list_of_dicts`, `list_dict_consistency`, `JSONParser.parse`, `parse_json_dict` (all options: filter, rollup, preserve fields, titles, XML mode, WKT, `remove_empty_schema_columns`), the preserve-fields list | reading JSON/XML files |
| `schema.py` | all of `SchemaParser.parse`/`parse_schema_dict`, `TitleLookup`, `make_sub_sheet_name`, `is_ref_local`, the reference loaders, `SchemaParser.__init__` | `jsonref` itself |
| `output.py`, `sheet.py` | writing order, file names and titles, rows of CSV and XLSX sheets, cells of ODS tables, `Sheet`, `PersistentSheet` over a store, the text of CSV files | byte formats |
| `ODSReader.py` | rows, repeated and covered cells, value types | XML decoding by odfpy, nested tables and row groups |
| `xml_output.py`, `sort_xml.py` | all (`toxml` without comment and text form; `XMLSchemaWalker` on parsed trees) | serialisation |
| `lib.py` | all | |
| `__init__.py` | `unflatten` as a whole (`Model/Main.lean`), `flatten` and `create_template` as a whole (`Model/FlattenMain.lean`: option checks, schema, rollup option, root list by `ijson` prefixes, parser options, formats, names, what is written), `decimal_datetime_default`, the JSON text | XML text form; the ijson and openpyxl libraries (openpyxl's titles are a parameter) |
| `cli.py` | options, parsing by `argparse`, the calls and the exit status (`Model/Cli.lean`) | texts of help and messages, the word `--`, joined one-letter flags |
| `i18n.py`, `exceptions.py` | no: messages | |

## Per property: model and proof

| id | what is modelled | how it is proved |
|----|------------------|------------------|
| C01 | `do_unflatten` row loop, `unflatten_main_with_parser` | induction over cells, lines and sheets: blank cells leave every state unchanged; for files (Spec/FileArrange: `SameButEmpty`; Props/FileArrange: `C01_file`) by C85, and no warning is about double headings, as headings are distinct |
| C02, C03 | `merge`, `TemporaryDict`, the row loop | mutual induction on merged trees; positions and coverage (`Spec.Covers`) as invariants over the rows |
| C04, C09, C10 | `unflatten_main_with_parser`, `list_as_dicts_to_temporary_dicts`, `TemporaryDict.append` | headings denote addresses (`Spec/Address`); insertion of one column is refined to adding one content item (`Built`); induction over the columns |
| C05 | the same | merging covered rows is the identity; invariant over the rows |
| C06 | all of unflatten | upper-bound argument: every row tree is part of the document, merging is union of labelled facts; labels do not depend on the order. Without ids: every item without id gets a label of its own (row number, place), a run over labelled rows gives the run when the labels are forgotten; for files (Spec/FileArrange: `dataRows`; `C06_file`, `C06_file_without_ids`) by C85 |
| C07, C08 | `do_unflatten` state machine | simulation by the specification `objectRows`; unique ids as an invariant of trees |
| C11 | flatten, writing, reading, unflatten | the emitted lines are facts of the document; C06's argument for the way back |
| C12 | error results; specification `Undeclared`, `FitsSchema` (Spec/Forgiving) | no branch raises under the hypotheses, by induction over the parts of a heading (`place_total` where the schema is silent, `place_fits` along `address` where it speaks), then over cells, rows and sheets (`C12_no_exception`, `C12_with_schema`, `C12_texts_fit`); counterexamples for the others |
| C13–C16, C51 | `extract_*_to_error_path`, `fancy_unflatten` | mutual induction on cell trees, provenance invariant of cells through merging |
| C17–C22 | `convert_type`, `int()`, `Decimal()`, `str()` | parsing/printing lemmas |
| C23–C30, C50 | `JSONParser` | invariants over the traversal; refinement of the emission to a pure function of the document; simulations between runs with different options; `C23_flatten_iff` is total correctness of the emission and its converse; `C30_warnings` and `C30_flatten_iff` follow the rollup stage; `C30_titles` characterises the line with titles (Spec/RollupTitles) |
| C31–C33 | `write_sheets`, `PersistentSheet`, readers | simulation of the store by lists of lines; list lemmas; counterexamples for name collisions |
| C34, C37, C38 | `SchemaParser` | mutual induction on schemas against an inductive description of columns (`Spec/Schema`) |
| C35, C36 | `TitleLookup`, `convert_dict_titles` | invariant of the lookup tree while parsing |
| C39–C43 | `parse_sheet_configuration`, the three readers | list lemmas |
| C44–C46, C52 | `sort_element`, `list_dict_consistency`, `dict_to_xml`, `XMLSchemaWalker` | mutual induction on element trees; uniqueness of a stable sort; derivations of declared contents; the order of attributes: `C46_attributes_ascend` (Props/XmlAttribs) |
| C47 | `unflatten` as a whole | the run is decomposed into two runs over parts of the input |
| C48 | schema loading and the reference loaders (`Model/Refs.lean`); jsonref and everything done with the schema is any program that may ask the loader for documents, each request depending on the answers so far (`Client`); a trace of everything read | induction on the program: reads, non-interference, and agreement with the unrestricted loader on web references |
| C49 | option checks, in `runFlatten` and `runUnflatten` as wholes | case analysis; refused for every file (`C49_flatten_refuses`, `C49_unflatten_refuses`, `C49_flatten_format`), all other combinations work for some file (`C49_flatten_accepts`, `C49_unflatten_accepts`) |
| C53 | `unflatten`: source maps of both passes, stripped and prefixed keys | facts about one list of records (`maps_all`), transported along the renaming of paths; injectivity of path texts |
| C54 | the three readers, `fancy_unflatten` | readers are the identity on plain sheets; locations of C14 mapped back to the grid |
| C55 | configuration in `unflatten` | meaning of configuration lines (C39) for each source; equality of the whole runs |
| C56 | root list of `flatten` | induction over documents: the prefix of no other position is the path of the items; equality of whole runs |
| C57 | columns and sub-sheets of a flattened document | prefix argument over all events; induction over documents: each heading event is followed by a line event with that key; array paths by induction |
| C58 | `flatten` then `unflatten` at the API, CSV and XLSX | composition of C11, C25, C26, C33, C41, C56, C57: every file is read back as its sheet; the sheets are a permutation; the document around the root list |
| C59 | `ODSOutput._make_cell`, tables, ODS round trip at the API; `float()`, `str(float)` and the text that survives in XML are parameters | as C58, for sheets whose rows lost empty cells at the end (`SheetHolds`); a lemma per kind of value that returns |
| C60 | `ODSReader.readSheet`: repeated cells, value types, `GrowingList` | induction over cells with the row so far; iff with a specification by positions (`RowReads`) |
| C61 | `flatten` and `create_template` as a whole: formats, names, refused options | inversion of both functions; specification of places as an inductive relation; iff with three single runs |
| C62 | `create_template` against `flatten` of `[]` | both states are the sheets of the parsed schema |
| C63 | `create_template` then `unflatten` | sheets of a parsed schema have no lines; a sheet of one row gives no lines in each reader |
| C64, C19 | the JSON encoder (`Model/JsonText.lean`: `indent=4`, `ensure_ascii=False`, escapes, `decimal_datetime_default`), `float(Decimal)` and `float.__repr__` (`Py/Float.lean`: IEEE 754 rounding and shortest decimals, computed) | the RFC 8259 grammar as inductive relations (`Spec/JsonText`); the text is derived by induction on the document; unambiguity of the grammar by induction on derivations; doubles as rationals (`Spec/Double`, Mathlib's ℚ): rounding is to nearest-even and the digits are shortest, 15 digits survive |
| C65 | `runUnflatten` on inputs that differ in a left-out sheet or in the cells of comment columns (`Spec/Comments.lean`: `LeftOut`, `SameButComments`); readers, configuration, metatab | sheets read with empty headings are dropped from the run (`addSheets_live`), reading commutes with removing a sheet; `xlsxLine` does not show comment cells; C40 (now also with `hashcomments`) |
| C66 | the text of CSV files (`Model/CsvText.lean`): `csv.writer`, universal newlines, `NullCharacterFilter`, the state machine of `csv.reader` with its field limit | the reader by lines equals a reader by characters; induction over fields and rows with the encoding of a field as an inductive relation; composition with C58 |
| C67 | vertical reading of worksheets and tables, through `runUnflatten`; `Exchanged` is a relation between the cells of two sheets | equality of what is read for every sheet (transposition is determined by its cells), then congruence through both passes; `C67_vertical` |
| C68 | `unflatten`; `renumber` on the positions that headings name | simulation: placing by position commutes with renumbering, sorting undoes it, merging does not look at headings; `C68_numbers_only_order` |
| C69 | `runFlatten` (all of `flatten()` after the file is read); `Table`, `WrittenShows`, `RollsUp`, `Asks` are separate specifications | composition of C23–C30, C56, C57 with the writers (`all_shown`); `C69_flatten_writes` |
| C70 | `runTemplate` (all of `create_template()` after the schema is loaded); columns by `Shown`, `Reached` of Spec/Schema | composition of C34 with the writers; `C70_template_writes`, `C70_titles` |
| C71 | `parseRoot` with titles, `flatten` with `useTitles`, `titleSheets`/`lookupHeader`, `unflatten`; specification `TitlesReturn`, `Described`, `Titled`, `ReadTitled` in Spec/TitledTrip | the titled lines are the untitled lines with renamed keys (`titled_lines`); the learned lookup converts each title heading to the plain path (`knows`), which unflattens like the indexed one (`titled_back`); composition with C11's proof; `C71_titles_round_trip`, `C71_csv_round_trip`, `C71_xlsx_round_trip`; with all of `flatten()` and `unflatten()` and the files between them: `C71_files_csv`, `C71_files_xlsx`, `C71_files_ods`, `C71_texts_csv` (Props/TitledApi) |
| C72 | `get_column_letter` (`Model/Letters.lean`), the two files (`Model/MapFile.lean`) with `dumpJson`; specification `ColumnName`, `LocWritten`, `EntryWritten` in Spec/MapFile, JSON texts as in C64 | induction over the number for the letters; every location of the result is of a cell of a line that was read (invariant of rows and merging), whose column has letters; composition with C64 and C54; `C72_column_letters`, `C72_cell_map_file`, `C72_heading_map_file`, `C72_file_names_cells` |
| C73 | `xmltodict.parse` (`Model/XmlIn.lean`, from its handler), XML mode of flatten, unflatten and `toXml`; specification `SameXml`, `XmlDoc`, `Filled` (Spec/XmlDoc), `XmlFields`, `XmlRoot` (Spec/XmlTrip) and the round trip conditions of C11 | simulation: flattening XML data emits the lines of the JSON data with `text()` fields (`XmlFlat`); rows in XML mode are rows of JSON mode with the value at a place that has headings below wrapped (`XmlRows`, `XmlPlace`); merging commutes with wrapping (`XmlWrap`); then C11; then the attribute and element readings of `toXml` (`XmlDoc`); `C73_xml_round_trip` (data), `C73_xml_document` (elements) |
| C74 | `flatten` with `seen_paths` (Model/Flatten), `unknownPreserved`, `removedAll` (Model/FlattenMain); specification `HasField`, `Occurs`, `KnownPath`, `Table.spoilt` (Spec/Warnings) | induction over the recursion of the emission: the paths marked as seen are exactly the paths at which an object that is reached has a field; with the conditions on the list every object on the way to a listed field is reached; `C74_missing_fields`, `C74_no_list_no_warning`, `C74_unknown_fields` (with C38's reading of the schema), `C74_removed_characters`; `C74_not_objects` (all warnings of the traversal of an object are about rollup or geometries; `noObjects` counts the entries) |
| C75 | `main` with the tables of options and signatures, and `argparse` (Model/Cli); specification `Item`, `Names`, `Plain`, `Complete`, `passed` (Spec/Cli) | classification of words characterised in both directions; induction over the items given (`C75_options`, `C75_verbose`) and over the words (`C75_only`) with what the last option still takes as state; facts of the tables by evaluation (`C75_no_option_is_lost`); formats, required options, defaults and exit status from the same (`C75_input_format`, `C75_unflatten_defaults`, `C75_status`, ..., Props/CliFormats) |
| C76 | the model of C23-C27 and C11; specification `Rearranged` (Spec/RoundTrip), `SameLines`, `SameUpToOrder` (Spec/Rearrange) | the lines are those of the objects in arrays (C23); recursion over the rearrangement: related objects, with related objects around them, up to a permutation; related objects have the same cells and ids (`C76_same_lines`); columns and sheet names by C57 and C25; with C11 the stability (`C76_flatten_again`, through CSV files `C76_flatten_again_csv`) |
| C77 | the models of C07, C10, C12 and C23-C25, C57; specification `TableRow`, `RowsApart`, `WrittenBack`, `TextTable` (Spec/Table) | each row is an object of its own (C07: the groups of rows are single rows), which has exactly the row's content (C10); induction over such content gives exactly the cells of the flattened line (C24); columns and sheets by C25 and C57 (`C77_table_survives`, `C77_columns`); without a schema success by C12 (`C77_text_table`) |
| C78 | the models of C04-C10; specification `Fact`, `Says`, `NamesAll`, `SameSaid`, `PartOf` (Spec/Spread), which replaces item numbers by the items' ids | the content of a row, built as a tree keyed by ids, has exactly the cells that the row says (induction over the content); the run is the union of the rows' trees if they agree (AtRun, C06), which is determined by the cells it has (`C78_same_said`); a part of a row says a part of what the row says (`C78_split`); for files (`C78_file`) by C85 |
| C79 | `convert_type` with `int()`, `Decimal()` and `str.lower()` (Model/Convert, Py); specification: the grammars `DecText`, `IntText`, `Spelled`, `Pieces` (Spec/NumberText) | the parsers accept exactly the grammar: induction over the text for runs of digits and groups, case distinction on sign, point, exponent and words (`Py.dec?_iff`, `Py.int?_iff`, `Py.lower_iff_spelled`); `C79_number`, `C79_integer`, `C79_boolean`, `C79_list`, `C79_number_list`, `C79_text`; the way from the cell to the document, also in XML mode, for one cell (Spec/TypedCell, Props/TypedCell: `C79_json_field`, `C79_xml_element`, `C79_xml_date`, `C79_xml_array`) by evaluating the run |
| C80 | the models of C04-C10; specification `HoldsAt`, `HasId`, `Tidy`, `IsSaid` (Spec/Holds), stated on the resulting JSON values, with `Said` (Spec/Spread) for the rows | the run is the union of the rows' trees (AtRun), so its cells are exactly the facts said (`run_saysAll`); positions in the tree keyed by ids correspond to positions in the JSON value named by the ids that stand there (`sub_holds`, `holds_sub`), which uses that the run keeps every item under its own id (`said_id`); `C80_exactly`; `Describes` (Spec/Holds) says that the rows hold of a list of JSON objects exactly what is in them, and two tidy objects that hold the same at the same places are the same up to order (`same_of_holds`, by induction over the value, matching items by their ids), so `C80_describes` |
| C81 | the models of C30 (rollup) and C11; hypotheses `Trip.FitsRoot` (as for C11), `Trip.AllHaveIds`, `Trip.RollsWell` (Spec/RollupTrip) | each line with the rolled-up values says, about a root object, only what the document has at the positions named by ids (`rowFor_rolled`, `line_says`); together the lines say everything (`cover`), so the facts said are those of the document (`said_doc`, which rests on the exactness results of C80); `C81_rollup_round_trip`, `C81_csv_round_trip`, `C81_xlsx_round_trip`, `C81_flattens_iff` |
| C82 | the model of C07 and C80; edits as relations between spreadsheets (Spec/Edit: `LineReplaced`, `LineAdded`, `CellChanged`) | both spreadsheets' rows as one list of pairs, whose grouping by root id and id is the same for both sides (`groupsBy_map`); one pair at most differs, so one group does (`one_bad`), and by C07 each object is made from its group alone; appended rows: `groupsBy_snoc` and C02; the cell: C80 for the group of rows before and after (`C82_other_objects`, `C82_added_line`, `C82_cell`); for files (Spec/FileEdit, Props/FileEdit: `C82_file`, `C82_file_added`, `C82_file_cell`) by C85, as the lines of a sheet in a file are its rows under its headings |
| C83 | the models of C73 and C80 together; headings of XML mode and the headings that say the same in JSON mode (Spec/XmlHeadings: `XmlParts`, `textHeading`, `idElements`) | simulation of the run in XML mode by the run in JSON mode: `place_sim` for a cell, `rows_texts` for rows, `foldRows_w` for merging; rows without warnings of their own by `row_between`; then C80 for the run in JSON mode, and C46 with `write_shows` for the XML (`C83_xml_mode`, `C83_exactly`, `C83_document`) |
| C84 | Spec/SchemaWarns.lean says what the complaints are, over the paths through a schema (`Reached`, `Shown`); the warnings of the model's parser (schema.py:192-473) are compared with them. | induction over the schema (Proofs/SchemaWarns.lean), then through the three commands: `C84_schema_warnings`, `C84_template`, `C84_flatten`, `C84_unflatten` |
| C85 | Spec/Files.lean: a sheet as a grid with headings, and when a decoded input has these sheets; the whole `unflatten` of the model runs on it. | reading is the identity on such sheets (C40/C41 lemmas), then C80 for described objects: `C85_file`, `C85_formats`, `C85_described` (Proofs/Files.lean, Props/Files.lean) |
| C86 | Spec/TitledFiles.lean: when a heading of titles means a path, and when a sheet is the other with titles; whole `unflatten` runs of the model on both. | the lookup inverts the titles (C36), so the converted lines are those of the other file, and runs that differ only in where cells stand give the same results (lockstep induction, Proofs/Renumber.lean): `C86_titles`, `C86_template` (Props/TitledFiles.lean) |
| C87 | Spec/Geometry.lean: what a geometry is, and the document with the texts instead; `flatten` of the model on both. The conversion (`shapely`) is a parameter, an arbitrary function. | mutual induction over fields, values and items of the document: `C87_geometries` (Props/Geometry.lean) |

No property had to be given up as not expressible. Where the plain English property is false of the code, the statement was narrowed to what holds, and the failing case is proved as a counterexample beside the theorem (see Findings).

## Trusted base

* Lean's kernel (4.33.0). Axioms: every theorem depends at most on `propext`, `Classical.choice`, `Quot.sound` (checked with `#print axioms` by `vcheck`). No axioms of our own, no compiled evaluation; `decide +kernel` in concrete cases is evaluation by the kernel.
* The reading of the Python code into the model: there is no mechanical link between `/repo` and `Model/`. Each definition cites its lines.
* The simplifications named at the definitions; the main ones: sheets are read before unflattening (an error in a later sheet hides warnings of earlier ones); warnings are values, not texts; signalling NaNs are unequal to everything instead of raising; byte formats of XML, XLSX and ODS are not modelled; recursion depth is unbounded except for XSD (where it matters).
* `Model/XmlIn.lean` reads the handler of `xmltodict` 0.13 (a dependency whose source is not in the sandbox) as documented: `force_cdata`, `force_list`, stripped texts, `None` for empty elements; lxml's and Expat's parsing of bytes is not modelled.
* Mathlib (kernel-checked like everything else) is used in `Spec/Double`, `Spec/JsonText` and the modules above them only: rational numbers, linear arithmetic.
* `Py/Float.lean` is a reading of IEEE 754 and of CPython's documented behaviour (`float()` rounds correctly, `repr` is the shortest text that reads back, nearest to the value), not of `dtoa.c`; that it rounds correctly and finds the shortest decimal is proved against `Spec/Double`.

## Testing the theorems

Step 5 of the task: a scratch copy of the model is edited in the way a bug would change the program, everything is rebuilt, and failing lemmas are stubbed out in turn until the build passes, so that all theorems that depend on a failure are known. `seeded/LOG.jsonl` has one line per attempt, with the theorems that failed and those that were tightened because they did not.

## Findings

Cases where the code does not do what the English property (or its documentation) says. Each is reflected in hypotheses of the theorem named, most with a proved counterexample.

* C01: a blank (`""`) root id and a missing one (`None`) are different groups. Hence for C11 a CSV round trip breaks when only some root objects have the root id.
* C04: silent losses: heading `tag/0`; a leaf column on a path that the schema types as object or array; items of one array with the same id in one row (`TemporaryDict.append` overwrites by `.update`); headings `a` and `a[]`, or indices `0` and `00`, name the same position and overwrite silently; `a/0/1/b` is `a/0/b`. A heading `5/a` warns "ignored" but is not ignored. `a//b` gives `{"a": v, "": {"b": v}}`.
* C05: items without id are appended again; NaN ids never match.
* C11: objects with arrays but without id come back split; empty lists and nulls are lost.
* C12: the text `sNaN` in a number column becomes a signalling NaN: as an id it cannot be hashed (TypeError), and meeting another number in a merge raises decimal.InvalidOperation (`!=` at input.py:245). The model does not have this: signalling NaNs are just unequal to everything there, so all theorems about merging are to be read for cells without them.
* C12: exceptions for `id/x` (AttributeError), `a/0/id/x` (TypeError), infinite or NaN floats, list-valued ids; an empty CSV file raises StopIteration, too few header rows RuntimeError.
* C14/C43: with duplicate headings the columns given in the source map are wrong; row numbers (`j + 2`) ignore skipped rows, further header rows, configuration lines, blank CSV lines and ODS lines without values. C16: a root list name that looks like an integer is dropped from heading paths.
* C20: elements with `;` or `,` do not survive; an empty list is lost; `[["a"],["b"]]` reads back as `["a","b"]`; strings inside an array of arrays are split into characters.
* C23: an item with an invalid geometry (WKT mode) gets no line. Filter and root geometry with WKT raise before the filter is applied.
* C27: a nested object that has the root id key overrides the root's id on sub-sheet lines.
* C29: substring test for siblings; the set of preserved fields includes the last path component alone and only the immediate parent; `.replace("/0", "")` mangles keys that start with 0; dropped ids still appear on sub-sheets.
* C30: rollup with titles puts the values of an only item under the title of the sub-sheet, but the warning for several items under the path (`sheet_key` of the main sheet; example in Props/RollupTitles), and a title of the sub-sheet that happens to be a path of the main sheet is translated once more; rollup with titles and without a schema raises TypeError; a rollup request with nothing to roll up raises TypeError (`_()` with two arguments); a rolled-up `[null, {…}]` raises; column order after rollup depends on the hash order (C50 says what does not); with a list of fields to preserve, an array that is listed as a whole is flattened to its sheet but nothing of it is rolled up (only fields listed themselves are).
* C31/C32: a sub-sheet named like the main sheet overwrites `main.csv`; creating a sheet of the same name empties the first; worksheet titles are truncated to 31 characters. ODS output turns texts that look like numbers into floats.
* C34/C37: a deprecated `id` still becomes an id column of sub-sheets; with titles, an untitled array's sub-sheet gets id columns such as `Lines:id`.
* C36: titles below an untitled object are registered at the root and can hide root fields; alternatives that register a title again reset its children; `convert_titles` without a schema raises AttributeError.
* C38: object types below arrays are recorded under `a/0/b`.
* C43: CSV ignores `hashcomments`; CSV keeps columns with an empty heading, XLSX and ODS ignore them; vertical ODS ignores skip and header rows; a gap in an ODS configuration line raises AttributeError; a `#` line without a recognised option does not count as a configuration line.
* C45: a list whose first element is a text is not treated as a list of dicts. C46: namespace prefixes are shared by the whole document.
* C48: a schema that is itself fetched by http(s) ignores `disable_local_refs` (`C48_remote_schema_not_protected`), so that a remote schema can make the program read local files through `file:` references; and a local file whose name merely starts with `http` is fetched with `requests`. C49: the output format is checked only after everything has been parsed. NaN and infinite decimals break JSON output.
* C47: of a metatab with several objects only the first is used, but the source map entries of the later ones overwrite its own; an empty-named metatab field clashes with the row entry; the metatab's id name is None unless given as an option, its root id is `ocid`.
* C52: a type that extends another lists the base type's elements twice and none of its own; an extension without children counts as none; a missing base raises AttributeError; `xsd:all` in named types and nested groups are ignored; recursive schemas raise RecursionError; all children of the root, also metatab elements, are sorted by the order of the root list element.
* C53: a metatab with two lines: only the first object is in the document, but the source map entries of the second replace those of the first (same keys after stripping `meta/0/`, 7 characters).
* C54: a configuration line (`#…`), skipped rows and empty CSV lines are not counted, so that the row numbers in the source map are too small by the number of lines left out before.
* C55: with a metatab and no id name option, the rows of the metatab itself are read without any id name (not `id`).
* C56: `ijson` does not tell a key `a.b` from keys `a`, `b`, nor the items of a list from a field called `item`: an object with a key `item` at the root list path is flattened as if it were a list with that one item; a document `{"a.b": [...]}` is read with root list path `a/b`.
* C57: an id that is a list of objects adds a column `id` without values to the main sheet; a root id field inside a nested object adds the root id column without values.
* C58, C59, C63, C66, C67: `unflatten` asks `openpyxl` for the letters of the column of every cell of a line that is not blank, for all three formats. Beyond column 18278 (`ZZZ`) there are none and `ValueError` is raised: `flatten` to CSV or ODS can write files that `unflatten` cannot read (vertical orientation does not ask for letters except in warnings). The limits of `openpyxl` when *writing* XLSX files are not modelled.
* C58: `flatten` follows root list path `a/b` through two keys, `unflatten` writes the literal key `a/b`: with such a path the round trip changes the document.
* C59: ODS output decides by `float(value)`: texts of digits come back as numbers, `True` as 1.0 (in a boolean column: the text `1.0` with a warning); texts like `nan` or `inf` and numbers of 10^16 or more (`1e+16` has no dot, so the reader calls `int`) give a file that cannot be read (ValueError); lists and dicts raise TypeError; tables whose titles are equal after cutting to 31 characters replace each other when read.
* C60: `number-rows-repeated` is ignored by the reader (identical neighbouring rows, stored once by spreadsheet programs, are lost; row numbers in source maps are then wrong); covered cells of merged ranges are skipped, so cells to the right of them are read under the wrong heading.
* C63: a property called `#` that comes first in the schema makes the row of headings of its template a configuration line when it is read.
* C19, C64: `NumberStr` (a `float` with a `__repr__` of its own, to keep all digits of a `Decimal`) has no effect: `json` calls `float.__repr__` itself since Python 3.5, and the project requires 3.10. So non-integral numbers lose digits beyond the 17th (`0.12345678901234567890123` is written `0.12345678901234568`), `1E-400` becomes `0.0`, and a non-integral number beyond the largest double is written `Infinity`, which is not JSON (`json_rounds`, `json_infinity`). NaN or infinite decimals (a number column with the text `nan` or `inf`) raise an exception after everything has been converted.
* C65: `hashcomments` has no effect on CSV input: neither sheets (files) whose name starts with `#` nor columns whose heading does are left out (example in `Props/Comments.lean`). In XLSX and ODS, duplicate comment headings are still reported as duplicates. A configuration line with only unknown options is read as the heading row.
* C66: CSV files are opened for reading without `newline=""`, so `\r\n` and `\r` inside of cells come back as `\n`; a text of more than 131072 characters is written by `flatten` but makes `unflatten` raise `csv.Error` (`C66_too_long`); a row whose only cell consists of null characters comes back as an empty row and is skipped.
* C67: ODS with vertical orientation takes the data from the second column on whatever `skipRows` and `headerRows` are: with `skipRows 1` the headings are read as a line of data as well, with `headerRows 2` the second header column is (input.py:928-935). CSV ignores the option (documented). In vertical sheets the cell source map gives the column as a number instead of a letter (known upstream issue 153; the model keeps the number and `Model/MapFile.lean` the text written).
* C71: with titles and a root id, every sub-sheet has two columns for the root id: a blank one headed by its plain name, and at the end one headed by its title (as `title_lookup` holds it). The blank one comes first and so does not hide the data. Id columns use the `title` inside the property even when another stands beside its `$ref`, so then the id's data gets a column of its own. The titles of id columns are looked up relative to the place of the parent (schema.py:359-361): a nested property with the title of the root's id whose name is the heading of another id makes flatten use a wrong heading for that id (hence the last condition).
* C73: an attribute as id (`--id-name @ref`) raises TypeError as soon as there are sub-sheets; empty elements are lost on the way, so are the root element's attributes and texts directly inside root items; white space around texts is stripped; a row with headings `a` and `a/0/b` raises TypeError in XML mode where JSON mode warns and keeps one; only the prefix `xml` is resolved in names, so documents with other namespace prefixes fail when written unless declared
* C74: the warning about fields that are not in the schema is given whenever there are a schema and a list, also when it has no field to name; an object below a list counts as unknown to the schema under its plain path (its type is recorded under `a/0/b`); a listed field that occurs is said to be missing when an object around it is dropped, being neither listed nor the parent of a listed field
* C75: `flatten --rollup input.json` and `unflatten --xml-schema a.xsd input` take the input as value of the option and are refused; `-v` after the command is refused; `unflatten` has a parameter `truncation_length` no option sets; `create-template` with a schema that cannot be read prints the error and exits with status 0
* C78: Two rows about the same array item without an id give two items: the equivalence needs an id for every item (a concrete case is beside the theorem).
* C79: A number column reads `nan`, `Infinity`, `1_2_` and `_1` as numbers; an integer column does not read `1.0`; the heading step `+1` or ` 1 ` is an array index.
* C81: with rollup, an array of several items puts the text `WARNING: More than one value supplied, ...` into the main sheet's cells, also into the id's cell, and unflattening that sheet makes the warning text an additional item (example in Props/RollupFiles). If the id of the item is not rolled up (or the item has none), the item comes back twice. With rollup on, any array of a root object with exactly one item raises ValueError if the item has a nested object or array, even if the array is not to be rolled up, and an array with a null raises AttributeError (`C30_flatten_iff`).
* `flatten` with `rollup=True`/`[True]` and a schema without `rollUp` (or none) raises `TypeError` where a warning was intended: `_()` is called with two arguments.
* `flatten` reads the root list by an ijson prefix: the root path `a.b` is the same as `a/b`, `{"main": {"item": X}}` is read like a list, and a missing root path gives empty output without a word.
