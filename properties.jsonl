{"id": "C01", "title": "Blank cells and blank rows are inert when unflattening", "statement": "Inserting or deleting empty cells (None or the empty string) anywhere in a row, other than in the root-id column, and inserting or deleting rows whose cells are all empty, changes neither the JSON produced by unflatten nor the warnings it emits. The same holds for spreadsheets in files: two files, of whatever formats, whose sheets differ only in empty cells (other than root ids), rows and columns give the same document and warnings.", "quantifier": "all sheets, rows, headings, schemas (types maps), id names, JSON and XML mode", "why_tests_cant": "There are unboundedly many placements of blank cells; every one has to be inert.", "anchors": ["flattentool/input.py:SpreadsheetInput.do_unflatten", "flattentool/input.py:unflatten_main_with_parser"]}
{"id": "C02", "title": "Merging rows never overwrites an existing value", "statement": "When a later row is merged into an already existing object with the same id, every value already present in that object, at any depth, is still there afterwards with the same value.", "quantifier": "all object trees (any depth, any mixture of objects, id-keyed arrays and id-less array items) and all incoming rows, including conflicting ones", "why_tests_cant": "The claim quantifies over all pairs of trees of any depth; the documentation promises it for every spreadsheet.", "anchors": ["flattentool/input.py:merge", "docs/unflatten.rst ID-based object merge behaviour"]}
{"id": "C03", "title": "Merging rows adds everything that is missing, and a value that cannot be added is reported", "statement": "Each object of the output is made from certain rows (the rows with the same root id and the same id, or one row without id). For each of these rows, everything in the object the row gives on its own, at any depth, is in the output object at the same position with an equal value (and with the locations of its cells), or a warning of the run says that its column is ignored or that its value is not used because another value was there; array items without id are all there, unchanged and in the same order.", "quantifier": "all object trees and all incoming rows", "why_tests_cant": "Silent loss would have to be excluded for every shape of conflict at every depth.", "anchors": ["flattentool/input.py:merge", "flattentool/input.py:warnings_for_ignored_columns"]}
{"id": "C04", "title": "No non-blank cell of a row is dropped silently", "statement": "For every row whose non-blank columns have headings that name different positions (no empty part, no number at the start, at the end or after another number, no conflict with the schema), whose values are not blank after conversion and whose array items do not share ids: the object built from the row has exactly the values of the columns kept, each at the position its heading names; a warning is given about every column not kept; and there is no other warning than these, those of value conversion and those about duplicate headings. (Outside these conditions the code does drop cells silently: see the findings in DESIGN.md.)", "quantifier": "all rows (all headings, all cell values, all schemas)", "why_tests_cant": "Headings are arbitrary strings and interact pairwise; tests only cover chosen combinations.", "anchors": ["flattentool/input.py:unflatten_main_with_parser", "flattentool/input.py:list_as_dicts_to_temporary_dicts", "flattentool/input.py:TemporaryDict.append", "docs/developerguide.rst"]}
{"id": "C05", "title": "Unflattening the same identified rows twice changes nothing", "statement": "If the rows of some sheets (or single rows of them) all carry an id in every object and array item, unflattening them a second time together with the first gives exactly the same output and no warning that was not there before. (NaN values and geometries, which Python does not compare as equal to themselves, are excepted.)", "quantifier": "all rows whose array items all carry ids, all states", "why_tests_cant": "Idempotence must hold for every tree.", "anchors": ["flattentool/input.py:merge"]}
{"id": "C06", "title": "The data unflatten produces does not depend on row or sheet order", "statement": "For spreadsheets whose rows do not contradict each other, any other arrangement of the same lines into sheets, in any order, gives the same data: the same objects up to the order of objects, fields and array items; and no contradiction is reported in any of them. This holds with and without ids; where every object and array item has an id, lines may in addition be repeated. The same holds for spreadsheets in files, of whatever formats before and after.", "quantifier": "all finite collections of rows that do not contradict each other (with or without ids; values that equal themselves, so no NaN and no geometries) and all rearrangements of them into sheets", "why_tests_cant": "There are factorially many orders of arbitrarily many rows.", "anchors": ["flattentool/input.py:SpreadsheetInput.do_unflatten", "flattentool/input.py:merge", "docs/unflatten.rst Grandchild relationships"]}
{"id": "C07", "title": "Rows become objects: one object per distinct id, in first-seen order", "statement": "The list unflatten returns contains, per root id in order of first appearance, one object for each distinct id in order of first appearance followed by one object for each id-less non-blank row in row order; rows with distinct ids are never merged and no object appears that does not come from a row.", "quantifier": "all sequences of rows over all sheets", "why_tests_cant": "Sequences of rows are unbounded.", "anchors": ["flattentool/input.py:SpreadsheetInput.do_unflatten", "flattentool/input.py:TemporaryDict"]}
{"id": "C08", "title": "Ids are unique within every array of the output", "statement": "In the JSON unflatten produces, no array (at any depth) contains two objects with equal ids, and the top-level list contains no two objects with equal root id group and equal id.", "quantifier": "all spreadsheets, including conflicting and malformed ones", "why_tests_cant": "It is an invariant over every reachable state of the accumulating tree.", "anchors": ["flattentool/input.py:TemporaryDict.append", "flattentool/input.py:merge", "flattentool/input.py:SpreadsheetInput.do_unflatten"]}
{"id": "C09", "title": "Array indices in headings only order the items", "statement": "Within one row, an array that the headings give has one item per distinct index with a value, in ascending order of the integer indices (items that have an id before those that have none), whatever the order of the columns and the gaps between the indices; each item has exactly the content given by the columns with its index.", "quantifier": "all rows and all integer indices", "why_tests_cant": "Indices and column orders are unbounded.", "anchors": ["flattentool/input.py:unflatten_main_with_parser", "flattentool/input.py:list_as_dicts_to_temporary_dicts"]}
{"id": "C10", "title": "A heading is a JSON pointer: the value lands at exactly the position it names", "statement": "After unflattening a row whose headings name pairwise compatible positions (with or without a schema), the object has at each named position the column's converted value and nothing anywhere else; following the keys of a heading made of keys only leads to the column's converted value; and the only warnings are those of value conversion and about duplicate headings.", "quantifier": "all rows with pairwise compatible headings, any depth", "why_tests_cant": "Depth and number of headings are unbounded.", "anchors": ["flattentool/input.py:unflatten_main_with_parser"]}
{"id": "C11", "title": "Flatten then unflatten gives back the data", "statement": "For every list of JSON objects that fits (leaves are non-empty scalars whose written form converts back to them in their column; keys have no '/', are not integer-like and not empty; ids are unique among siblings; objects that contain arrays of objects have an id), flattening succeeds, and unflattening any sheets that have the data of the flattened lines, in any order and arrangement of sheets, rows and columns (in particular after writing to and reading from CSV files or worksheets), succeeds and gives the same document up to the order of fields and of the objects in arrays (lists of values keep their order). Texts, whole numbers, decimals, booleans and lists of texts without separators fit.", "quantifier": "all such documents: any width, any depth, any nesting of arrays and objects", "why_tests_cant": "The round-trip must hold for every document; tests exercise two fixtures.", "anchors": ["flattentool/json_input.py:JSONParser.parse_json_dict", "flattentool/input.py:SpreadsheetInput.do_unflatten", "flattentool/tests/test_roundtrip.py"]}
{"id": "C12", "title": "Unflatten is forgiving: it does not raise on odd content", "statement": "Unflattening any spreadsheet content without a schema in JSON mode produces a result rather than an exception, provided that no heading of a non-blank cell has the id name as a part before its last and no cell is an infinite or NaN float. (With either, the code does raise: see the findings.) With a schema the same holds if each non-blank cell is below a heading that the schema knows nothing about, or below one that names a column of the schema (does not go below a scalar, has no number after something that is not an array, does not end at an object or array) with a value that can be converted, as every text can be (geometries only with the option to convert them), and ids are declared as texts, numbers, dates or booleans, or not at all. (Texts of signalling NaNs in number columns are excluded: see the findings.)", "quantifier": "all sheets, all headings and cell values, all schemas", "why_tests_cant": "Spreadsheet content is arbitrary; a crash needs one odd combination.", "anchors": ["flattentool/input.py:SpreadsheetInput.do_unflatten", "flattentool/input.py:TemporaryDict.append", "docs/developerguide.rst"]}
{"id": "C13", "title": "The cell source map lists every value of the output and nothing else", "statement": "The paths in the cell source map are in increasing order; those that denote cells are exactly the paths of the values that cells gave to the output (scalars, and list or geometry values which are records of their own), each once, each with at least one location; together these values are all the scalars of the output. The other entries are one for each object that directly contains such a value, listing without repetition exactly the rows of the locations of these values.", "quantifier": "all unflattened trees", "why_tests_cant": "Must hold for every tree shape.", "anchors": ["flattentool/input.py:extract_list_to_error_path", "flattentool/input.py:extract_dict_to_error_path", "flattentool/input.py:SpreadsheetInput.fancy_unflatten"]}
{"id": "C14", "title": "Every location in the cell source map really holds the reported value", "statement": "For every path in the cell source map and every location listed for it, the spreadsheet cell at that sheet, row and column, counted over the lines of the sheet as read, has the reported heading and a content that converts to a value equal to the value at that path in the JSON. (Outside XML mode, for headings that have no empty part after the first; the reported heading is the cell's own if the cells of a line are in the order of the sheet's headings, which fails with duplicate headings: see the findings.)", "quantifier": "all spreadsheets", "why_tests_cant": "Locations are accumulated over the whole merge history.", "anchors": ["flattentool/input.py:SpreadsheetInput.do_unflatten", "flattentool/input.py:merge", "flattentool/input.py:extract_dict_to_error_path"]}
{"id": "C15", "title": "Source map construction cannot fail on data that unflattened successfully", "statement": "If unflatten produces JSON, then asking for source maps as well succeeds: no duplicate path, sub-cell mismatch or row/cell collision is ever found, and path sorting never compares incomparable keys.", "quantifier": "all spreadsheets that unflatten without error", "why_tests_cant": "Assertions must be excluded for all inputs.", "anchors": ["flattentool/input.py:extract_list_to_error_path", "flattentool/input.py:extract_dict_to_error_path", "flattentool/input.py:SpreadsheetInput.fancy_unflatten"]}
{"id": "C16", "title": "The heading source map names every column that produced a value at a path", "statement": "Besides the cell source map, the heading source map has one key for each path of a recorded value with the array positions left out, and lists under it, without repetition, exactly the (sheet, heading) pairs of the locations recorded for the values with that index-free path. (The root list's name must not itself be a number.)", "quantifier": "all unflattened trees", "why_tests_cant": "Must hold for every tree.", "anchors": ["flattentool/input.py:SpreadsheetInput.fancy_unflatten"]}
{"id": "C17", "title": "A value that does not fit its schema type is passed through unchanged and reported", "statement": "Converting a non-empty text to number, integer or boolean either yields a value of that type or yields the text itself unchanged together with exactly one warning; conversion never fails for a known type and text input.", "quantifier": "all strings and all schema types", "why_tests_cant": "All strings.", "anchors": ["flattentool/input.py:convert_type"]}
{"id": "C18", "title": "Integers survive text conversion exactly", "statement": "For every integer n, the text of n in an integer column converts to n, in a number column to a number equal to n, and an integer heading component is recognised with that value; no rounding at any size.", "quantifier": "all integers", "why_tests_cant": "Infinitely many integers.", "anchors": ["flattentool/input.py:convert_type", "flattentool/lib.py:isint"]}
{"id": "C19", "title": "Decimal numbers survive flattening to text exactly, and JSON output up to double precision", "statement": "For every finite decimal number, the text written to a spreadsheet by flatten converts, in a number column, back to exactly the same decimal (same digits and exponent). In JSON output an integral number of any size is written as an equal integer, and every other number as the shortest decimal of the double nearest to it: an equal number if it has at most 15 significant digits (and is at least 10^-307 in size), otherwise with a relative error of at most 2^-51. Numbers compare equal exactly when they are the same number.", "quantifier": "all finite decimals (any sign, coefficient and exponent)", "why_tests_cant": "Infinitely many decimals and three notations.", "anchors": ["flattentool/input.py:convert_type", "flattentool/__init__.py:decimal_datetime_default", "flattentool/__init__.py:NumberStr", "flattentool/json_input.py:JSONParser.parse_json_dict", "flattentool/__init__.py:unflatten"]}
{"id": "C20", "title": "Lists of scalars survive flattening to one cell and back", "statement": "A list of strings that flatten joins into one cell is split by a string-array column back into the same list exactly when it is non-empty, is not [\"\"] and no element contains ';' or ','; every non-empty list of finite decimals survives a number-array column exactly; a list of non-empty lists of strings without ';' and ',', one of which has two elements or more, survives an array column.", "quantifier": "all lists (and lists of lists) of strings", "why_tests_cant": "Separator characters inside elements make counterexamples rare and input-dependent.", "anchors": ["flattentool/json_input.py:JSONParser.parse_json_dict", "flattentool/input.py:convert_type"]}
{"id": "C21", "title": "Booleans survive the round trip and nothing else becomes a boolean", "statement": "The texts written for true and false convert back in a boolean column to the same booleans, and a text converts to a boolean only if it is, ignoring case, true, false, 1 or 0.", "quantifier": "all strings", "why_tests_cant": "All strings.", "anchors": ["flattentool/input.py:convert_type"]}
{"id": "C22", "title": "Without a schema a text cell is output verbatim", "statement": "Without type information, a non-empty text cell appears in the JSON as exactly the same string, an integer cell as the same integer and an integral float as that integer.", "quantifier": "all strings, integers, integral floats", "why_tests_cant": "All values.", "anchors": ["flattentool/input.py:convert_type", "flattentool/input.py:unflatten_main_with_parser"]}
{"id": "C23", "title": "Flatten writes exactly one line per object", "statement": "Flattening a document adds exactly one line to the main sheet per object in the root list, in order, and one line to the corresponding sub-sheet per object in every array of objects at any depth, in order; nothing else adds a line. Documents of objects, scalars, lists of scalars and lists of objects can always be flattened; any other value in an object (an array that mixes objects with texts or arrays) is an error, not a silent gap in the sheets (without a filter and preserve-fields). With titles, rollup or preserve-fields the counts are the same for the arrays reached through wanted fields. (In WKT mode an item that is an invalid geometry gets no line: excluded.)", "quantifier": "all documents, any nesting", "why_tests_cant": "Unbounded documents.", "anchors": ["flattentool/json_input.py:JSONParser.parse", "flattentool/json_input.py:JSONParser.parse_json_dict"]}
{"id": "C24", "title": "Flatten keeps every value under the heading of its path", "statement": "Every scalar in the document appears in the line of the nearest enclosing array object (or root object) under the heading formed by its path with /0/ at array positions, and a line contains nothing else except the ids of its ancestors. An array of scalars (or of arrays of scalars) goes in one cell, its elements joined by ; (and the inner ones by ,), a null written None; any other array does not.", "quantifier": "all documents, any nesting", "why_tests_cant": "Unbounded documents.", "anchors": ["flattentool/json_input.py:JSONParser.parse_json_dict"]}
{"id": "C25", "title": "Every value in a flattened line has a column", "statement": "For every sheet produced by flatten, under every combination of options, each key of each line is one of the sheet's headings, so writing the sheet never drops a value or fails because of an unknown column.", "quantifier": "all documents, all options (schema, titles, rollup, preserve-fields, filter, WKT)", "why_tests_cant": "An invariant over the whole traversal.", "anchors": ["flattentool/json_input.py:sheet_key_field", "flattentool/json_input.py:sheet_key_title", "flattentool/json_input.py:JSONParser.parse_json_dict", "flattentool/sheet.py:Sheet", "flattentool/output.py:CSVOutput.write_sheet"]}
{"id": "C26", "title": "Flatten never repeats a heading", "statement": "If the sheets provided by the schema have no repeated headings (in particular if there is no schema) then no sheet produced by flatten has a repeated heading.", "quantifier": "all documents, all options", "why_tests_cant": "An invariant over the whole traversal.", "anchors": ["flattentool/json_input.py:sheet_key_field", "flattentool/json_input.py:sheet_key_title", "flattentool/sheet.py:Sheet.add_field"]}
{"id": "C27", "title": "Sub-sheet lines carry the ids of all their ancestors", "statement": "Every line of a sub-sheet carries, for each object around its object that has an id, that id under the heading of that object's path, and the root id of the innermost of them that has one.", "quantifier": "all documents, any nesting", "why_tests_cant": "Depth is unbounded.", "anchors": ["flattentool/json_input.py:JSONParser.parse_json_dict"]}
{"id": "C28", "title": "Filtering selects exactly the matching objects", "statement": "With filter_field and filter_value, the sheets (or the error) are exactly those obtained by flattening, without the filter, only the root objects that have the field with that value (provided, in WKT mode, that no root object is a geometry itself).", "quantifier": "all documents, fields and values", "why_tests_cant": "All documents.", "anchors": ["flattentool/json_input.py:JSONParser.parse_json_dict", "flattentool/__init__.py:flatten"]}
{"id": "C29", "title": "preserve-fields keeps exactly the requested fields", "statement": "With preserve_fields, if the listed paths fit the document (none is a mere substring neighbour of another, each listed path's parents are listed or implied as the option documents; see GoodList) and no key starts with '0', each line holds exactly the values of those fields of its object that are listed, are below a listed field none of whose descendants is listed, or are ancestors of a listed field, plus the ids of the objects around it; and there is one line on a sub-sheet per object in the arrays to be preserved.", "quantifier": "all documents and all lists of fields", "why_tests_cant": "Interaction of arbitrary path strings.", "anchors": ["flattentool/json_input.py:JSONParser.parse_json_dict", "flattentool/json_input.py:JSONParser.__init__", "docs/flatten.rst Preserve Fields"]}
{"id": "C30", "title": "Rollup copies single-item arrays to the main sheet without losing the sub-sheet", "statement": "With rollup (without titles), the main-sheet line of a root object has exactly the values it has without rollup, plus, under field/0/key, the values of the only object in an array that is rolled up, or the warning text if there are several (with a list of fields to preserve: those of these fields that are listed, or have listed fields); the sub-sheets (columns and lines) are the same as without rollup, under all other options. There is a warning about a field exactly if some root object has there an array of several items, one of them with a value that is to be rolled up. Without a filter and a list of fields to preserve, exactly those documents can be flattened with rollup that can be flattened without, and in which the arrays of root objects that do not fit into one cell have objects only, with simple values only if there is one. With titles (and a schema), every value on that line is a value of the object for its heading, and every value of the object is there unless it has another for the same heading: the heading is the schema's title for the path on the main sheet, for the values of the only object of an array to be rolled up otherwise the title on the sheet that the schema has for the array.", "quantifier": "all documents, all rollup sets, all lists of fields to preserve that fit the document", "why_tests_cant": "All documents.", "anchors": ["flattentool/json_input.py:JSONParser.parse_json_dict", "flattentool/json_input.py:JSONParser.__init__"]}
{"id": "C31", "title": "Sheet names: distinct sheets are written to distinct places", "statement": "If no sub-sheet has the name of the main sheet, flatten writes the main sheet and every sub-sheet to different CSV files, each with that sheet's content; the worksheets have different titles if the names with their prefix have at most 31 characters.", "quantifier": "all documents and main sheet names", "why_tests_cant": "Depends on arbitrary key names.", "anchors": ["flattentool/output.py:SpreadsheetOutput.write_sheets", "flattentool/output.py:CSVOutput.write_sheet", "flattentool/schema.py:make_sub_sheet_name"]}
{"id": "C32", "title": "Stored lines are read back complete and in order", "statement": "Whatever sequence of sheet creations and line additions happens, with commits at any points and with different sheet names, reading a sheet's lines yields exactly the lines added to that sheet, in order.", "quantifier": "all histories of create/append/commit operations over any number of sheets", "why_tests_cant": "All histories.", "anchors": ["flattentool/sheet.py:PersistentSheet", "flattentool/json_input.py:JSONParser.parse"]}
{"id": "C33", "title": "Written sheets contain each line's values under the right headings", "statement": "Writing a sheet as CSV succeeds exactly when every value has a column, and reading the file back gives the sheet's headings and, in order, one line per line, with under each heading the text of the value the line has there, or the empty text; every sheet of a flattened document can be written and read back so. Reading back a worksheet gives under each heading the value itself (texts without illegal characters) or nothing, for scalar values.", "quantifier": "all sheets", "why_tests_cant": "All sheets.", "anchors": ["flattentool/output.py:CSVOutput.write_sheet", "flattentool/output.py:XLSXOutput.write_sheet", "flattentool/output.py:ODSOutput.write_sheet"]}
{"id": "C34", "title": "A template has a column for every schema field", "statement": "create-template (without titles) produces one main-sheet column for each scalar field reached without crossing an array of objects (and each rolled-up one) and no other; one sub-sheet for each reachable array of objects and no other, whose columns are exactly the scalar fields of its items under their full paths and the id columns of the enclosing objects that have an id property; every leaf property of the schema appears on a sheet. With titles, the columns (of the main sheet and of the sub-sheets) are the title headings of the fields that have one, sub-sheets are named by the beginnings of the titles above the array and its own title (by paths, if something above has no title), and id columns by titles. (Property names not empty, without '/' and different from '0'; titles without ':' that are not numbers; arrays with the same sheet name share a sheet.)", "quantifier": "all schemas (any nesting)", "why_tests_cant": "Schemas are unbounded trees.", "anchors": ["flattentool/schema.py:SchemaParser.parse", "flattentool/schema.py:SchemaParser.parse_schema_dict"]}
{"id": "C35", "title": "Titles are matched ignoring case and spaces", "statement": "Looking up a title heading gives the same field for any variation of spaces and of the case of (ASCII) letters in the heading's parts, as long as the parts are titles.", "quantifier": "all title lookups and headings", "why_tests_cant": "All strings.", "anchors": ["flattentool/schema.py:TitleLookup"]}
{"id": "C36", "title": "Title headings written by flatten/create-template convert back to the field they stand for", "statement": "For a schema whose sibling titles are distinct (ignoring case and spaces), contain no ':' and are not integers, and in which objects with titled fields are titled themselves, converting the title heading of any field (the titles along its path joined by ':', in any spelling that counts as the same, with or without indices) yields the field's path with the indices where they stood; for a line, the cell under the heading stands under that path afterwards; a part that is the title of no field of the object reached, and the parts after it, are kept as they stand (without spaces around them); every column of a template written with titles (other than id columns) converts back to the path of its field.", "quantifier": "all such schemas and all fields at any depth", "why_tests_cant": "All schemas.", "anchors": ["flattentool/schema.py:TitleLookup.lookup_header", "flattentool/schema.py:SchemaParser.parse_schema_dict", "flattentool/input.py:SpreadsheetInput.convert_dict_titles"]}
{"id": "C37", "title": "Deprecated fields never reach a template that excludes them", "statement": "With no-deprecated-fields, every column of every sheet of a template, other than the id columns of sub-sheets, stands for a property that is neither deprecated nor below a deprecated one, under all other options.", "quantifier": "all schemas", "why_tests_cant": "All schemas.", "anchors": ["flattentool/schema.py:SchemaParser.parse_schema_dict"]}
{"id": "C38", "title": "The schema type of every field is known under its index-free path", "statement": "After parsing a schema whose property paths are unique, for every scalar or scalar-list property at any depth the types map used for conversion has the property's path without array indices mapped to that property's type, and lists of objects are known as arrays; every known type other than object belongs to such a property.", "quantifier": "all schemas with unique paths", "why_tests_cant": "All schemas.", "anchors": ["flattentool/schema.py:SchemaParser.parse_schema_dict", "flattentool/input.py:unflatten_main_with_parser"]}
{"id": "C39", "title": "Sheet configuration parsing accepts only what is documented and clamps values", "statement": "Parsing configuration cells yields skipRows >= 0 and headerRows >= 1 whenever present, recognises each option only from a cell with exactly the documented number of words, ignores all other cells, and when an option is repeated uses the last one.", "quantifier": "all lists of configuration cells", "why_tests_cant": "All strings.", "anchors": ["flattentool/lib.py:parse_sheet_configuration"]}
{"id": "C40", "title": "Skip rows and header rows select exactly the documented part of a sheet", "statement": "For a sheet with skipRows s and headerRows h, the headings are row s (counted after the configuration line if present) and the data are exactly the rows from s+h on, in order.", "quantifier": "all grids, all configurations, CSV / XLSX / ODS readers", "why_tests_cant": "All grids and configurations.", "anchors": ["flattentool/input.py:CSVInput", "flattentool/input.py:XLSXInput", "flattentool/input.py:ODSInput"]}
{"id": "C41", "title": "Sheet selection", "statement": "The sheets processed are exactly the sheets of the file that are included (if an include list is given) and not excluded, in file order (sorted by name for CSV), whatever the lists contain.", "quantifier": "all sheet name lists, include and exclude lists", "why_tests_cant": "All lists.", "anchors": ["flattentool/input.py:CSVInput.read_sheets", "flattentool/input.py:XLSXInput.read_sheets", "flattentool/input.py:ODSInput.read_sheets"]}
{"id": "C42", "title": "Duplicate headings: the last column is used and exactly the others are reported", "statement": "If a heading occurs in several columns, the value used is that of its last column, and for every such heading one warning is given listing exactly the other columns, in order.", "quantifier": "all heading rows and rows", "why_tests_cant": "All heading rows.", "anchors": ["flattentool/input.py:SpreadsheetInput.do_unflatten", "flattentool/input.py:XLSXInput.get_sheet_lines"]}
{"id": "C43", "title": "The three spreadsheet formats mean the same thing", "statement": "The same rectangular grid of text cells with the same configuration (no hash comments, no empty heading) yields the same headings and the same lines whether read from CSV, XLSX or ODS, up to empty texts being no value and up to ODS leaving out lines without any value.", "quantifier": "all grids and configurations", "why_tests_cant": "All grids.", "anchors": ["flattentool/input.py:CSVInput", "flattentool/input.py:XLSXInput", "flattentool/input.py:ODSInput"]}
{"id": "C44", "title": "Sorting XML output by schema only reorders", "statement": "sort_element keeps exactly the same children at every level (a permutation), puts children in schema order with unknown tags last, and keeps the relative order of children with the same rank; there is only one such result, and sorting again changes nothing.", "quantifier": "all element trees and schema orders", "why_tests_cant": "All trees.", "anchors": ["flattentool/sort_xml.py:sort_element"]}
{"id": "C45", "title": "XML list/dict consistency makes every repeated tag a list everywhere and changes nothing else", "statement": "After list_dict_consistency exactly those dicts have become one-element lists whose path is, somewhere in the document, the path of a list of dicts (a list whose first element is a dict); nothing else changes; no path has both afterwards; applying it again changes nothing, and data without such a path is unchanged.", "quantifier": "all parsed XML documents", "why_tests_cant": "All documents.", "anchors": ["flattentool/json_input.py:list_dict_consistency", "flattentool/json_input.py:lists_of_dicts_paths", "flattentool/json_input.py:dicts_to_list_of_dicts"]}
{"id": "C46", "title": "XML output contains every attribute and text", "statement": "Converting a tree to XML yields for each object an element with exactly its @-entries as attributes, its text() entry as text and its other entries as child elements in order; the attributes of every element are in ascending order of their names, so the result does not depend on where among the entries they are; the conversion fails exactly if a scalar is neither an attribute nor a text or a list is in a list (or the element would not be valid XML). (No namespace declarations; qualified attribute names distinct.) The document is this element with each child of the root sorted by the schema.", "quantifier": "all trees in which every leaf is an attribute or text()", "why_tests_cant": "All trees.", "anchors": ["flattentool/xml_output.py:dict_to_xml", "flattentool/xml_output.py:child_to_xml", "flattentool/xml_output.py:sort_attributes"]}
{"id": "C47", "title": "The output document is put together from independent runs", "statement": "If the root is not a list, unflatten writes an object. Without a metatab it has under the root list path the list that the same call writes with root_is_list, and under every other key what the base JSON has; it fails exactly if that call fails. With a metatab, the call succeeds exactly if a metatab-only call on a workbook with just that sheet, and a call without metatab on a workbook without that sheet, both succeed; the document has the fields of the first and the root list of the second, and source maps and warnings are put together in the same way. The metatab's fields are those of the first object that the metatab gives as an ordinary sheet.", "quantifier": "all options (JSON output), all inputs (CSV directories, workbooks) with distinct sheet names, all base documents", "why_tests_cant": "Interference between the metatab and the other sheets could depend on any content, configuration or option.", "anchors": ["flattentool/__init__.py:unflatten"]}
{"id": "C48", "title": "With local refs disabled no local file is ever read through a $ref", "statement": "With disable_local_refs, loading a schema from a local file reads that file and otherwise only documents whose URI starts (ignoring case) with http:// or https://; any other reference raises. The contents of other local files have no influence on the outcome, and a schema whose references are all to the web loads as it does without the option. Hence unflatten reads, for its schemas, only the two files named as schemas and the web.", "quantifier": "all URIs, all schemas, all sequences of references (each may depend on the documents loaded before), all file systems and web contents", "why_tests_cant": "All strings, all adaptive sequences of references; non-interference ranges over all pairs of file systems.", "anchors": ["flattentool/schema.py:SchemaParser.__init__", "flattentool/schema.py:jsonloader_local_refs_disabled", "flattentool/schema.py:is_ref_local"]}
{"id": "C49", "title": "Option checks", "statement": "flatten refuses, before doing anything, exactly: one of filter_field and filter_value without the other, or an unknown line terminator; an unknown output format is refused when sheets are to be written, and otherwise exactly the formats asked for are written; unflatten refuses exactly: a missing or unknown input format, or base_json combined with a metatab.", "quantifier": "all option combinations", "why_tests_cant": "All combinations of argument values.", "anchors": ["flattentool/__init__.py:flatten", "flattentool/__init__.py:unflatten", "flattentool/__init__.py:create_template"]}
{"id": "C50", "title": "Rollup warnings do not depend on hash order", "statement": "When several array items are rolled up, the keys are visited in an unspecified (hash) order; whatever the order, the sub-sheets, the warnings, the values of every main-sheet line and the set of main-sheet columns are the same.", "quantifier": "all documents and all iteration orders", "why_tests_cant": "Hash randomisation makes the order vary between runs.", "anchors": ["flattentool/json_input.py:JSONParser.parse_json_dict"]}
{"id": "C51", "title": "The cell source map attributes every value to all the cells that give it", "statement": "For every row with data and every cell of the object that row gives on its own, the cell source map of the whole spreadsheet lists that cell's location (sheet, column, row, heading) under the path of a value that lies at the same keys and equals the cell's value; or a warning says that the column is ignored, or that the cell's value was not used because another value was already there. No location is lost when rows are merged, however many rows contribute to a value.", "quantifier": "all spreadsheets, rows, id names, root ids, schemas, root list names; any number of rows merged into one object", "why_tests_cant": "Any number of rows can contribute to one value; losing an earlier location shows only for particular merge histories.", "anchors": ["flattentool/input.py:merge", "flattentool/input.py:extract_list_to_error_path", "flattentool/input.py:SpreadsheetInput.fancy_unflatten"]}
{"id": "C52", "title": "XML output follows the order of the XML schemas", "statement": "In the XML document unflatten writes with XML schemas, for every element inside an item of the root (reached by a path of tags) for which the schemas, followed from the element named like the root list along the same tags, declare one group of elements as its contents (in place, by a named type, or by a named type that extends such a type: then the order is that of the extended type, and an extension that adds nothing declares no order), the children are in the declared order, with children of other names after them. If the schemas allow an element to contain itself, no XML document is written at all, whatever the recursion limit.", "quantifier": "all inputs, all XML schemas, all paths of tags, all recursion limits", "why_tests_cant": "the schemas are arbitrary graphs of declarations with references and named types, and documents arbitrary trees; tests sample the IATI schemas", "anchors": ["flattentool/sort_xml.py: XMLSchemaWalker.create_schema_dict, element_loop, handle_complexType, sort_element", "flattentool/xml_output.py: toxml", "flattentool/__init__.py: unflatten"]}
{"id": "C53", "title": "The source maps unflatten writes describe exactly the document it writes", "statement": "If unflatten succeeds, the cell source map it writes has an entry for every value, row object and item of the written document that came from a cell and for nothing else, at the path the thing has in the written document (with the metatab's entries at top level and the other sheets' entries under the root list path); the heading source map has an entry for every list of cells with the same path without indexes, and for nothing else. A map is empty if it was not asked for. With a metatab this needs the metatab to give at most one object; with two lines the entries of the second replace those of the first.", "quantifier": "all inputs, schemas and options; with or without a metatab; root list or root object", "why_tests_cant": "the paths in the maps are built by string prefixes, and stripped by fixed lengths, in several places: all documents, keys and nestings have to agree", "anchors": ["flattentool/__init__.py: unflatten", "flattentool/input.py: SpreadsheetInput.fancy_unflatten, extract_list_to_error_path, extract_list_to_value"]}
{"id": "C54", "title": "Every location in the cell source map is a cell of the file", "statement": "If the sheets of an input are plain (no configuration line, headings that are distinct texts or empty, no row left out by the reader), every location (sheet, column, row, heading) that the cell source map gives for a value is the position in the file of a cell that is not blank, under that heading, and the cell's converted content is that value. (With a configuration line or skipped lines, the row numbers are shifted; see DESIGN.)", "quantifier": "all CSV, XLSX and ODS inputs of plain sheets, all schemas and options, all entries of the map", "why_tests_cant": "row and column numbers are counted by enumerate in three readers and the row loop; the claim ranges over all grids", "anchors": ["flattentool/input.py: CSVInput.generate_rows, XLSXInput.get_sheet_lines, ODSInput.get_sheet_lines, unflatten_main_with_parser, fancy_unflatten"]}
{"id": "C55", "title": "Where the root list path, id name and XML root tag come from", "statement": "If no root list path is given as option, unflatten behaves exactly as if the option had been given with the value configured in the metatab's configuration line, or else the value in the default configuration, or else 'main'. Without a metatab, the same is true of the id name with 'id'. The tag of the XML document is the configured root tag (metatab line first, then default configuration), or else 'iati-activities'. Within one configuration the last setting of an option counts. With a metatab, the whole run is the same as if the items of its configuration line had been appended to the default configuration.", "quantifier": "all inputs, all options, all configuration texts", "why_tests_cant": "precedence between four sources has to hold for every combination of sources, texts and formats, and no other effect of the choice may exist", "anchors": ["flattentool/__init__.py: unflatten", "flattentool/lib.py: parse_sheet_configuration", "flattentool/input.py: get_sheet_configuration"]}
{"id": "C56", "title": "flatten flattens exactly the items of the root list", "statement": "flatten (JSON input) flattens exactly the items of the list found by following the keys of the root list path from the top of the document, in order; with root_is_list the items of the document itself; if there is no list there, nothing. Everything else in the document is irrelevant: two documents with the same root list give the same output. In XML mode the items are those of the list found by following the keys in the dictionary the XML reader gives; if a key is missing on the way, nothing is flattened. (Limits found: keys with dots, and an object with a key 'item' at the root list path, are mistaken for the path.)", "quantifier": "all documents, all root list paths, all options", "why_tests_cant": "the items are picked out of a stream by comparing dotted prefixes; that no other position of any document has the same prefix is a statement about all documents and paths", "anchors": ["flattentool/__init__.py: flatten", "flattentool/json_input.py: JSONParser.__init__, parse", "flattentool/input.py: path_search"]}
{"id": "C57", "title": "Which columns and sub-sheets flattening makes", "statement": "The columns of a flattened sheet begin with the columns the schema gives to that sheet, in schema order (all of them, or only the root id and id columns if empty schema columns are to be removed). Flattening adds no column without a value: each further column has a value on some line of the sheet. The sub-sheets are exactly those of the schema and those of the arrays of the data, at any depth, that are not written into one cell; if empty schema columns are to be removed, the schema's sub-sheets without lines are left out. (Limits found: an id that is a list of objects, and a root id field inside a nested object, do add columns without values.)", "quantifier": "all documents, schemas and options for the order of columns; all documents whose ids are scalars, without titles, WKT, XML, rollup and preserved fields, for the columns added; the same without filter, with any titles and any rollup, for sub-sheets", "why_tests_cant": "Columns depend on every object of the document at every depth and on the order in which they are met; a test covers a few documents.", "anchors": ["flattentool/json_input.py:JSONParser.__init__", "flattentool/json_input.py:JSONParser.parse", "flattentool/json_input.py:JSONParser.parse_json_dict", "flattentool/sheet.py:Sheet"]}
{"id": "C58", "title": "flatten then unflatten, as called by a user, gives back the document", "statement": "Calling flatten with output format csv (or xlsx) and then unflatten on the files written, with matching options (same root list path, id name, root id; no titles, WKT, rollup, filter, preserved fields, metatab, base document), succeeds and gives back the input document, up to the order of fields and of the objects in arrays (lists of values keep their order), whatever the order in which files or worksheets are found. This holds for any schemas, as long as the document fits (C11), no field of a root object is called '#', (CSV) no sub-sheet has the name of the main sheet, and no sheet has more than 18278 columns (the last one with a letter code, ZZZ). (Limit found: with a root list path of several keys, unflatten writes the path as one literal key.)", "quantifier": "all documents that fit, all schemas given to flatten and to unflatten, all matching options, all orders of files or worksheets", "why_tests_cant": "It spans all the code from reading the root list over column and sheet naming to merging; a test shows a few documents with one schema.", "anchors": ["flattentool/__init__.py:flatten", "flattentool/__init__.py:unflatten", "flattentool/json_input.py:JSONParser", "flattentool/output.py:CSVOutput", "flattentool/output.py:XLSXOutput", "flattentool/input.py:CSVInput", "flattentool/input.py:XLSXInput", "flattentool/input.py:SpreadsheetInput"]}
{"id": "C59", "title": "flatten to ODS then unflatten gives back the document", "statement": "Calling flatten with output format ods and then unflatten on the file written, with matching options, succeeds and gives back the input document up to the order of fields and of the objects in arrays (lists of values keep their order), if every value of the document returns from the cell it is written to, the headings are no numbers, the titles are not cut off and distinct, and no sheet has more than 18278 columns. Texts that are no numbers return in columns without a type or of type string; whole numbers other than 0 return in columns without a type or of type integer. (Limits found: a text of digits comes back as a number, a boolean as a number; a text like 'nan' or a number of 10^16 or more gives a file that unflatten cannot read; a list raises TypeError.)", "quantifier": "all documents whose values return, all schemas given to flatten and to unflatten, all matching options, every behaviour of float() and of the XML library on texts", "why_tests_cant": "Spans flattening, the encoding of cells, the reader that drops empty cells at the end of rows, and merging; tests look at a few small documents.", "anchors": ["flattentool/output.py:ODSOutput", "flattentool/ODSReader.py:ODSReader", "flattentool/input.py:ODSInput", "flattentool/__init__.py:flatten", "flattentool/__init__.py:unflatten"]}
{"id": "C60", "title": "ODS tables are read cell by cell", "statement": "Of an ODS file whose tables have distinct names, no merged cells and no repeated rows, every table is read row by row and column by column: each cell's value (text, whole number, decimal number, date, date with fractions of seconds) is at the row and column where a spreadsheet program shows it, however cells are repeated; empty cells at the end of rows are left out; reading fails exactly if some cell's value cannot be read. (Limits found: rows that are stored once with a repetition count are read once, so identical neighbouring rows are lost and later row numbers are wrong; cells to the right of a merged cell move to the left.)", "quantifier": "all ODS tables with any repetition of cells, all cell values", "why_tests_cant": "Repetition counts and gaps can be anything, and each combination changes the positions of all later cells of the row.", "anchors": ["flattentool/ODSReader.py:ODSReader.readSheet", "flattentool/ODSReader.py:GrowingList"]}
{"id": "C61", "title": "Output formats and names", "statement": "flatten and create_template write exactly the requested outputs: with format all, the three formats under the given name (default flattened or template) with endings .xlsx, none and .ods; with one format, exactly the given name, or the default name with the ending of the format; an empty name counts as not given. Writing all formats is the same as three runs, one for each format, with the same warnings. Unknown formats, unknown line terminators and a filter field without a value (or the other way round) are refused.", "quantifier": "all inputs, schemas and options of flatten and create_template", "why_tests_cant": "The formats share one parser and its sheets; that no format changes what the next one writes must hold for all data.", "anchors": ["flattentool/__init__.py:flatten", "flattentool/__init__.py:create_template", "flattentool/output.py:FORMATS_SUFFIX"]}
{"id": "C62", "title": "A template is the flattening of no data", "statement": "create_template with a schema writes the same files with the same headings, and gives the same schema warnings, as flatten of an empty list with the same schema and options (without excluding deprecated fields; with rollup, if the schema rolls up some field, since flatten fails otherwise).", "quantifier": "all schemas, all options of create_template, every format", "why_tests_cant": "Two separate code paths read the schema and make the sheets; agreement must hold for every schema and every combination of options.", "anchors": ["flattentool/__init__.py:create_template", "flattentool/__init__.py:flatten", "flattentool/json_input.py:JSONParser.__init__", "flattentool/schema.py:SchemaParser"]}
{"id": "C63", "title": "An unfilled template unflattens to an empty document", "statement": "unflatten of what create_template wrote, in any of the three formats, with any schema, with or without converting titles, gives the document whose root list is empty, with empty source maps; likewise for every input of which each sheet is just one row of headings, up to 18278 columns. (No column may be called #: the row is then read as a configuration.)", "quantifier": "all schemas for the template and for unflatten, all formats, every order in which CSV files are found, all plain options of unflatten", "why_tests_cant": "It combines schema parsing, writing and reading of three formats; headings may be anything a schema can name.", "anchors": ["flattentool/__init__.py:create_template", "flattentool/__init__.py:unflatten", "flattentool/input.py:CSVInput", "flattentool/input.py:XLSXInput", "flattentool/input.py:ODSInput"]}
{"id": "C64", "title": "The JSON text unflatten writes denotes exactly the document", "statement": "Whenever every scalar of the unflattened document has a place in JSON (texts, integers, truth values, nothing, dates, finite numbers), the file unflatten writes is a JSON text according to RFC 8259, and the only value it denotes is the document: same structure, same order of members and items, every text character for character whatever it contains (quotation marks, backslashes, control characters, any Unicode), numbers as in C19. Writing fails exactly when the document contains an infinite or NaN decimal or an object that is no JSON value.", "quantifier": "all documents of any depth and size, all texts", "why_tests_cant": "Infinitely many documents, texts and numbers; that a text has no second reading is a statement about all derivations of the grammar.", "anchors": ["flattentool/__init__.py:unflatten", "flattentool/__init__.py:decimal_datetime_default", "flattentool/__init__.py:NumberStr"]}
{"id": "C65", "title": "Ignored sheets and comment columns have no influence", "statement": "A sheet for which 'ignore' is configured (in its own configuration line or, if that gives no option, for the whole run), or for which 'hashcomments' is configured and whose name starts with '#' (XLSX, ODS), might as well not be in the file: unflatten gives the same error, or the same document, source maps and warnings. With 'hashcomments', whatever stands under headings starting with '#' (XLSX, ODS) has no influence on the document, the source maps and the warnings.", "quantifier": "all inputs of the three formats, all sheets, all options, all configuration lines and default configurations", "why_tests_cant": "Non-interference: all contents of the ignored part, all other sheets and options.", "anchors": ["flattentool/input.py:CSVInput.get_sheet_headings", "flattentool/input.py:XLSXInput.get_sheet_headings", "flattentool/input.py:XLSXInput.get_sheet_lines", "flattentool/input.py:ODSInput.get_sheet_headings", "flattentool/input.py:ODSInput.get_sheet_lines", "flattentool/lib.py:parse_sheet_configuration"]}
{"id": "C66", "title": "The text of a CSV file says what the cells are", "statement": "The text of a CSV file that flatten writes, with either line terminator, is read by unflatten as the same rows of the same texts (quotes, commas, newlines, empty fields and rows included), except that line breaks come back as '\\n' and null characters are dropped; so texts without carriage returns and null characters, not longer than 131072 characters, come back exactly, different rows give different texts, and flatten followed by unflatten through the texts of the files (of at most 18278 columns) gives back the document.", "quantifier": "all rows of texts, both line terminators; all documents and options as in C58", "why_tests_cant": "All texts and combinations of special characters, of any length.", "anchors": ["flattentool/output.py:CSVOutput.write_sheet", "flattentool/output.py:LINE_TERMINATORS", "flattentool/input.py:NullCharacterFilter", "flattentool/input.py:CSVInput.get_sheet_headings", "flattentool/input.py:CSVInput.generate_rows"]}
{"id": "C67", "title": "Vertical orientation exchanges rows and columns", "statement": "unflatten with vertical_orientation (for the sheets) and/or metatab_vertical_orientation (for the metatab) gives the same document, source maps and warnings as unflatten without them on the file in which those sheets have rows and columns exchanged (a configuration line stays on top). No row may have more than 18278 cells, in the file or exchanged. For ODS files this holds if neither skipRows nor headerRows is configured and no row is empty.", "quantifier": "all XLSX and ODS files, all options and configurations", "why_tests_cant": "All files, configurations and combinations of options.", "anchors": ["flattentool/input.py:XLSXInput.get_sheet_headings", "flattentool/input.py:XLSXInput.get_sheet_lines", "flattentool/input.py:ODSInput.get_sheet_headings", "flattentool/input.py:ODSInput.get_sheet_lines", "flattentool/__init__.py:unflatten"]}
{"id": "C68", "title": "The numbers in headings only order array items, also when they are left out", "statement": "If the numbers that the headings of a row give to the items of arrays are replaced by others in the same order (each array of each row on its own), unflatten gives the same error, or the same JSON and the same warnings up to the headings named in them. Under a field that the schema knows as an array the number may be left out; it then counts as -1.", "quantifier": "all spreadsheets (any number of sheets and rows, with or without ids), all schemas and id names, all order-preserving renumberings, JSON mode; headings of non-blank cells name positions", "why_tests_cant": "All spreadsheets and all renumberings.", "anchors": ["flattentool/input.py:unflatten_main_with_parser", "flattentool/input.py:list_as_dicts_to_temporary_dicts", "flattentool/input.py:merge"]}
{"id": "C69", "title": "What flatten writes, end to end", "statement": "If flatten succeeds, everything it writes, in each format asked for, shows the same tables: the main sheet, under the name asked for, and the sub-sheets in the order of their names. No heading is repeated and every value has a column; the columns of the schema (unless empty ones are to be removed) come first and none of its sheets is lost. The main sheet has exactly one line for each object of the root list (the list at the path, or the document itself) that passes the filter, in order, with exactly the fields asked for (everything, or the paths listed in the file) and the rolled up values (of the arrays named directly, in a file, or by the schema; with a list of fields, those listed). The sheet of an array has exactly one line for each object in the arrays with that sheet name, with its fields and the ids around it. A CSV file has the text of each value, a worksheet or ODS table the value or its text, under names with the prefix, cut at 31 characters.", "quantifier": "all input documents whose keys are distinct and without slash, all schemas without repeated columns, all combinations of root list path, filter, list of fields to preserve, rollup, root id, id name, sheet names and formats, without titles, geometries and XML", "why_tests_cant": "All documents and all combinations of options.", "anchors": ["flattentool/__init__.py:flatten", "flattentool/json_input.py:JSONParser", "flattentool/output.py:SpreadsheetOutput", "flattentool/output.py:XLSXOutput", "flattentool/output.py:CSVOutput", "flattentool/output.py:ODSOutput"]}
{"id": "C70", "title": "What create_template writes, end to end", "statement": "If create_template succeeds, everything it writes, in each format asked for, shows the same tables without lines: a main sheet, under the name asked for, whose columns are exactly the fields of the schema that stand on it, each once (with titles: exactly their titles); and, in the order of their names, exactly one sub-sheet for each sheet name of an array of objects in the schema, with the root id if one is asked for, then exactly the ids of the objects around, then exactly the fields of the items. If deprecated fields are not wanted, neither they nor anything in them counts as a field.", "quantifier": "all schemas (without titles: with names that are not empty, not 0 and without slash), all options and formats", "why_tests_cant": "All schemas and all combinations of options.", "anchors": ["flattentool/__init__.py:create_template", "flattentool/schema.py:SchemaParser.parse", "flattentool/output.py:SpreadsheetOutput"]}
{"id": "C71", "title": "Titles as headings return the document", "statement": "A document that is flattened with titles as headings, written to CSV files, worksheets or ODS tables (whose sheets may be read in any order), and unflattened with its titles converted by the same schema comes back the same, up to the order of fields and of the objects in arrays (lists of values keep their order). Needed are: the schema describes every value of the document, with titles on the way; titles of the fields of one object differ by more than spaces and case, and contain no colon or slash and are not numbers; every property called id has a title in itself and is not left out as deprecated; objects with arrays have ids, distinct where they are siblings; values survive their own cells (as in C11); no property with the title of the root's id is named like the heading of another id. This holds for one run of each of the two functions, for the files between them, and for the texts of CSV files.", "quantifier": "all schemas with such titles, all documents they describe, with or without root id, any id name, any order of the sheets; also any other arrangement of the lines and columns that keeps the data", "why_tests_cant": "All schemas and documents of any depth; unit tests try a few headings.", "anchors": ["flattentool/schema.py:SchemaParser.parse_schema_dict", "flattentool/schema.py:TitleLookup", "flattentool/json_input.py:JSONParser.parse_json_dict", "flattentool/json_input.py:sub_sheet_title_lookup", "flattentool/input.py:SpreadsheetInput.convert_titles", "flattentool/input.py:SpreadsheetInput.unflatten", "flattentool/__init__.py:flatten", "flattentool/__init__.py:unflatten"]}
{"id": "C72", "title": "Source map files name the cells of the spreadsheet", "statement": "Whenever unflatten succeeds, the source map files it is asked for can be written. The cell source map file is a JSON object with the keys of the map in order, and under each key the list of locations (sheet, name of the column, number of the row, heading) or of rows (sheet, number); the heading source map file likewise lists (sheet, heading). Columns have the names that spreadsheets use (A to Z, AA to ZZ, AAA to ZZZ), each column its own; columns of sheets read with vertical orientation are given as numbers. So, for files without configuration, every location in the text names a cell of the file which the value at the key's path was made from, and the heading above it. Beyond column ZZZ naming fails with ValueError.", "quantifier": "all successful runs of unflatten, with or without metatab, in all formats; all column numbers", "why_tests_cant": "All columns, runs and keys; the name of the column is computed by a loop over an unbounded number.", "anchors": ["flattentool/__init__.py:unflatten", "flattentool/input.py:SpreadsheetInput.do_unflatten", "flattentool/input.py:SpreadsheetInput.fancy_unflatten"]}
{"id": "C73", "title": "XML documents survive flatten and unflatten", "statement": "Flattening an XML document (with the plain options of XML mode) and unflattening the sheets to XML gives the document back: the elements of the root list, with all their attributes, elements and texts, up to the order of attributes and elements, white space around texts, and the root element's own attributes. Each root item and each member of a list with lists below it must have an id element with a different text among its siblings, elements with one name are repeated on the same paths throughout the document, and no element is empty. Sheets may be rearranged in any way in between: rows and columns in any order, distributed over any sheets.", "quantifier": "all XML documents of that form, of any depth, all arrangements of the sheets and all orders of elements given for the output", "why_tests_cant": "All documents and arrangements; flattening, merging by ids, and sorting work by recursion over nested elements.", "anchors": ["flattentool/json_input.py:JSONParser.parse", "flattentool/json_input.py:JSONParser.parse_json_dict", "flattentool/json_input.py:list_dict_consistency", "flattentool/input.py:unflatten_line", "flattentool/input.py:merge", "flattentool/xml_output.py:toxml", "flattentool/xml_output.py:dict_to_element"]}
{"id": "C74", "title": "Flatten says what it leaves out", "statement": "With a list of fields to preserve, the last warning of a successful flatten names exactly the fields of the list that no flattened root object has (positions in arrays left out), and there is no such warning if there is none of them or no list. With a schema too, a warning names exactly the fields of the list the schema does not have. Writing workbooks and ODS documents warns once for each cell, in each of them, whose text has control characters that spreadsheets cannot hold, naming the text, and for no other cell; CSV files give no such warning. Under all options, the warnings about entries of the root list that are not objects name exactly the entries that are neither objects nor null, each once, in order, by position.", "quantifier": "all documents and lists of fields (for missing fields: JSON documents with keys without '/', lists of which the parents are listed), schemas, options and output formats", "why_tests_cant": "The set of seen fields is gathered by the recursion over all objects of a document of any depth; the warnings depend on all cells of all sheets.", "anchors": ["flattentool/json_input.py:JSONParser.__init__", "flattentool/json_input.py:JSONParser.parse", "flattentool/json_input.py:JSONParser.parse_json_dict", "flattentool/output.py:XLSXOutput.write_sheet", "flattentool/output.py:ODSOutput.write_sheet"]}
{"id": "C75", "title": "The command line calls the function with exactly the options given", "statement": "A command line that gives every required option, one input (none for create-template) and only options of the command, each spelled out or by an unambiguous beginning, with its value as the next word, after '=' or joined to a one-letter option, calls the function of the command once. Every parameter of the function has the value given for it (of several values the last one; --rollup collects all of them, an integer for --truncation-length), and its default when nothing is given for it; the XML comment is the one default that differs. -v before the command changes no parameter. Every other command line calls nothing. In particular the format options accept exactly the documented formats, unflatten needs -f, create-template needs -s, the documented defaults hold for what is not given, and the exit status is 0 exactly when the call (or the help) succeeded (or a file could not be read for create-template), 2 for a wrong command line and 1 for an error of the call.", "quantifier": "all three commands and all sequences of words after them", "why_tests_cant": "The order, repetition and spelling of the options of a command line are unbounded, and one option that is wired to the wrong parameter, or whose absence overrides a default, shows only when it is used.", "anchors": ["flattentool/cli.py:create_parser", "flattentool/cli.py:kwargs_from_parsed_args", "flattentool/cli.py:main", "flattentool/__init__.py:create_template", "flattentool/__init__.py:flatten", "flattentool/__init__.py:unflatten"]}
{"id": "C76", "title": "Flattening does not depend on the order of fields and objects", "statement": "Two documents that are the same up to the order of the fields of objects and of the objects in arrays of objects (at any depth, and of the objects of the root list) can both be flattened or neither; their sheets have the same names, the same columns and the same lines, up to the order of sheets, columns and lines. So flattening a document, unflattening the sheets and flattening the result gives the sheets of the first flattening again.", "quantifier": "all pairs of documents with such a difference in order, all schemas; for the second part all documents that survive the round trip (C11) and all orders of the sheets", "why_tests_cant": "Documents and their rearrangements are unbounded; a dependence on order (an id that is only carried by objects that come after it, a column that depends on which object is first) shows only for particular orders.", "anchors": ["flattentool/json_input.py:JSONParser.parse_json_dict", "flattentool/json_input.py:JSONParser.parse", "flattentool/input.py:SpreadsheetInput.unflatten"]}
{"id": "C77", "title": "A table survives being unflattened and flattened again", "statement": "Take a table whose headings are paths of fields (keys with slashes between them, none continuing another) and whose rows are objects of their own (rows with the same root id have different ids, or no id). Unflattening it and flattening the result gives the table back: one line for each row with data, with the same values under the same headings (a scalar as it is, a list in one cell as the same kind of text), no other sheets, and exactly the columns that had values (plus those that the schema gives). Without a schema, a table of texts and whole numbers can always be unflattened so, and if there is no root id and all rows or none have an id, the lines keep their order (in general the lines with an id come before those without, per root id).", "quantifier": "all tables of such a form, any number of rows, columns and levels; all schemas; all texts and numbers in the cells", "why_tests_cant": "Tables are unbounded; a value that moves to another column, or a row that is merged with another, shows only for particular combinations of headings, blanks and ids.", "anchors": ["flattentool/input.py:SpreadsheetInput.unflatten", "flattentool/input.py:unflatten_main_with_parser", "flattentool/json_input.py:JSONParser.parse_json_dict"]}
{"id": "C78", "title": "How data are spread over rows and sheets does not matter", "statement": "Let every row of two spreadsheets name what it speaks about: each heading is a position, the headings of a row fit together, and the row has the id of its object and, for each array item it mentions, the id of that item (different ids for different items). If both spreadsheets say the same - the same values at the same places of the same objects, where places are given by keys and ids, not by row, sheet, column or item number - and this is free of contradictions, then both are unflattened and give the same data, up to the order of objects, fields and array items, and no contradiction is reported. In particular a row can be split into several rows, on any sheets, as long as each part repeats the ids of what it speaks about: one wide row, a main sheet with sub-sheets, or one row per value are equivalent. The same holds for spreadsheets in files, of whatever formats.", "quantifier": "all pairs of spreadsheets of such a form: any number of sheets, rows, columns, levels of nesting, any numbering of items and any repetition", "why_tests_cant": "The ways to spread data over rows are unbounded; a merge that loses or misplaces something does so only for particular combinations of rows, ids and item numbers.", "anchors": ["flattentool/input.py:SpreadsheetInput.do_unflatten", "flattentool/input.py:merge", "flattentool/input.py:TemporaryDict", "flattentool/input.py:unflatten_main_with_parser"]}
{"id": "C79", "title": "What the text in a cell means depends only on the type of its column, by a fixed grammar", "statement": "A number column reads a text as a number exactly if it is one: spaces around, a sign, digits of any script with a point and an exponent, or infinity or NaN, with underscores anywhere; the value is the one the digits write. An integer column reads exactly the texts of whole numbers (spaces around, a sign, digits with single underscores between them). A boolean column reads exactly true and 1, false and 0, in any mixture of cases. The list columns split at semicolons, and inside the pieces at commas if the text has a comma; a number list is one only if all pieces are numbers. Text, date and untyped columns keep the text. Every other text is kept as it is (in a number list, as list of texts) with exactly one warning that quotes it; an empty cell has no value and no warning. A spreadsheet of one heading (a field that is no array of objects or object) and one cell becomes one object with what the type makes of the cell, with the same warnings; in XML mode an element with this as its text - but dates and times become dates, unless the name of the element has 'datetime' in it, and the text of a column of type array stays as it is.", "quantifier": "all texts and all column types except geometries", "why_tests_cant": "All strings: the boundary between numbers and other texts lies in rare forms (underscores, exponents, spaces, other scripts) that no list of examples exhausts.", "anchors": ["flattentool/input.py:convert_type"]}
{"id": "C80", "title": "The data hold exactly what the rows say", "statement": "If every object and array item that the rows speak about has an id in that row, and the rows do not contradict each other, then unflattening gives exactly one object for every pair of root id and id that some row speaks about. Each of these objects holds every value that some row says about it, at the place the heading names (fields by name, array items by their id); every value it holds was said by some row about that object and that place; and it has nothing else: no empty objects or arrays, no field twice, and no two items of an array with the same id. Conversely, if the rows say of a list of objects with different ids exactly what they hold, no more and no less, then unflattening gives these objects, up to the order of objects, fields and items, however the values are spread over sheets, rows and columns.", "quantifier": "all spreadsheets (any number of sheets, rows and columns, any nesting) whose rows name what they speak about and agree, all types of cells, with or without a root id", "why_tests_cant": "The claim ranges over all spreadsheets and every distribution of the values over rows and sheets; losing, inventing or misplacing a value in some rare combination is not visible in examples.", "anchors": ["flattentool/input.py:SpreadsheetInput.do_unflatten", "flattentool/input.py:SpreadsheetInput.unflatten", "flattentool/input.py:unflatten_main_with_parser", "flattentool/input.py:TemporaryDict", "flattentool/input.py:merge"]}
{"id": "C81", "title": "Rolled-up spreadsheets unflatten to the same data", "statement": "A document whose objects all have ids is flattened with rollup, where every array with a value that is rolled up has one item only and the item's id is rolled up too. Then unflattening the sheets gives the document back, up to the order of fields and items: the item that stands both on the main sheet and on its own sheet comes back once, not twice. This holds for any order and arrangement of the rows, columns and sheets, and for the sheets written to CSV files or workbooks and read again; the only warnings are about doubled headings and the conversion of cells. Such a document can be flattened with rollup exactly if the objects that are alone in an array of a root object have simple values only.", "quantifier": "all documents that survive the trip without rollup and whose objects have ids, all rollup lists and rollup columns of the schema, any nesting, any arrangement of the lines", "why_tests_cant": "Rollup writes a value twice, in two sheets, and relies on the merging of rows by id to get one item back; whether that works depends on all ids, types and positions in the document.", "anchors": ["flattentool/json_input.py:JSONParser.parse_json_dict", "flattentool/input.py:SpreadsheetInput.unflatten", "flattentool/input.py:merge", "flattentool/input.py:unflatten_main_with_parser"]}
{"id": "C82", "title": "An edit of a spreadsheet is local", "statement": "If one line of a spreadsheet is changed in whatever way, as long as its row keeps its id and its root id, unflattening gives as many objects as before, and all of them but one (at most) are exactly as before, at the same places. A line added at the end of the last sheet changes nothing, or adds one object, or extends one object, which keeps all it had. If one cell that is not an id gets another value, in a spreadsheet whose rows name everything they speak about and do not contradict each other, the object with the id of the row holds the new value at the position of the cell instead of the old one, and at all other positions what it held before. All this holds as well for the rows and cells of spreadsheets in CSV files, workbooks and ODS files, whatever the formats before and after, for the documents that unflatten writes.", "quantifier": "all spreadsheets, all lines in them and all edits of a line or a cell as described, all options of unflatten (the last sentence: not XML)", "why_tests_cant": "Which rows an object is made from, and the order of objects, depend on the ids in all rows of all sheets; a test edits a few cells of a few sheets.", "anchors": ["flattentool/input.py:SpreadsheetInput.do_unflatten", "flattentool/input.py:SpreadsheetInput.unflatten", "flattentool/input.py:TemporaryDict", "flattentool/input.py:unflatten_main_with_parser", "flattentool/input.py:merge"]}
{"id": "C83", "title": "What headings say in XML mode", "statement": "In XML mode the heading of an element means the text of the element, a heading that ends with `@…` an attribute, and everything else is as in JSON mode: unflattening a spreadsheet in XML mode gives what unflattening it in JSON mode gives after `/text()` was added to the headings of texts, except that each id is an element with the id as its text. So if the rows name everything they speak about and agree, there is one element for each id, with exactly the texts and attributes that the rows say; and if the rows say exactly what the elements of the root list of an XML document hold, however they are spread over rows and sheets, then unflattening and writing XML, with or without XML schemas, gives these elements, up to order.", "quantifier": "all spreadsheets in XML mode without schema types and root id whose headings consist of element names, numbers, attributes and ids and whose cells are kept by conversion; all XML documents (without namespace declarations) for the last sentence", "why_tests_cant": "The two modes place cells by different branches of the same loop, for every combination of headings of a row and over all rows that are merged; tests show a few headings.", "anchors": ["flattentool/input.py:unflatten_main_with_parser", "flattentool/input.py:SpreadsheetInput.do_unflatten", "flattentool/input.py:TemporaryDict", "flattentool/xml_output.py:toxml", "flattentool/xml_output.py:child_to_xml"]}
{"id": "C84", "title": "What is said about a schema", "statement": "The warnings about a schema are exactly those there is reason for, in create_template, flatten and unflatten (for unflatten: about the schema of the metatab if the metatab is read, and about the other schema if the other sheets are read). Reasons: a property that can be reached has no type the tool knows (its types, name and path are named); an object or item that can be reached has no properties; with rollup, an array of objects lists in rollUp names that are not fields of its items (those and only those are named); with titles, a field of the main sheet has no title for itself or something above it, a field of an array's items has no title or something above the array has none, or an array of objects with titled fields has none itself. Nothing else is said, and none of these is passed over, however deep.", "quantifier": "every schema (any depth, references resolved, alternatives at the top), every option set; property names not empty", "why_tests_cant": "Warnings can arise at every place of an unbounded schema and depend on everything above the place (titles) and below it (the fields shown by the items); tests see a handful of schemas.", "anchors": ["flattentool/schema.py: SchemaParser.parse, parse_schema_dict", "flattentool/__init__.py: create_template, flatten, unflatten"]}
{"id": "C85", "title": "A file means what its sheets say, whatever its format", "statement": "A spreadsheet whose sheets have a row of distinct headings and rows of cells below - possibly after a configuration line and rows to be skipped, and with further header rows, as configured there or by the default configuration - is unflattened (without metatab, titles or vertical sheets, and unless sheets are configured to be ignored or to have comments) to exactly what its rows give when each cell is taken with its heading: no cell, row or sheet is lost, moved or added between the file and the data, and the warnings are those about the rows. The same sheets as a directory of CSV files (in any order, among other files), as an XLSX file or as an ODS file give the same document, warnings and source maps, or the same error. In particular, if the rows name everything they speak about and describe a list of objects - say all they hold and nothing else, in whatever rows and sheets - then the file written holds these objects (below the root list path in the base document, or as a list), and the only warnings are about cells that do not fit the types of the schema.", "quantifier": "every list of sheets, of any size and content, in each of the three formats; every schema, id name, root id, root list path and base document; every list of objects", "why_tests_cant": "Tests compare a few fixture files with expected documents; the claim ranges over all spreadsheets, all distributions of data over rows and sheets, and the combination of reading, merging and output.", "anchors": ["flattentool/__init__.py: unflatten", "flattentool/input.py: CSVInput, XLSXInput, ODSInput, SpreadsheetInput.do_unflatten"]}
{"id": "C86", "title": "A file with titles means what the file with paths means", "statement": "For a schema whose titles identify its fields, a spreadsheet whose headings are made of titles of the schema - the titles on the way to a field, separated by colons, in any capitals and spacing, with item numbers in between - is unflattened with convert-titles to exactly the result that the same spreadsheet with field paths for headings gives without: the same document (JSON or XML) and warnings (up to the headings they name), or the same error; the two may be in different formats, and sheets, rows and other cells are the same. A part of a heading that is no title, and what follows it, stands for itself. Every column of a template created with titles (other than id columns) is such a heading, for the path of the field it was created for.", "quantifier": "every schema with such titles, every list of sheets of any size in any of the three formats, every option of unflatten other than source maps, metatab and vertical orientation", "why_tests_cant": "Tests unflatten a few files with titles; the claim compares all files with titles with all files with paths, over all schemas and all spellings of the titles.", "anchors": ["flattentool/__init__.py: unflatten", "flattentool/input.py: SpreadsheetInput.convert_dict_titles, SpreadsheetInput.get_sub_sheets_lines", "flattentool/schema.py: TitleLookup.lookup_header, SchemaParser.parse_schema_dict"]}
{"id": "C87", "title": "A geometry is flattened like its text", "statement": "When flatten converts geometries, a document gives exactly the result that the document with each geometry replaced by its text gives: the same sheets, columns, lines and warnings, or the same error. A geometry is here an object of type and coordinates only that the library can convert, as the value of a field at any depth, in items of arrays too; only objects that are themselves items of an array, or the whole document, and values of id fields or of fields whose name is empty or has a slash, are left.", "quantifier": "every list of documents of any depth, with any number of geometries, any conversion to text, every option of flatten other than XML, filter and rollup", "why_tests_cant": "Tests convert one point and one line in a fixed document; the claim compares all documents with geometries, at any depth, and every conversion.", "anchors": ["flattentool/json_input.py: JSONParser.parse_json_dict"]}
