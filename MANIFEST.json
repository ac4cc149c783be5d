{
 "claims": [
  {
   "property": "C01",
   "status": "proved",
   "theorems": [
    "Verif.C01_file",
    "Verif.C01_blanks_are_inert",
    "Verif.C01_blank_columns_are_inert",
    "Verif.C01_blank_line",
    "Verif.C01_blank_cell"
   ],
   "note": ""
  },
  {
   "property": "C02",
   "status": "proved",
   "theorems": [
    "Verif.C02_later_rows_keep_earlier_values"
   ],
   "note": ""
  },
  {
   "property": "C03",
   "status": "proved",
   "theorems": [
    "Verif.C03_rows_are_covered"
   ],
   "note": ""
  },
  {
   "property": "C04",
   "status": "proved",
   "theorems": [
    "Verif.C04_kept_or_reported"
   ],
   "note": ""
  },
  {
   "property": "C05",
   "status": "proved",
   "theorems": [
    "Verif.C05_again",
    "Verif.C05_all_twice"
   ],
   "note": ""
  },
  {
   "property": "C06",
   "status": "proved",
   "theorems": [
    "Verif.C06_file",
    "Verif.C06_file_without_ids",
    "Verif.C06_any_order_without_ids",
    "Verif.C06_any_order_without_ids_json",
    "Verif.C06_any_order",
    "Verif.C06_any_order_json"
   ],
   "note": ""
  },
  {
   "property": "C07",
   "status": "proved",
   "theorems": [
    "Verif.C07_one_object_per_id"
   ],
   "note": ""
  },
  {
   "property": "C08",
   "status": "proved",
   "theorems": [
    "Verif.C08_ids_unique",
    "Verif.C08_ids_unique_no_root"
   ],
   "note": ""
  },
  {
   "property": "C09",
   "status": "proved",
   "theorems": [
    "Verif.C09_items_by_index"
   ],
   "note": ""
  },
  {
   "property": "C10",
   "status": "proved",
   "theorems": [
    "Verif.C10_exact_content",
    "Verif.C10_pointer"
   ],
   "note": ""
  },
  {
   "property": "C11",
   "status": "proved",
   "theorems": [
    "Verif.C11_round_trip",
    "Verif.C11_round_trip_of_held",
    "Verif.C11_round_trip_of_sheets",
    "Verif.C11_csv_round_trip",
    "Verif.C11_xlsx_round_trip",
    "Verif.C11_texts_return",
    "Verif.C11_integers_return",
    "Verif.C11_booleans_return",
    "Verif.C11_decimals_return",
    "Verif.C11_lists_return"
   ],
   "note": ""
  },
  {
   "property": "C12",
   "status": "proved",
   "theorems": [
    "Verif.C12_no_exception",
    "Verif.C12_with_schema",
    "Verif.C12_texts_fit"
   ],
   "note": ""
  },
  {
   "property": "C13",
   "status": "proved",
   "theorems": [
    "Verif.C13_exactly_the_values",
    "Verif.C13_rows",
    "Verif.C13_without_schema"
   ],
   "note": ""
  },
  {
   "property": "C14",
   "status": "proved",
   "theorems": [
    "Verif.C14_locations",
    "Verif.C14_heading"
   ],
   "note": ""
  },
  {
   "property": "C15",
   "status": "proved",
   "theorems": [
    "Verif.C15_maps_never_fail"
   ],
   "note": ""
  },
  {
   "property": "C16",
   "status": "proved",
   "theorems": [
    "Verif.C16_headings"
   ],
   "note": ""
  },
  {
   "property": "C17",
   "status": "proved",
   "theorems": [
    "Verif.C17_value_of_type_or_text_reported",
    "Verif.C17_text_never_raises"
   ],
   "note": ""
  },
  {
   "property": "C18",
   "status": "proved",
   "theorems": [
    "Verif.C18_integer_column",
    "Verif.C18_number_column",
    "Verif.C18_heading_index"
   ],
   "note": ""
  },
  {
   "property": "C19",
   "status": "proved",
   "theorems": [
    "Verif.C19_decimal_text_round_trip",
    "Verif.C19_equality_is_numeric",
    "Verif.C19_json_number",
    "Verif.C19_json_exact",
    "Verif.C19_json_precision"
   ],
   "note": ""
  },
  {
   "property": "C20",
   "status": "proved",
   "theorems": [
    "Verif.C20_string_list_iff",
    "Verif.C20_list_of_lists",
    "Verif.C20_number_list"
   ],
   "note": ""
  },
  {
   "property": "C21",
   "status": "proved",
   "theorems": [
    "Verif.C21_bool_round_trip",
    "Verif.C21_only_boolean_texts"
   ],
   "note": ""
  },
  {
   "property": "C22",
   "status": "proved",
   "theorems": [
    "Verif.C22_untyped_verbatim"
   ],
   "note": ""
  },
  {
   "property": "C23",
   "status": "proved",
   "theorems": [
    "Verif.C23_one_line_per_object",
    "Verif.C23_sheet_name",
    "Verif.C23_line_counts",
    "Verif.C23_flatten_succeeds",
    "Verif.C23_flatten_iff"
   ],
   "note": ""
  },
  {
   "property": "C24",
   "status": "proved",
   "theorems": [
    "Verif.C24_lines_hold_the_values",
    "Verif.C24_lines_hold_nothing_else",
    "Verif.C24_array_in_one_cell"
   ],
   "note": ""
  },
  {
   "property": "C25",
   "status": "proved",
   "theorems": [
    "Verif.C25_every_value_has_a_column"
   ],
   "note": ""
  },
  {
   "property": "C26",
   "status": "proved",
   "theorems": [
    "Verif.C26_no_repeated_headings"
   ],
   "note": ""
  },
  {
   "property": "C27",
   "status": "proved",
   "theorems": [
    "Verif.C27_lines_carry_ancestor_ids"
   ],
   "note": ""
  },
  {
   "property": "C28",
   "status": "proved",
   "theorems": [
    "Verif.C28_filter_selects"
   ],
   "note": ""
  },
  {
   "property": "C29",
   "status": "proved",
   "theorems": [
    "Verif.C29_line_counts",
    "Verif.C29_preserve_fields"
   ],
   "note": ""
  },
  {
   "property": "C30",
   "status": "proved",
   "theorems": [
    "Verif.C30_flatten_iff",
    "Verif.C30_sub_sheets_unchanged",
    "Verif.C30_main_lines",
    "Verif.C30_preserved_fields",
    "Verif.C30_warnings",
    "Verif.C30_titles"
   ],
   "note": ""
  },
  {
   "property": "C31",
   "status": "proved",
   "theorems": [
    "Verif.C31_csv_files",
    "Verif.C31_worksheet_titles"
   ],
   "note": ""
  },
  {
   "property": "C32",
   "status": "proved",
   "theorems": [
    "Verif.C32_lines_complete_and_in_order"
   ],
   "note": ""
  },
  {
   "property": "C33",
   "status": "proved",
   "theorems": [
    "Verif.C33_csv_writes",
    "Verif.C33_csv_reads_back",
    "Verif.C33_flatten_csv_reads_back",
    "Verif.C33_xlsx_reads_back"
   ],
   "note": ""
  },
  {
   "property": "C34",
   "status": "proved",
   "theorems": [
    "Verif.C34_sheets_titles",
    "Verif.C34_columns_titles",
    "Verif.C34_id_columns_titles",
    "Verif.C34_main",
    "Verif.C34_main_paths",
    "Verif.C34_sheets",
    "Verif.C34_columns",
    "Verif.C34_id_columns",
    "Verif.C34_every_field",
    "Verif.C34_main_titles"
   ],
   "note": ""
  },
  {
   "property": "C35",
   "status": "proved",
   "theorems": [
    "Verif.C35_case_and_spaces"
   ],
   "note": ""
  },
  {
   "property": "C36",
   "status": "proved",
   "theorems": [
    "Verif.C36_heading_to_path",
    "Verif.C36_unknown_kept",
    "Verif.C36_titles_to_path",
    "Verif.C36_template_columns",
    "Verif.C36_line"
   ],
   "note": ""
  },
  {
   "property": "C37",
   "status": "proved",
   "theorems": [
    "Verif.C37_no_deprecated"
   ],
   "note": ""
  },
  {
   "property": "C38",
   "status": "proved",
   "theorems": [
    "Verif.C38_types",
    "Verif.C38_only_properties"
   ],
   "note": ""
  },
  {
   "property": "C39",
   "status": "proved",
   "theorems": [
    "Verif.C39_config_meaning",
    "Verif.C39_clamped",
    "Verif.C39_other_cells_inert"
   ],
   "note": ""
  },
  {
   "property": "C40",
   "status": "proved",
   "theorems": [
    "Verif.C40_csv",
    "Verif.C40_xlsx",
    "Verif.C40_ods"
   ],
   "note": ""
  },
  {
   "property": "C41",
   "status": "proved",
   "theorems": [
    "Verif.C41_sheet_selection",
    "Verif.C41_csv_selection"
   ],
   "note": ""
  },
  {
   "property": "C42",
   "status": "proved",
   "theorems": [
    "Verif.C42_csv_last_column_used",
    "Verif.C42_xlsx_last_column_used",
    "Verif.C42_ods_last_column_used",
    "Verif.C42_duplicate_headings_reported"
   ],
   "note": ""
  },
  {
   "property": "C43",
   "status": "proved",
   "theorems": [
    "Verif.C43_formats_agree"
   ],
   "note": ""
  },
  {
   "property": "C44",
   "status": "proved",
   "theorems": [
    "Verif.C44_sorted_by_schema",
    "Verif.C44_sorting_is_unique",
    "Verif.C44_sorting_twice"
   ],
   "note": ""
  },
  {
   "property": "C45",
   "status": "proved",
   "theorems": [
    "Verif.C45_wrapped",
    "Verif.C45_determined",
    "Verif.C45_consistent",
    "Verif.C45_unchanged",
    "Verif.C45_twice"
   ],
   "note": ""
  },
  {
   "property": "C46",
   "status": "proved",
   "theorems": [
    "Verif.C46_attributes_ascend",
    "Verif.C46_element",
    "Verif.C46_attribute_order",
    "Verif.C46_succeeds",
    "Verif.C46_document"
   ],
   "note": ""
  },
  {
   "property": "C47",
   "status": "proved",
   "theorems": [
    "Verif.C47_two_runs",
    "Verif.C47_two_runs_plain",
    "Verif.C47_base_and_list",
    "Verif.C47_metatab_fields"
   ],
   "note": ""
  },
  {
   "property": "C48",
   "status": "proved",
   "theorems": [
    "Verif.C48_reads",
    "Verif.C48_other_files_irrelevant",
    "Verif.C48_web_refs_work",
    "Verif.C48_unflatten_reads",
    "Verif.C48_remote_schema_not_protected",
    "Verif.C48_no_local_refs"
   ],
   "note": ""
  },
  {
   "property": "C49",
   "status": "proved",
   "theorems": [
    "Verif.C49_flatten_refuses",
    "Verif.C49_flatten_format",
    "Verif.C49_flatten_accepts",
    "Verif.C49_unflatten_refuses",
    "Verif.C49_unflatten_accepts",
    "Verif.C49_flatten_checks",
    "Verif.C49_output_formats",
    "Verif.C49_unflatten_checks"
   ],
   "note": ""
  },
  {
   "property": "C50",
   "status": "proved",
   "theorems": [
    "Verif.C50_rollup_order_irrelevant"
   ],
   "note": ""
  },
  {
   "property": "C51",
   "status": "proved",
   "theorems": [
    "Verif.C51_every_cell_is_recorded"
   ],
   "note": ""
  },
  {
   "property": "C52",
   "status": "proved",
   "theorems": [
    "Verif.C52_schema_order",
    "Verif.C52_recursive_schema"
   ],
   "note": ""
  },
  {
   "property": "C53",
   "status": "proved",
   "theorems": [
    "Verif.C53_list",
    "Verif.C53_plain",
    "Verif.C53_metatab_only",
    "Verif.C53_metatab"
   ],
   "note": ""
  },
  {
   "property": "C54",
   "status": "proved",
   "theorems": [
    "Verif.C54_locations_in_the_file"
   ],
   "note": ""
  },
  {
   "property": "C55",
   "status": "proved",
   "theorems": [
    "Verif.C55_root_list_path",
    "Verif.C55_id_name",
    "Verif.C55_xml_root_tag",
    "Verif.C55_metatab_line_extends_default"
   ],
   "note": ""
  },
  {
   "property": "C56",
   "status": "proved",
   "theorems": [
    "Verif.C56_root_items",
    "Verif.C56_list_items",
    "Verif.C56_only_the_root_list",
    "Verif.C56_xml_items",
    "Verif.C56_xml_no_list"
   ],
   "note": ""
  },
  {
   "property": "C57",
   "status": "proved",
   "theorems": [
    "Verif.C57_schema_columns_first",
    "Verif.C57_no_empty_columns_added",
    "Verif.C57_sub_sheets",
    "Verif.C57_sub_sheets_without_empty"
   ],
   "note": ""
  },
  {
   "property": "C58",
   "status": "proved",
   "theorems": [
    "Verif.C58_csv_round_trip",
    "Verif.C58_xlsx_round_trip"
   ],
   "note": ""
  },
  {
   "property": "C59",
   "status": "proved",
   "theorems": [
    "Verif.C59_ods_round_trip",
    "Verif.C59_texts_return",
    "Verif.C59_integers_return"
   ],
   "note": ""
  },
  {
   "property": "C60",
   "status": "proved",
   "theorems": [
    "Verif.C60_tables_read"
   ],
   "note": ""
  },
  {
   "property": "C61",
   "status": "proved",
   "theorems": [
    "Verif.Api.C61_flatten_places",
    "Verif.Api.C61_template_places",
    "Verif.Api.C61_all_formats",
    "Verif.Api.C61_template_all_formats",
    "Verif.Api.C61_refused"
   ],
   "note": ""
  },
  {
   "property": "C62",
   "status": "proved",
   "theorems": [
    "Verif.Api.C62_template_is_empty_flatten"
   ],
   "note": ""
  },
  {
   "property": "C63",
   "status": "proved",
   "theorems": [
    "Verif.Api.C63_headings_only",
    "Verif.Api.C63_template_is_empty"
   ],
   "note": ""
  },
  {
   "property": "C64",
   "status": "proved",
   "theorems": [
    "Verif.C64_json_text",
    "Verif.C64_writable",
    "Verif.C64_refused"
   ],
   "note": ""
  },
  {
   "property": "C65",
   "status": "proved",
   "theorems": [
    "Verif.C65_left_out_sheets",
    "Verif.C65_comment_columns_xlsx",
    "Verif.C65_comment_columns_ods"
   ],
   "note": ""
  },
  {
   "property": "C66",
   "status": "proved",
   "theorems": [
    "Verif.C66_text_round_trip",
    "Verif.C66_too_long",
    "Verif.C66_csv_text",
    "Verif.C66_csv_exact",
    "Verif.C66_csv_injective"
   ],
   "note": ""
  },
  {
   "property": "C67",
   "status": "proved",
   "theorems": [
    "Verif.C67_vertical"
   ],
   "note": ""
  },
  {
   "property": "C68",
   "status": "proved",
   "theorems": [
    "Verif.C68_numbers_only_order"
   ],
   "note": ""
  },
  {
   "property": "C69",
   "status": "proved",
   "theorems": [
    "Verif.Api.C69_flatten_writes"
   ],
   "note": ""
  },
  {
   "property": "C70",
   "status": "proved",
   "theorems": [
    "Verif.Api.C70_template_writes",
    "Verif.Api.C70_titles"
   ],
   "note": ""
  },
  {
   "property": "C71",
   "status": "proved",
   "theorems": [
    "Verif.C71_titles_round_trip",
    "Verif.C71_round_trip_of_held",
    "Verif.C71_csv_round_trip",
    "Verif.C71_xlsx_round_trip",
    "Verif.C71_files_csv",
    "Verif.C71_files_xlsx",
    "Verif.C71_files_ods",
    "Verif.C71_texts_csv"
   ],
   "note": ""
  },
  {
   "property": "C72",
   "status": "proved",
   "theorems": [
    "Verif.C72_column_letters",
    "Verif.C72_cell_map_file",
    "Verif.C72_heading_map_file",
    "Verif.C72_file_names_cells"
   ],
   "note": ""
  },
  {
   "property": "C73",
   "status": "proved",
   "theorems": [
    "Verif.C73_xml_round_trip",
    "Verif.C73_xml_document"
   ],
   "note": ""
  },
  {
   "property": "C74",
   "status": "proved",
   "theorems": [
    "Verif.C74_missing_fields",
    "Verif.C74_not_objects",
    "Verif.C74_no_list_no_warning",
    "Verif.C74_unknown_fields",
    "Verif.C74_removed_characters"
   ],
   "note": ""
  },
  {
   "property": "C75",
   "status": "proved",
   "theorems": [
    "Verif.C75_options",
    "Verif.C75_verbose",
    "Verif.C75_no_option_is_lost",
    "Verif.C75_only",
    "Verif.C75_input_format",
    "Verif.C75_output_format",
    "Verif.C75_schema_needed",
    "Verif.C75_unflatten_defaults",
    "Verif.C75_flatten_defaults",
    "Verif.C75_template_defaults",
    "Verif.C75_status"
   ],
   "note": ""
  },
  {
   "property": "C76",
   "status": "proved",
   "theorems": [
    "Verif.C76_same_lines",
    "Verif.C76_same_success",
    "Verif.C76_same_sheets",
    "Verif.C76_same_columns",
    "Verif.C76_order_does_not_matter",
    "Verif.C76_flatten_again",
    "Verif.C76_flatten_again_csv"
   ],
   "note": ""
  },
  {
   "property": "C77",
   "status": "proved",
   "theorems": [
    "Verif.C77_table_survives",
    "Verif.C77_columns",
    "Verif.C77_text_table"
   ],
   "note": ""
  },
  {
   "property": "C78",
   "status": "proved",
   "theorems": [
    "Verif.C78_file",
    "Verif.C78_same_said",
    "Verif.C78_split"
   ],
   "note": ""
  },
  {
   "property": "C79",
   "status": "proved",
   "theorems": [
    "Verif.C79_number",
    "Verif.C79_integer",
    "Verif.C79_boolean",
    "Verif.C79_pieces",
    "Verif.C79_list",
    "Verif.C79_number_list",
    "Verif.C79_text",
    "Verif.C79_json_field",
    "Verif.C79_xml_element",
    "Verif.C79_xml_date",
    "Verif.C79_xml_array"
   ],
   "note": ""
  },
  {
   "property": "C80",
   "status": "proved",
   "theorems": [
    "Verif.C80_exactly",
    "Verif.C80_describes"
   ],
   "note": ""
  },
  {
   "property": "C81",
   "status": "proved",
   "theorems": [
    "Verif.C81_flattens_iff",
    "Verif.C81_round_trip_of_held",
    "Verif.C81_csv_round_trip",
    "Verif.C81_xlsx_round_trip",
    "Verif.C81_rollup_round_trip"
   ],
   "note": ""
  },
  {
   "property": "C82",
   "status": "proved",
   "theorems": [
    "Verif.C82_file",
    "Verif.C82_file_added",
    "Verif.C82_file_cell",
    "Verif.C82_other_objects",
    "Verif.C82_added_line",
    "Verif.C82_cell"
   ],
   "note": ""
  },
  {
   "property": "C83",
   "status": "proved",
   "theorems": [
    "Verif.C83_xml_mode",
    "Verif.C83_exactly",
    "Verif.C83_document"
   ],
   "note": ""
  },
  {
   "property": "C84",
   "status": "proved",
   "theorems": [
    "Verif.C84_schema_warnings",
    "Verif.Api.C84_template",
    "Verif.Api.C84_flatten",
    "Verif.Api.C84_unflatten"
   ],
   "note": ""
  },
  {
   "property": "C85",
   "status": "proved",
   "theorems": [
    "Verif.C85_file",
    "Verif.C85_formats",
    "Verif.C85_described"
   ],
   "note": ""
  },
  {
   "property": "C86",
   "status": "proved",
   "theorems": [
    "Verif.C86_titles",
    "Verif.C86_template"
   ],
   "note": ""
  },
  {
   "property": "C87",
   "status": "proved",
   "theorems": [
    "Verif.C87_geometries"
   ],
   "note": ""
  }
 ]
}