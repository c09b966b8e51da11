{
 "claims": [
  {
   "property": "C01",
   "status": "proved",
   "theorems": [
    "Verif.Props.C01_decode_encode"
   ],
   "note": "decode_encode for the 70-form table generated from src/instruction.rs."
  },
  {
   "property": "C02",
   "status": "proved",
   "theorems": [
    "Verif.Props.C02_encode_decode"
   ],
   "note": ""
  },
  {
   "property": "C03",
   "status": "proved",
   "theorems": [
    "Verif.Props.C03_size",
    "Verif.Props.C03_size_eval"
   ],
   "note": ""
  },
  {
   "property": "C04",
   "status": "proved",
   "theorems": [
    "Verif.Props.C04_decode_total",
    "Verif.Props.C04_decode_empty"
   ],
   "note": "Non-empty input; on the empty string the generated decoder panics (C04_decode_empty)."
  },
  {
   "property": "C05",
   "status": "proved",
   "theorems": [
    "Verif.Props.C05_documented_bits"
   ],
   "note": ""
  },
  {
   "property": "C06",
   "status": "proved",
   "theorems": [
    "Verif.Props.C06_no_truncation",
    "Verif.Props.C06_out_of_range",
    "Verif.Props.C06_in_range"
   ],
   "note": "next < 2^31: the position is cast to i32 by the code."
  },
  {
   "property": "C07",
   "status": "proved",
   "theorems": [
    "Verif.Props.C07_short_branch_lands",
    "Verif.Props.C07_short_branch_accepted"
   ],
   "note": "All forms whose last operand is r8."
  },
  {
   "property": "C08",
   "status": "proved",
   "theorems": [
    "Verif.Props.C08_long_branch_lands",
    "Verif.Props.C08_long_branch_accepted"
   ],
   "note": ""
  },
  {
   "property": "C09",
   "status": "proved",
   "theorems": [
    "Verif.Props.C09_page_jump_lands",
    "Verif.Props.C09_page_jump_accepted",
    "Verif.Props.C09_far_jump_lands"
   ],
   "note": "Includes jmpf/callf."
  },
  {
   "property": "C10",
   "status": "proved",
   "theorems": [
    "Verif.Props.C10_value_iff",
    "Verif.Props.C10_mode_independent",
    "Verif.Props.C10_value_unique"
   ],
   "note": ""
  },
  {
   "property": "C11",
   "status": "proved",
   "theorems": [
    "Verif.Props.C11_error_iff",
    "Verif.Props.C11_panic_iff",
    "Verif.Props.C11_outcomes",
    "Verif.Props.C11_reasons"
   ],
   "note": ""
  },
  {
   "property": "C12",
   "status": "proved",
   "theorems": [
    "Verif.Props.C12_depends_on_occurring"
   ],
   "note": ""
  },
  {
   "property": "C13",
   "status": "proved",
   "theorems": [
    "Verif.Props.C13_precedence",
    "Verif.Props.C13_minimal",
    "Verif.Props.C13_any_spelling"
   ],
   "note": ""
  },
  {
   "property": "C14",
   "status": "proved",
   "theorems": [
    "Verif.Props.C14_sound",
    "Verif.Props.C14_unambiguous",
    "Verif.Props.C14_total"
   ],
   "note": ""
  },
  {
   "property": "C15",
   "status": "proved",
   "theorems": [
    "Verif.Props.C15_same_value",
    "Verif.Props.C15_same",
    "Verif.Props.C15_octal"
   ],
   "note": ""
  },
  {
   "property": "C16",
   "status": "proved",
   "theorems": [
    "Verif.Props.C16_label_value",
    "Verif.Props.C16_word_of_label"
   ],
   "note": ""
  },
  {
   "property": "C17",
   "status": "proved",
   "theorems": [
    "Verif.Props.C17_positions_agree"
   ],
   "note": ""
  },
  {
   "property": "C18",
   "status": "proved",
   "theorems": [
    "Verif.Props.C18_duplicate_label",
    "Verif.Props.C18_duplicate_variable",
    "Verif.Props.C18_duplicates_rejected",
    "Verif.Props.C18_no_spurious"
   ],
   "note": ""
  },
  {
   "property": "C19",
   "status": "proved",
   "theorems": [
    "Verif.Props.C19_local_scope"
   ],
   "note": ""
  },
  {
   "property": "C20",
   "status": "proved",
   "theorems": [
    "Verif.Props.C20_tokens",
    "Verif.Props.C20_no_strings"
   ],
   "note": ""
  },
  {
   "property": "C21",
   "status": "proved",
   "theorems": [
    "Verif.Props.C21_length"
   ],
   "note": ""
  },
  {
   "property": "C22",
   "status": "proved",
   "theorems": [
    "Verif.Props.C22_image",
    "Verif.Props.C22_assembles_iff"
   ],
   "note": ""
  },
  {
   "property": "C23",
   "status": "proved",
   "theorems": [
    "Verif.Props.C23_no_out_of_bounds",
    "Verif.Props.C23_needs_2gib",
    "Verif.Props.C23_needs_forward_cnop"
   ],
   "note": ""
  },
  {
   "property": "C24",
   "status": "proved",
   "theorems": [
    "Verif.Props.C24_byte",
    "Verif.Props.C24_out_of_range",
    "Verif.Props.C24_size"
   ],
   "note": ""
  },
  {
   "property": "C25",
   "status": "proved",
   "theorems": [
    "Verif.Props.C25_word",
    "Verif.Props.C25_out_of_range",
    "Verif.Props.C25_size"
   ],
   "note": ""
  },
  {
   "property": "C26",
   "status": "proved",
   "theorems": [
    "Verif.Props.C26_text",
    "Verif.Props.C26_string"
   ],
   "note": ""
  },
  {
   "property": "C27",
   "status": "proved",
   "theorems": [
    "Verif.Props.C27_cnop",
    "Verif.Props.C27_exists",
    "Verif.Props.C27_hangs",
    "Verif.Props.C27_ends",
    "Verif.Props.C27_steps"
   ],
   "note": ""
  },
  {
   "property": "C28",
   "status": "proved",
   "theorems": [
    "Verif.Props.C28_comment",
    "Verif.Props.C28_local_label",
    "Verif.Props.C28_variable",
    "Verif.Props.C28_global_label_scopes"
   ],
   "note": ""
  },
  {
   "property": "C29",
   "status": "proved",
   "theorems": [
    "Verif.Props.C29_variable_value",
    "Verif.Props.C29_variable_error"
   ],
   "note": ""
  },
  {
   "property": "C30",
   "status": "proved",
   "theorems": [
    "Verif.Props.C30_hash_order",
    "Verif.Props.C30_terminates_checked",
    "Verif.Props.C30_terminates",
    "Verif.Props.C30_hang",
    "Verif.Props.C30_ends_checked",
    "Verif.Props.C30_ends_odd"
   ],
   "note": ""
  },
  {
   "property": "C31",
   "status": "proved",
   "theorems": [
    "Verif.Props.C31_substitution",
    "Verif.Props.C31_open_arguments"
   ],
   "note": ""
  },
  {
   "property": "C32",
   "status": "proved",
   "theorems": [
    "Verif.Props.C32_hygiene"
   ],
   "note": ""
  },
  {
   "property": "C33",
   "status": "proved",
   "theorems": [
    "Verif.Props.C33_no_calls",
    "Verif.Props.C33_closed",
    "Verif.Props.C33_open_arguments"
   ],
   "note": ""
  },
  {
   "property": "C34",
   "status": "proved",
   "theorems": [
    "Verif.Props.C34_unchanged",
    "Verif.Props.C34_idempotent"
   ],
   "note": ""
  },
  {
   "property": "C35",
   "status": "proved",
   "theorems": [
    "Verif.Props.C35_selected",
    "Verif.Props.C35_missing",
    "Verif.Props.C35_irrelevant"
   ],
   "note": ""
  },
  {
   "property": "C36",
   "status": "proved",
   "theorems": [
    "Verif.Props.C36_terminates",
    "Verif.Props.C36_recursive",
    "Verif.Props.C36_direct_recursion",
    "Verif.Props.C36_open_arguments"
   ],
   "note": ""
  },
  {
   "property": "C37",
   "status": "proved",
   "theorems": [
    "Verif.Props.C37_ascii",
    "Verif.Props.C37_terminates",
    "Verif.Props.C37_progress",
    "Verif.Props.C37_combining_hang"
   ],
   "note": ""
  },
  {
   "property": "C38",
   "status": "proved",
   "theorems": [
    "Verif.Props.C38_tiles",
    "Verif.Props.C38_ordered",
    "Verif.Props.C38_rejects"
   ],
   "note": ""
  },
  {
   "property": "C39",
   "status": "proved",
   "theorems": [
    "Verif.Props.C39_value",
    "Verif.Props.C39_too_big"
   ],
   "note": ""
  },
  {
   "property": "C40",
   "status": "proved",
   "theorems": [
    "Verif.Props.C40_comments"
   ],
   "note": ""
  },
  {
   "property": "C41",
   "status": "proved",
   "theorems": [
    "Verif.Props.C41_value",
    "Verif.Props.C41_tokens"
   ],
   "note": ""
  },
  {
   "property": "C42",
   "status": "proved",
   "theorems": [
    "Verif.Props.C42_partition",
    "Verif.Props.C42_same_line",
    "Verif.Props.C42_unique"
   ],
   "note": ""
  },
  {
   "property": "C43",
   "status": "proved",
   "theorems": [
    "Verif.Props.C43_line",
    "Verif.Props.C43_line_error",
    "Verif.Props.C43_unambiguous",
    "Verif.Props.C43_program",
    "Verif.Props.C43_program_error",
    "Verif.Props.C43_line_end"
   ],
   "note": ""
  },
  {
   "property": "C44",
   "status": "proved",
   "theorems": [
    "Verif.Props.C44_accepted",
    "Verif.Props.C44_wrong_args",
    "Verif.Props.C44_unknown",
    "Verif.Props.C44_exists"
   ],
   "note": ""
  },
  {
   "property": "C45",
   "status": "proved",
   "theorems": [
    "Verif.Props.C45_checked",
    "Verif.Props.C45_wellFormed",
    "Verif.Props.C45_instruction_name",
    "Verif.Props.C45_same_macro",
    "Verif.Props.C45_repeated_parameter"
   ],
   "note": ""
  },
  {
   "property": "C46",
   "status": "proved",
   "theorems": [
    "Verif.Props.C46_inserted",
    "Verif.Props.C46_both_accepted",
    "Verif.Props.C46_twice",
    "Verif.Props.C46_bare_label",
    "Verif.Props.C46_cycle",
    "Verif.Props.C46_header_include"
   ],
   "note": ""
  },
  {
   "property": "C47",
   "status": "proved",
   "theorems": [
    "Verif.Props.C47_bytes",
    "Verif.Props.C47_missing",
    "Verif.Props.C47_position",
    "Verif.Props.C47_literal"
   ],
   "note": ""
  },
  {
   "property": "C48",
   "status": "proved",
   "theorems": [
    "Verif.Props.C48_lines",
    "Verif.Props.C48_defines",
    "Verif.Props.C48_aliases",
    "Verif.Props.C48_no_expression",
    "Verif.Props.C48_comment_crash"
   ],
   "note": ""
  },
  {
   "property": "C49",
   "status": "proved",
   "theorems": [
    "Verif.Props.C49_ends",
    "Verif.Props.C49_errors",
    "Verif.Props.C49_blowup"
   ],
   "note": ""
  },
  {
   "property": "C50",
   "status": "proved",
   "theorems": [
    "Verif.Props.C50_closed",
    "Verif.Props.C50_reached",
    "Verif.Props.C50_flow_cpu"
   ],
   "note": ""
  },
  {
   "property": "C51",
   "status": "proved",
   "theorems": [
    "Verif.Props.C51_instructions"
   ],
   "note": ""
  },
  {
   "property": "C52",
   "status": "proved",
   "theorems": [
    "Verif.Props.C52_covered",
    "Verif.Props.C52_data",
    "Verif.Props.C52_ordered"
   ],
   "note": ""
  },
  {
   "property": "C53",
   "status": "proved",
   "theorems": [
    "Verif.Props.C53_consistent",
    "Verif.Props.C53_operands",
    "Verif.Props.C53_names",
    "Verif.Props.C53_dangling"
   ],
   "note": ""
  },
  {
   "property": "C54",
   "status": "proved",
   "theorems": [
    "Verif.Props.C54_listing",
    "Verif.Props.C54_length",
    "Verif.Props.C54_same",
    "Verif.Props.C54_file",
    "Verif.Props.C54_iff",
    "Verif.Props.C54_targets",
    "Verif.Props.C54_overlap"
   ],
   "note": ""
  },
  {
   "property": "C55",
   "status": "proved",
   "theorems": [
    "Verif.Props.C55_sprite_rows",
    "Verif.Props.C55_frames",
    "Verif.Props.C55_tie"
   ],
   "note": ""
  },
  {
   "property": "C56",
   "status": "proved",
   "theorems": [
    "Verif.Props.C56_palette",
    "Verif.Props.C56_pixels"
   ],
   "note": ""
  },
  {
   "property": "C57",
   "status": "proved",
   "theorems": [
    "Verif.Props.C57_icon",
    "Verif.Props.C57_order"
   ],
   "note": ""
  },
  {
   "property": "C58",
   "status": "proved",
   "theorems": [
    "Verif.Props.C58_limits",
    "Verif.Props.C58_errors",
    "Verif.Props.C58_length"
   ],
   "note": ""
  },
  {
   "property": "C59",
   "status": "proved",
   "theorems": [
    "Verif.Props.C59_nearest",
    "Verif.Props.C59_channels",
    "Verif.Props.C59_levels"
   ],
   "note": ""
  },
  {
   "property": "C60",
   "status": "proved",
   "theorems": [
    "Verif.Props.C60_layout",
    "Verif.Props.C60_names",
    "Verif.Props.C60_short"
   ],
   "note": "Year must fit 16 bits. VMS files shorter than the description field make the command panic (C60_short)."
  },
  {
   "property": "C61",
   "status": "proved",
   "theorems": [
    "Verif.Props.C61_resolved",
    "Verif.Props.C61_first_contents",
    "Verif.Props.C61_ids",
    "Verif.Props.C61_again",
    "Verif.Props.C61_for_id",
    "Verif.Props.C61_error"
   ],
   "note": ""
  },
  {
   "property": "C62",
   "status": "proved",
   "theorems": [
    "Verif.Props.C62_tokens",
    "Verif.Props.C62_unexpected",
    "Verif.Props.C62_update"
   ],
   "note": ""
  },
  {
   "property": "C63",
   "status": "partial",
   "theorems": [
    "Verif.Props.C63_line_partial",
    "Verif.Props.C63_last_line",
    "Verif.Props.C63_final_newline",
    "Verif.Props.C63_one_byte",
    "Verif.Props.C63_every_place",
    "Verif.Props.C63_caret",
    "Verif.Props.C63_under_token"
   ],
   "note": "Proved for all lines that are not followed by the final line break of the text, for texts of two bytes or more. For the last line of a text ending in a line break the excerpt also contains the line break (C63_last_line, counterexample C63_final_newline), and in a one-byte text the checked build panics (C63_one_byte). The carets are proved for all spans."
  },
  {
   "property": "C64",
   "status": "proved",
   "theorems": [
    "Verif.Props.C64_source",
    "Verif.Props.C64_bytes",
    "Verif.Props.C64_terminates",
    "Verif.Props.C64_panics"
   ],
   "note": ""
  },
  {
   "property": "C65",
   "status": "proved",
   "theorems": [
    "Verif.Props.C65_program",
    "Verif.Props.C65_same",
    "Verif.Props.C65_expand",
    "Verif.Props.C65_source",
    "Verif.Props.C65_again",
    "Verif.Props.C65_limits"
   ],
   "note": ""
  },
  {
   "property": "C66",
   "status": "proved",
   "theorems": [
    "Verif.Props.C66_release",
    "Verif.Props.C66_terminates",
    "Verif.Props.C66_endless",
    "Verif.Props.C66_cycle",
    "Verif.Props.C66_statements",
    "Verif.Props.C66_assemble"
   ],
   "note": ""
  },
  {
   "property": "C67",
   "status": "proved",
   "theorems": [
    "Verif.Props.C67_reading",
    "Verif.Props.C67_statements",
    "Verif.Props.C67_assemble"
   ],
   "note": ""
  },
  {
   "property": "C68",
   "status": "proved",
   "theorems": [
    "Verif.Props.C68_program",
    "Verif.Props.C68_bytes",
    "Verif.Props.C68_expand",
    "Verif.Props.C68_case",
    "Verif.Props.C68_comment",
    "Verif.Props.C68_header_comment"
   ],
   "note": ""
  },
  {
   "property": "C69",
   "status": "proved",
   "theorems": [
    "Verif.Props.C69_image_printed",
    "Verif.Props.C69_image_written",
    "Verif.Props.C69_icon"
   ],
   "note": ""
  },
  {
   "property": "C70",
   "status": "proved",
   "theorems": [
    "Verif.Props.C70_crash",
    "Verif.Props.C70_fails",
    "Verif.Props.C70_prints",
    "Verif.Props.C70_writes",
    "Verif.Props.C70_code_0",
    "Verif.Props.C70_codes",
    "Verif.Props.C70_image",
    "Verif.Props.C70_image_cut",
    "Verif.Props.C70_round_trip"
   ],
   "note": ""
  },
  {
   "property": "C71",
   "status": "proved",
   "theorems": [
    "Verif.Props.C71_same",
    "Verif.Props.C71_place",
    "Verif.Props.C71_in_files",
    "Verif.Props.C71_expression",
    "Verif.Props.C71_operand",
    "Verif.Props.C71_byte",
    "Verif.Props.C71_word",
    "Verif.Props.C71_not_whole"
   ],
   "note": ""
  },
  {
   "property": "C72",
   "status": "partial",
   "theorems": [
    "Verif.Props.C72_report_partial",
    "Verif.Props.C72_panics",
    "Verif.Props.C72_path",
    "Verif.Props.C72_one_byte"
   ],
   "note": "C72_report_partial assumes that no shown place is at the very beginning of a file with exactly one byte (in a build with overflow checks, or if this byte is a carriage return). For exactly these places reporting panics (C72_panics, concrete case C72_one_byte), so the property is false there. The grapheme segmentation is assumed to treat line breaks as Unicode does (BreaksLines). The sentences before and after the excerpts are C83."
  },
  {
   "property": "C73",
   "status": "proved",
   "theorems": [
    "Verif.Props.C73_message",
    "Verif.Props.C73_accepted"
   ],
   "note": ""
  },
  {
   "property": "C74",
   "status": "proved",
   "theorems": [
    "Verif.Props.C74_json",
    "Verif.Props.C74_determines",
    "Verif.Props.C74_layout",
    "Verif.Props.C74_command"
   ],
   "note": ""
  },
  {
   "property": "C75",
   "status": "proved",
   "theorems": [
    "Verif.Props.C75_loads",
    "Verif.Props.C75_fails",
    "Verif.Props.C75_frames"
   ],
   "note": ""
  },
  {
   "property": "C76",
   "status": "proved",
   "theorems": [
    "Verif.Props.C76_wrong",
    "Verif.Props.C76_first",
    "Verif.Props.C76_only",
    "Verif.Props.C76_file"
   ],
   "note": ""
  },
  {
   "property": "C77",
   "status": "proved",
   "theorems": [
    "Verif.Props.C77_line",
    "Verif.Props.C77_program",
    "Verif.Props.C77_line_only",
    "Verif.Props.C77_program_only",
    "Verif.Props.C77_right",
    "Verif.Props.C77_reported",
    "Verif.Props.C77_file"
   ],
   "note": ""
  },
  {
   "property": "C78",
   "status": "proved",
   "theorems": [
    "Verif.Props.C78_first",
    "Verif.Props.C78_only",
    "Verif.Props.C78_either",
    "Verif.Props.C78_file"
   ],
   "note": ""
  },
  {
   "property": "C79",
   "status": "proved",
   "theorems": [
    "Verif.Props.C79_data",
    "Verif.Props.C79_accepted",
    "Verif.Props.C79_first"
   ],
   "note": ""
  },
  {
   "property": "C80",
   "status": "proved",
   "theorems": [
    "Verif.Props.C80_error",
    "Verif.Props.C80_read",
    "Verif.Props.C80_reads",
    "Verif.Props.C80_fails",
    "Verif.Props.C80_iff",
    "Verif.Props.C80_unique",
    "Verif.Props.C80_assemble"
   ],
   "note": ""
  },
  {
   "property": "C81",
   "status": "proved",
   "theorems": [
    "Verif.Props.C81_command",
    "Verif.Props.C81_tokens",
    "Verif.Props.C81_program",
    "Verif.Props.C81_files",
    "Verif.Props.C81_exactly"
   ],
   "note": ""
  },
  {
   "property": "C82",
   "status": "proved",
   "theorems": [
    "Verif.Props.C82_command",
    "Verif.Props.C82_errors",
    "Verif.Props.C82_only"
   ],
   "note": ""
  },
  {
   "property": "C83",
   "status": "proved",
   "theorems": [
    "Verif.Props.C83_message",
    "Verif.Props.C83_crash",
    "Verif.Props.C83_assemble",
    "Verif.Props.C83_expand",
    "Verif.Props.C83_tells",
    "Verif.Props.C83_numbers"
   ],
   "note": ""
  },
  {
   "property": "C84",
   "status": "proved",
   "theorems": [
    "Verif.Props.C84_real",
    "Verif.Props.C84_silent",
    "Verif.Props.C84_none",
    "Verif.Props.C84_exactly",
    "Verif.Props.C84_one",
    "Verif.Props.C84_assemble",
    "Verif.Props.C84_expand"
   ],
   "note": ""
  },
  {
   "property": "C85",
   "status": "proved",
   "theorems": [
    "Verif.Props.C85_positions",
    "Verif.Props.C85_disassemble",
    "Verif.Props.C85_icon",
    "Verif.Props.C85_silent",
    "Verif.Props.C85_vmi",
    "Verif.Props.C85_load"
   ],
   "note": ""
  },
  {
   "property": "C86",
   "status": "proved",
   "theorems": [
    "Verif.Props.C86_renamed",
    "Verif.Props.C86_bytes",
    "Verif.Props.C86_one",
    "Verif.Props.C86_in_use",
    "Verif.Props.C86_text"
   ],
   "note": ""
  },
  {
   "property": "C87",
   "status": "proved",
   "theorems": [
    "Verif.Props.C87_image",
    "Verif.Props.C87_icon",
    "Verif.Props.C87_includes",
    "Verif.Props.C87_numbers"
   ],
   "note": ""
  },
  {
   "property": "C88",
   "status": "proved",
   "theorems": [
    "Verif.Props.C88_expand",
    "Verif.Props.C88_assembles_expands",
    "Verif.Props.C88_disassemble",
    "Verif.Props.C88_vmi",
    "Verif.Props.C88_image",
    "Verif.Props.C88_icon"
   ],
   "note": ""
  },
  {
   "property": "C89",
   "status": "proved",
   "theorems": [
    "Verif.Props.C89_arguments",
    "Verif.Props.C89_invalid"
   ],
   "note": ""
  },
  {
   "property": "C90",
   "status": "proved",
   "theorems": [
    "Verif.Props.C90_arrived",
    "Verif.Props.C90_remarks",
    "Verif.Props.C90_entries",
    "Verif.Props.C90_data",
    "Verif.Props.C90_text",
    "Verif.Props.C90_left_out"
   ],
   "note": ""
  },
  {
   "property": "C91",
   "status": "proved",
   "theorems": [
    "Verif.Props.C91_tokens",
    "Verif.Props.C91_bytes",
    "Verif.Props.C91_expand",
    "Verif.Props.C91_limits"
   ],
   "note": ""
  }
 ]
}