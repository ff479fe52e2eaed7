{
 "claims": [
  {
   "property": "C01",
   "status": "proved",
   "theorems": [
    "Teal.Props.C01_lossless",
    "Teal.Props.C01_grammar"
   ],
   "note": ""
  },
  {
   "property": "C02",
   "status": "partial",
   "theorems": [
    "Teal.Props.C02_positions_partial",
    "Teal.Props.C02_exact",
    "Teal.Props.C02_false"
   ],
   "note": "False of the code when a string literal contains a line break (C02_false); proved for all tokens not preceded by such a literal. C02_exact says which position every token gets: only line breaks between tokens are counted."
  },
  {
   "property": "C03",
   "status": "proved",
   "theorems": [
    "Teal.Props.C03_shapes"
   ],
   "note": ""
  },
  {
   "property": "C04",
   "status": "proved",
   "theorems": [
    "Teal.Props.C04_compositional"
   ],
   "note": ""
  },
  {
   "property": "C05",
   "status": "partial",
   "theorems": [
    "Teal.Props.C05_single_error",
    "Teal.Props.C05_error_iff",
    "Teal.Props.C05_tokens_before",
    "Teal.Props.C05_position_partial",
    "Teal.Props.C05_exact",
    "Teal.Props.C05_false"
   ],
   "note": "The position part holds only when no string contains a line break: otherwise the lexer goes on counting columns on the line where the string began (C05_false; C05_exact says which position the error has in every text)."
  },
  {
   "property": "C06",
   "status": "partial",
   "theorems": [
    "Teal.Props.C06_string_end_partial",
    "Teal.Props.C06_false",
    "Teal.Props.C06_exact"
   ],
   "note": "False of the code for literals whose last character is an escaped backslash. C06_exact: every literal of TEAL ends where it should if and only if its body does not end in a backslash. Where the code ends a literal in all cases is said by C01 (`Spelled`)."
  },
  {
   "property": "C07",
   "status": "proved",
   "theorems": [
    "Teal.Props.C07_split_lines"
   ],
   "note": ""
  },
  {
   "property": "C08",
   "status": "partial",
   "theorems": [
    "Teal.Props.C08_lines_agree_partial",
    "Teal.Props.C08_false",
    "Teal.Props.C08_exact"
   ],
   "note": "False after a string literal containing a line break. C08_exact says where every token is: as many lines further down as there are line breaks in the strings before it."
  },
  {
   "property": "C09",
   "status": "proved",
   "theorems": [
    "Teal.Props.C09_encode_decode"
   ],
   "note": "sort.Sort is represented by its contract (sorted permutation)."
  },
  {
   "property": "C10",
   "status": "partial",
   "theorems": [
    "Teal.Props.C10_symmetric",
    "Teal.Props.C10_sound",
    "Teal.Props.C10_iff_partial",
    "Teal.Props.C10_columns_partial",
    "Teal.Props.C10_self",
    "Teal.Props.C10_false"
   ],
   "note": "False for ranges spanning several lines (C10_false), where columns are compared as if all were on one line: C10_columns_partial is the exact condition."
  },
  {
   "property": "C11",
   "status": "proved",
   "theorems": [
    "Teal.Props.C11_int_literal",
    "Teal.Props.C11_unambiguous",
    "Teal.Props.C11_print_read",
    "Teal.Props.C11_uint8",
    "Teal.Props.C11_uint8_print_read",
    "Teal.Props.C11_int8",
    "Teal.Props.C11_int8_print_read"
   ],
   "note": ""
  },
  {
   "property": "C12",
   "status": "proved",
   "theorems": [
    "Teal.Props.C12_const_int",
    "Teal.Props.C12_short_long",
    "Teal.Props.C12_unambiguous"
   ],
   "note": ""
  },
  {
   "property": "C13",
   "status": "proved",
   "theorems": [
    "Teal.Props.C13_decode",
    "Teal.Props.C13_only_quoted",
    "Teal.Props.C13_no_crash",
    "Teal.Props.C13_roundtrip"
   ],
   "note": ""
  },
  {
   "property": "C14",
   "status": "partial",
   "theorems": [
    "Teal.Props.C14_decoders",
    "Teal.Props.C14_hex_exact",
    "Teal.Props.C14_base64_exact",
    "Teal.Props.C14_source_partial",
    "Teal.Props.C14_false"
   ],
   "note": "False of the two-word spellings when the base64 text begins with `//`: the rest of the line is read as a comment. True, in programs, of all other spellings, and of all texts at the level of the decoders."
  },
  {
   "property": "C15",
   "status": "partial",
   "theorems": [
    "Teal.Props.C15_field_version",
    "Teal.Props.C15_txn_version",
    "Teal.Props.C15_itxn_version",
    "Teal.Props.C15_txna_partial",
    "Teal.Props.C15_false"
   ],
   "note": "False of the opcodes with an index immediate, which do not look at the version."
  },
  {
   "property": "C16",
   "status": "proved",
   "theorems": [
    "Teal.Props.C16_print_name",
    "Teal.Props.C16_unambiguous",
    "Teal.Props.C16_by_number",
    "Teal.Props.C16_txn_by_number",
    "Teal.Props.C15_field_version",
    "Teal.Props.C15_txn_version",
    "Teal.Props.C15_itxn_version",
    "Teal.Props.C15_txna_partial"
   ],
   "note": ""
  },
  {
   "property": "C27",
   "status": "proved",
   "theorems": [
    "Teal.Props.C27_duplicate_labels"
   ],
   "note": ""
  },
  {
   "property": "C28",
   "status": "proved",
   "theorems": [
    "Teal.Props.C28_unused_labels",
    "Teal.Props.C28_redundant_lines"
   ],
   "note": ""
  },
  {
   "property": "C29",
   "status": "partial",
   "theorems": [
    "Teal.Props.C29_unreachable_sound",
    "Teal.Props.C29_unreachable_complete_partial",
    "Teal.Props.C29_exact",
    "Teal.Props.C29_false"
   ],
   "note": "Every line reported is unreachable.  The converse is false of the code behind retsub (C29_false); the lines reported are exactly the instructions behind b, return and err up to the next label that is referred to (C29_exact)."
  },
  {
   "property": "C30",
   "status": "proved",
   "theorems": [
    "Teal.Props.C30_rule",
    "Teal.Props.C30_redundant_branch"
   ],
   "note": ""
  },
  {
   "property": "C31",
   "status": "proved",
   "theorems": [
    "Teal.Props.C31_rule",
    "Teal.Props.C31_infinite_loop"
   ],
   "note": ""
  },
  {
   "property": "C32",
   "status": "proved",
   "theorems": [
    "Teal.Props.C32_pragma_position",
    "Teal.Props.C32_only_pragmas"
   ],
   "note": ""
  },
  {
   "property": "C18",
   "status": "partial",
   "theorems": [
    "Teal.Props.C18_one_per_line_partial",
    "Teal.Props.C18_false"
   ],
   "note": "Proved for texts no line of which has more words than its instruction takes; false of the code otherwise (pop 1); C123 says what the listing of every text is."
  },
  {
   "property": "C19",
   "status": "partial",
   "theorems": [
    "Teal.Props.C19_line_local",
    "Teal.Props.C19_replace_line",
    "Teal.Props.C19_false"
   ],
   "note": "Proved for any change of one line that lexes on its own; false of the code for a line that opens a string and never closes it (C19_false)."
  },
  {
   "property": "C20",
   "status": "proved",
   "theorems": [
    "Teal.Props.C20_symbols",
    "Teal.Props.C20_position"
   ],
   "note": ""
  },
  {
   "property": "C21",
   "status": "partial",
   "theorems": [
    "Teal.Props.C21_references",
    "Teal.Props.C21_missing_refs",
    "Teal.Props.C21_missing_rule",
    "Teal.Props.C21_missing_diag_partial",
    "Teal.Props.C21_false"
   ],
   "note": "References and missing references proved for all texts; the missing-label diagnostic is on the wrong line behind a line with surplus words (C21_false); C123 says on which."
  },
  {
   "property": "C22",
   "status": "partial",
   "theorems": [
    "Teal.Props.C22_version_partial",
    "Teal.Props.C22_only",
    "Teal.Props.C22_suggestion_partial",
    "Teal.Props.C22_args",
    "Teal.Props.C22_false"
   ],
   "note": "All opcodes but args, whose modes are swapped in the code (C22_false; C22_args says what is reported of it)."
  },
  {
   "property": "C23",
   "status": "partial",
   "theorems": [
    "Teal.Props.C23_mode_partial",
    "Teal.Props.C22_only",
    "Teal.Props.C22_args",
    "Teal.Props.C22_false"
   ],
   "note": "All opcodes but args, whose modes are swapped in the code (C22_false; C22_args says what is reported of it)."
  },
  {
   "property": "C24",
   "status": "partial",
   "theorems": [
    "Teal.Props.C24_pragma_partial",
    "Teal.Props.C24_false"
   ],
   "note": "Exact acceptance condition proved: any integer literal (also hexadecimal, octal, binary) from 1 to 2^64-1, extra words ignored, recorded modulo 256."
  },
  {
   "property": "C25",
   "status": "proved",
   "theorems": [
    "Teal.Props.C25_positions"
   ],
   "note": ""
  },
  {
   "property": "C36",
   "status": "partial",
   "theorems": [
    "Teal.Props.C36_partial",
    "Teal.Props.C36_exact",
    "Teal.Props.C36_deterministic",
    "Teal.Props.C36_false"
   ],
   "note": "Run returns from every reachable state of every program without dupn 255, and otherwise exactly if no branch comes to dupn 255 with a value on its stack and budget left (C36_exact); there the code loops forever (C36_false)."
  },
  {
   "property": "C37",
   "status": "partial",
   "theorems": [
    "Teal.Props.C37_partial",
    "Teal.Props.C37_never_grows",
    "Teal.Props.C37_step_partial",
    "Teal.Props.C37_exact",
    "Teal.Props.C37_total",
    "Teal.Props.C37_one_price",
    "Teal.Props.C37_false"
   ],
   "note": "All programs without json_ref, whose charge is computed from the key and with another rounding (C37_false). C37_exact and C37_total say what is charged in all programs."
  },
  {
   "property": "C38",
   "status": "partial",
   "theorems": [
    "Teal.Props.C38_step_partial",
    "Teal.Props.C38_only",
    "Teal.Props.C38_hangs",
    "Teal.Props.C38_error_stops",
    "Teal.Props.C38_breakpoints_partial",
    "Teal.Props.C38_false",
    "Teal.Props.C38_breakpoints_false"
   ],
   "note": "dupn 255 on a non-empty stack hangs (C38_hangs), and nothing else does (C38_only); a negative line crashes SetBreakpoints; everything else returns."
  },
  {
   "property": "C41",
   "status": "proved",
   "theorems": [
    "Teal.Props.C41",
    "Teal.Props.C41_unique",
    "Teal.Props.C41_step",
    "Teal.Props.C41_switch",
    "Teal.Props.C41_switch_unknown"
   ],
   "note": ""
  },
  {
   "property": "C43",
   "status": "partial",
   "theorems": [
    "Teal.Props.C43_partial",
    "Teal.Props.C43_false",
    "Teal.Props.C43_bury_false",
    "Teal.Props.C43_dig_false"
   ],
   "note": "dup2 swaps the pair, bury counts from the bottom, dig wraps on stacks of more than 256 values, dupn 255 hangs; everything else proved. What these instructions do instead is proved as C124."
  },
  {
   "property": "C44",
   "status": "partial",
   "theorems": [
    "Teal.Props.C44_partial",
    "Teal.Props.C44_error_partial",
    "Teal.Props.C44_results_partial",
    "Teal.Props.C44_false",
    "Teal.Props.C44_skipped_false",
    "Teal.Props.C44_results_false"
   ],
   "note": "All instructions of the table except those listed in WrongOperands and WrongResults, for which it is false of the code; what those do instead is proved as C124."
  },
  {
   "property": "C39",
   "status": "partial",
   "theorems": [
    "Teal.Props.C39_fork",
    "Teal.Props.C39_independent",
    "Teal.Props.C39_schedule_partial",
    "Teal.Props.C39_false"
   ],
   "note": "Fork and single-step independence for all programs; schedule independence as long as the branch itself executes no load, whatever the others do, since branches share the scratch space (C39_false)."
  },
  {
   "property": "C40",
   "status": "partial",
   "theorems": [
    "Teal.Props.C40_partial",
    "Teal.Props.C40_false"
   ],
   "note": "For a branch that executed the call itself; a branch created inside the subroutine has no frames and falls through retsub (C40_false; exactly where it goes is C125)."
  },
  {
   "property": "C42",
   "status": "partial",
   "theorems": [
    "Teal.Props.C42_stops",
    "Teal.Props.C42_visits",
    "Teal.Props.C42_no_pass_partial",
    "Teal.Props.C42_false"
   ],
   "note": "Every breakpoint a branch comes to stops Run; a breakpoint on the line where a branch already is when Run is called is passed (C42_false)."
  },
  {
   "property": "C45",
   "status": "partial",
   "theorems": [
    "Teal.Props.C45_path_partial",
    "Teal.Props.C45_descent_partial",
    "Teal.Props.C45_pointer_partial",
    "Teal.Props.C45_selected",
    "Teal.Props.C45_false",
    "Teal.Props.C45_pointer_false"
   ],
   "note": "Histories without an error, on branches without retsub, on the first branch, and on every branch that, like those it descends from, returns only from subroutines it has called itself (C45_descent_partial); false on branches that return from a subroutine they were created in (C45_false; where these go is C125); a branch created at a trailing label is on a line the program does not have (C45_pointer_false)."
  },
  {
   "property": "C33",
   "status": "partial",
   "theorems": [
    "Teal.Props.C33_partial",
    "Teal.Props.C33_unique",
    "Teal.Props.C33_false"
   ],
   "note": "Compile returns exactly for trees without blocks and functions, and then the instructions in order; it panics for every tree with one (C33_false)."
  },
  {
   "property": "C34",
   "status": "partial",
   "theorems": [
    "Teal.Props.C34_partial",
    "Teal.Props.C34_reached_partial",
    "Teal.Props.C34_passes_partial",
    "Teal.Props.C34_lost",
    "Teal.Props.C34_false",
    "Teal.Props.C34_twice_false"
   ],
   "note": "For programs in which labels that a b goes to are unique and each retsub the program may come to follows a used label; otherwise removing retsub changes the paths (C34_false), and removing a b does (C34_twice_false). C34_lost: if no retsub follows a label, all of them are removed, so the paths change whenever one can be executed."
  },
  {
   "property": "C35",
   "status": "proved",
   "theorems": [
    "Teal.Props.C35"
   ],
   "note": ""
  },
  {
   "property": "C51",
   "status": "proved",
   "theorems": [
    "Teal.Props.C51",
    "Teal.Props.C51_distinct",
    "Teal.Props.C51_window"
   ],
   "note": ""
  },
  {
   "property": "C52",
   "status": "proved",
   "theorems": [
    "Teal.Props.C52",
    "Teal.Props.C52_increase"
   ],
   "note": ""
  },
  {
   "property": "C56",
   "status": "proved",
   "theorems": [
    "Teal.Props.C56"
   ],
   "note": ""
  },
  {
   "property": "C57",
   "status": "partial",
   "theorems": [
    "Teal.Props.C57_partial",
    "Teal.Props.C57_at_most",
    "Teal.Props.C57_exact",
    "Teal.Props.C57_false"
   ],
   "note": "Launching a file that cannot be read gets no response (C57_false); everything else proved. C57_exact says what every message the adapter survives is answered with."
  },
  {
   "property": "C58",
   "status": "partial",
   "theorems": [
    "Teal.Props.C58_partial",
    "Teal.Props.C58_exact",
    "Teal.Props.C58_false",
    "Teal.Props.C58_window_false"
   ],
   "note": "For requests whose arguments are present and in range; otherwise false of the code. C58_exact says exactly which requests crash the debugger."
  },
  {
   "property": "C59",
   "status": "partial",
   "theorems": [
    "Teal.Props.C59_partial",
    "Teal.Props.C59_exact",
    "Teal.Props.C59_false"
   ],
   "note": "The frames are right; the total number of frames is always one (C59_false, C59_exact)."
  },
  {
   "property": "C60",
   "status": "proved",
   "theorems": [
    "Teal.Props.C60"
   ],
   "note": ""
  },
  {
   "property": "C61",
   "status": "proved",
   "theorems": [
    "Teal.Props.C61"
   ],
   "note": ""
  },
  {
   "property": "C62",
   "status": "partial",
   "theorems": [
    "Teal.Props.C62_partial",
    "Teal.Props.C62_false",
    "Teal.Props.C62_fork_false",
    "Teal.Props.C62_exact"
   ],
   "note": "The lowest 256 slots (slots wrap modulo 256 in the code, C62_false; C62_exact says which slot is meant in all cases), on the branch that executed the call (a branch created inside has no frame, C62_fork_false)."
  },
  {
   "property": "C63",
   "status": "partial",
   "theorems": [
    "Teal.Props.C63_partial",
    "Teal.Props.C63_false",
    "Teal.Props.C63_exact"
   ],
   "note": "When nothing is left between arguments and results; otherwise false of the code (C63_false). C63_exact says what retsub leaves in all cases."
  },
  {
   "property": "C53",
   "status": "partial",
   "theorems": [
    "Teal.Props.C53_partial",
    "Teal.Props.C53_uri",
    "Teal.Props.C53_when",
    "Teal.Props.C53_exact",
    "Teal.Props.C53_false"
   ],
   "note": "Everything but the index of a result's location, which is the number of the diagnostic in its file instead of that of the artifact (C53_false, C53_exact)."
  },
  {
   "property": "C64",
   "status": "proved",
   "theorems": [
    "Teal.Props.C64",
    "Teal.Props.C64_threads"
   ],
   "note": ""
  },
  {
   "property": "C65",
   "status": "proved",
   "theorems": [
    "Teal.Props.C65",
    "Teal.Props.C65_uninitialized"
   ],
   "note": ""
  },
  {
   "property": "C66",
   "status": "proved",
   "theorems": [
    "Teal.Props.C66"
   ],
   "note": ""
  },
  {
   "property": "C46",
   "status": "proved",
   "theorems": [
    "Teal.Props.C46",
    "Teal.Props.C46_closed"
   ],
   "note": ""
  },
  {
   "property": "C47",
   "status": "proved",
   "theorems": [
    "Teal.Props.C47_refused",
    "Teal.Props.C47_exit"
   ],
   "note": ""
  },
  {
   "property": "C48",
   "status": "partial",
   "theorems": [
    "Teal.Props.C48_at_most_one_partial",
    "Teal.Props.C48_own_ids",
    "Teal.Props.C48_answered_partial",
    "Teal.Props.C48_exact",
    "Teal.Props.C48_false"
   ],
   "note": "Requests on documents that are not open, unknown methods and executed commands get no response at all; a negative line, and a hover over a negative number where a field is expected (`txn -1`), crash the server. C48_exact says of a server that was not asked to shut down exactly which messages stop it and which requests it answers."
  },
  {
   "property": "C49",
   "status": "proved",
   "theorems": [
    "Teal.Props.C49",
    "Teal.Props.C49_read",
    "Teal.Props.C49_server"
   ],
   "note": ""
  },
  {
   "property": "C50",
   "status": "partial",
   "theorems": [
    "Teal.Props.C50_partial",
    "Teal.Props.C50_inside",
    "Teal.Props.C50_nothing",
    "Teal.Props.C50_exact",
    "Teal.Props.C50_false"
   ],
   "note": "Everywhere but with the cursor between two words that touch (possible only next to string literals), where edits are repeated (C50_false). C50_exact: the answer is, for each word under the cursor, the edits that rename all its occurrences."
  },
  {
   "property": "C67",
   "status": "proved",
   "theorems": [
    "Teal.Props.C67",
    "Teal.Props.C67_nothing"
   ],
   "note": ""
  },
  {
   "property": "C68",
   "status": "proved",
   "theorems": [
    "Teal.Props.C68",
    "Teal.Props.C68_nothing"
   ],
   "note": ""
  },
  {
   "property": "C69",
   "status": "proved",
   "theorems": [
    "Teal.Props.C69"
   ],
   "note": ""
  },
  {
   "property": "C70",
   "status": "proved",
   "theorems": [
    "Teal.Props.C70"
   ],
   "note": ""
  },
  {
   "property": "C17",
   "status": "partial",
   "theorems": [
    "Teal.Props.C17_returns_partial",
    "Teal.Props.C17_false",
    "Teal.Props.C17_exact",
    "Teal.Props.padded"
   ],
   "note": "Processing panics for a line with more operands than its opcode can have, followed by something the linter reports (C17_false); it returns whenever no line has surplus operands. C17_exact says exactly when it panics: when the linter, given the text with blank lines behind it, would report one of these blank lines."
  },
  {
   "property": "C55",
   "status": "partial",
   "theorems": [
    "Teal.Props.C55_operands_partial",
    "Teal.Props.C55_exact",
    "Teal.Props.C55_false",
    "Teal.Props.C55_false_more"
   ],
   "note": "The code reads txn Fee 0 although Fee is no array, cuts the group index of gitxna to 8 bits, does not check versions of array fields and drops text behind a closing parenthesis (C55_false, C55_false_more); everywhere else the operands accepted and the instruction recorded are exactly those of the reference. C55_exact says exactly what is accepted, deviations included (`Taken`)."
  },
  {
   "property": "C71",
   "status": "proved",
   "theorems": [
    "Teal.Props.C71_layout"
   ],
   "note": ""
  },
  {
   "property": "C26",
   "status": "partial",
   "theorems": [
    "Teal.Props.C26_partial",
    "Teal.Props.C26_exact",
    "Teal.Props.C26_quotes",
    "Teal.Props.C26_false"
   ],
   "note": "False of `replace2`, `pushints`, `gtxnas` with different operands, `method`, byte constants that are empty or whose base64 text begins with `//`, and fields given by numbers without a name in the version. `C26_partial` covers every program made of the other instructions with unquoted labels, lines with errors included. `C26_exact` says that exactly these instructions stop a program from reading back, for all programs whose labels and addresses have no quote between quotes (printing does not escape those again), and `C26_quotes` that no program with such a label or address reads back."
  },
  {
   "property": "C54",
   "status": "proved",
   "theorems": [
    "Teal.Props.C54_total",
    "Teal.Props.C54_note",
    "Teal.Props.C54_all_notes"
   ],
   "note": "Notes outside the grammar of immediates may be read in odd ways: an array with no count before it is not flagged."
  },
  {
   "property": "C72",
   "status": "proved",
   "theorems": [
    "Teal.Props.C72_program",
    "Teal.Props.C72_exact"
   ],
   "note": "C72_exact: exactly the texts that are read without complaint, with what the code takes beyond the reference (`TakenProgram`)."
  },
  {
   "property": "C73",
   "status": "partial",
   "theorems": [
    "Teal.Props.C73_string_partial",
    "Teal.Props.C73_roundtrip",
    "Teal.Props.C73_exact",
    "Teal.Props.C73_false"
   ],
   "note": "False of literals that end in an escaped backslash: the lexer takes their closing quote for an escaped one. C73_exact: every other literal is read as its bytes, and these give no instruction and an unclosed string."
  },
  {
   "property": "C74",
   "status": "partial",
   "theorems": [
    "Teal.Props.C74_partial",
    "Teal.Props.edited_unique",
    "Teal.Props.C74_false"
   ],
   "note": "For labels written without quotes in texts whose string literals have no line breaks: after a string with a line break the server counts lines differently from the editor, and the edit replaces other text (C74_false)."
  },
  {
   "property": "C75",
   "status": "partial",
   "theorems": [
    "Teal.Props.C75_partial",
    "Teal.Props.C75_columns_partial",
    "Teal.Props.C75_false"
   ],
   "note": "Every hint is right for all ranges; that none is missing is proved for ranges within a line. For others hints go missing, because the columns of the range are compared with those of words on all its lines (C75_false); C75_columns_partial says exactly which."
  },
  {
   "property": "C76",
   "status": "partial",
   "theorems": [
    "Teal.Props.C76_partial",
    "Teal.Props.C76_columns_partial",
    "Teal.Props.C76_false"
   ],
   "note": "No fix is offered elsewhere, for any range; that none is missing is proved for ranges within a line (C76_false for others; C76_columns_partial says exactly which are offered)."
  },
  {
   "property": "C77",
   "status": "partial",
   "theorems": [
    "Teal.Props.C77_partial",
    "Teal.Props.C77_false",
    "Teal.Props.C77_exact"
   ],
   "note": "For lines that were read as an instruction, versions that have the field and texts whose strings have no line breaks. The fix is also offered where the version lacks the field; then the number was read and the name is an error (C77_false). C77_exact: the program is kept if the opcode is one for arrays or the version in force has the field, and otherwise exactly this instruction is lost."
  },
  {
   "property": "C78",
   "status": "partial",
   "theorems": [
    "Teal.Props.C78_partial",
    "Teal.Props.C78_false",
    "Teal.Props.C78_exact"
   ],
   "note": "For byte constants without backslashes on lines that were read, in texts whose strings have no line breaks. Backslashes are not escaped, so 0x5c6e becomes the single byte 0a; and the fix is offered for words that are no byte constants, such as the integer 0x41 (C78_false). C78_exact: of bytes that do not end in a backslash the program is kept if and only if there is no backslash among them, and otherwise exactly this instruction changes."
  },
  {
   "property": "C79",
   "status": "partial",
   "theorems": [
    "Teal.Props.C79_partial",
    "Teal.Props.C79_columns_partial",
    "Teal.Props.C79_false"
   ],
   "note": "Removing lines: exact for every range. Labels and versions: nothing else is offered for any range; that none is missing is proved for ranges within a line (C79_false for others: columns are compared across lines, and C79_columns_partial says exactly which are offered). The version of `args` is not compared with the documentation (see C22)."
  },
  {
   "property": "C80",
   "status": "partial",
   "theorems": [
    "Teal.Props.C80_partial",
    "Teal.Props.C80_false"
   ],
   "note": "For texts without a lexical error, whose strings are on one line, and whose carriage returns come before line feeds; same paths if the label jumped to is defined once. Where a string goes on over a line break, the fix removes another line (C80_false)."
  },
  {
   "property": "C81",
   "status": "partial",
   "theorems": [
    "Teal.Props.C81_partial",
    "Teal.Props.C81_quoted",
    "Teal.Props.C81_exact",
    "Teal.Props.C81_false"
   ],
   "note": "For texts without a lexical error, whose strings are on one line, and names without quotes. The edit is behind the last line with a token, or clamped to the end of the text, as editors do. For a quoted operand the new line defines nothing (C81_false), and no line could (C81_quoted); C81_exact: of the labels offered exactly the others are defined."
  },
  {
   "property": "C82",
   "status": "partial",
   "theorems": [
    "Teal.Props.C82_partial",
    "Teal.Props.C82_before",
    "Teal.Props.C82_false"
   ],
   "note": "For texts whose strings are on one line. With more than one pragma the last one is changed, so that an instruction before it still needs the version and is offered the same fix again (C82_false; C82_before says that nothing changes for any line before the last pragma)."
  },
  {
   "property": "C83",
   "status": "partial",
   "theorems": [
    "Teal.Props.C83_partial",
    "Teal.Props.C83_exact",
    "Teal.Props.C83_false"
   ],
   "note": "The place is exact for words without quotes. For a quoted reference the shown range is shorter than what the rename replaces (C83_false). C83_exact: what is shown in every case, and that it is what a rename replaces exactly for definitions and for references as long as their name."
  },
  {
   "property": "C84",
   "status": "partial",
   "theorems": [
    "Teal.Props.C84_partial",
    "Teal.Props.C84_false",
    "Teal.Props.C84_exact"
   ],
   "note": "The edit ends behind the last line with a word or comment, so blanks at the end of the text may stay behind the formatted one. For texts without a lexical error whose strings are on one line; if a string goes on over a line break, words are left behind the formatted text (C84_false). The formatter itself is another package (a parameter). C84_exact says what is replaced and what stays in every text."
  },
  {
   "property": "C85",
   "status": "partial",
   "theorems": [
    "Teal.Props.C85_operand_partial",
    "Teal.Props.C85_opcode_partial",
    "Teal.Props.C85_operand_exact",
    "Teal.Props.C85_opcode_exact",
    "Teal.Props.C85_false"
   ],
   "note": "For a cursor on an operand or behind all operands, opcodes of applications, and the version at the end of the text. Opcodes for logic signatures only are offered everywhere, a cursor in the gap before an operand gets what comes after the last one, and lines before a version pragma get the opcodes of the last version (C85_false). What is offered in these cases too is proved exactly (C85_operand_exact, C85_opcode_exact). The version of `args` is not compared with the documentation (see C22)."
  },
  {
   "property": "C86",
   "status": "partial",
   "theorems": [
    "Teal.Props.C86_partial",
    "Teal.Props.C86_exact",
    "Teal.Props.C86_false"
   ],
   "note": "Eleven opcodes (`int`, `byte`, `addr`, `method`, `replace` and those on elliptic curves) have no description, fields of elliptic curve groups are not looked up, and a comment that is just the name of an opcode is described (C86_false). What is shown in these cases too is C86_exact. The texts of the descriptions are C129."
  },
  {
   "property": "C87",
   "status": "partial",
   "theorems": [
    "Teal.Props.C87_partial",
    "Teal.Props.C87_exact",
    "Teal.Props.C87_false"
   ],
   "note": "For a cursor on an operand or behind all of them; in the gap before an operand, the one behind the last is active (C87_false; which one is active anywhere is C87_exact). The text of the signature is C113."
  },
  {
   "property": "C88",
   "status": "partial",
   "theorems": [
    "Teal.Props.C88_partial",
    "Teal.Props.C88_exact",
    "Teal.Props.C88_false"
   ],
   "note": "Proved: the decoded tokens are in order, no two overlap unless they are equal, each highlights one word or comment as it should be, and every word that should be highlighted is, operands if no syntax error is reported on their line. The claim that tokens do not overlap fails: `intcblock` and `pushints` record each number twice (`C88_false`), so the answer holds the same token twice; the protocol forbids overlapping tokens. C88_exact: each such number appears exactly twice, and every other word and comment exactly once. The length bound is that of the 32-bit coordinates."
  },
  {
   "property": "C89",
   "status": "partial",
   "theorems": [
    "Teal.Props.C89_lines",
    "Teal.Props.C89_unreachable_partial",
    "Teal.Props.C89_unreachable_exact",
    "Teal.Props.C89_loops",
    "Teal.Props.C89_covers",
    "Teal.Props.C89_exact"
   ],
   "note": "Proved for all such texts; code behind `retsub` is not reported as unreachable (C29_false), and texts with lines that are no instruction are the subject of C18 and C21 (a line with surplus words moves the reports that follow)."
  },
  {
   "property": "C90",
   "status": "proved",
   "theorems": [
    "Teal.Props.C90_look",
    "Teal.Props.C90_breakpoints",
    "Teal.Props.C90_pause",
    "Teal.Props.C90_unknown"
   ],
   "note": "`Looks` names the commands meant. `C90_unknown` is the behaviour of the code: such requests stay unanswered, see C57."
  },
  {
   "property": "C91",
   "status": "partial",
   "theorems": [
    "Teal.Props.C91_partial",
    "Teal.Props.C91_exact",
    "Teal.Props.C91_false"
   ],
   "note": "For tidy texts (`Tidy`): nothing follows a label on its line, versions are single numbers below 256, the operands are those on which the code follows the reference (`Regular`, see C55) and `args` is not used (see C22). Otherwise false: in `x: int 1` the instruction is dropped without any error, and `args` is accepted in applications (C91_false). C91_exact says exactly which texts are accepted (`AcceptedProgram`)."
  },
  {
   "property": "C92",
   "status": "partial",
   "theorems": [
    "Teal.Props.C92_items",
    "Teal.Props.C92_valid_partial",
    "Teal.Props.C92_ranges_partial",
    "Teal.Props.C92_false"
   ],
   "note": "The items are proved for all texts. That no error means a valid program is proved for tidy texts (see C91), and that the ranges are in the text for texts whose strings do not go on over line breaks. Otherwise false: words behind a string with a line break are reported at columns the line does not have (C92_false)."
  },
  {
   "property": "C93",
   "status": "partial",
   "theorems": [
    "Teal.Props.C93_partial",
    "Teal.Props.C93_blocks_panic",
    "Teal.Props.C93_compile",
    "Teal.Props.C93_false"
   ],
   "note": "Proved for programs without blocks and functions, without Cover, with strings without quotes and backslashes, comments of one line, labels that are words, and instructions that read back (see C26). Otherwise false: printing panics exactly if there is a block or function in the program (so Plus, Minus, the Assert functions, Itxn, MatchLabels and Call cannot be used), Cover makes an uncover instruction, and StringBytes and Comment do not escape (C93_false)."
  },
  {
   "property": "C94",
   "status": "partial",
   "theorems": [
    "Teal.Props.C94_notes",
    "Teal.Props.C94_written",
    "Teal.Props.C94_operands_partial",
    "Teal.Props.C94_fields_partial",
    "Teal.Props.C94_stack_partial",
    "Teal.Props.C94_types_partial",
    "Teal.Props.C94_false"
   ],
   "note": "Proved with the exceptions of C55 for lines that are not regular (field names of a later version and gitxna) and of C44 for instructions the machine gets wrong; for the stack also without the instructions whose operands depend on an immediate (popn, dupn, dig, cover, ...), which the rows do not describe, and those of subroutines (C45). Otherwise false: itxna leaves nothing although its row says that it leaves a value (C94_false)."
  },
  {
   "property": "C95",
   "status": "partial",
   "theorems": [
    "Teal.Props.C95_answer",
    "Teal.Props.C95_names",
    "Teal.Props.C95_budget",
    "Teal.Props.C95_partial",
    "Teal.Props.C95_others",
    "Teal.Props.C95_false",
    "Teal.Props.C95_method_false"
   ],
   "note": "Proved for all instructions but those C44 excludes (dup2, bury outside the middle of the stack, dig on a high stack, and the ones the machine ignores) and those that return from subroutines or access frames (C45 describes these on values). False as a whole: pushint shows only its type (C95_false), and a method whose signature reads `b64 ...` is shown as a byte string (C95_method_false)."
  },
  {
   "property": "C96",
   "status": "partial",
   "theorems": [
    "Teal.Props.C96_partial",
    "Teal.Props.C96_values",
    "Teal.Props.C96_false",
    "Teal.Props.C96_scratch_false"
   ],
   "note": "Proved for runs along a branch that do not execute an instruction for which the machine is known to differ (Spec.Differs: C44, C45), and while no other branch writes to the scratch space. False as a whole: dup2 swaps the copies (C96_false), and the branches share one scratch space, so a branch shows what another one has stored (C96_scratch_false)."
  },
  {
   "property": "C97",
   "status": "partial",
   "theorems": [
    "Teal.Props.C97_partial",
    "Teal.Props.C97_false",
    "Teal.Props.C97_fork_false"
   ],
   "note": "Proved for every instruction but those for which the machine is known to do something else (Spec.Strange), and for accesses to frames only on the first branch, on others while the debugger's call stack is not empty, or outside of subroutines. False as a whole: the machine expects byte strings for bitlen, which also takes integers (C97_false), and a branch created inside a subroutine does not know that it is in a subroutine (C97_fork_false)."
  },
  {
   "property": "C98",
   "status": "partial",
   "theorems": [
    "Teal.Props.C98_partial",
    "Teal.Props.C98_false",
    "Teal.Props.C98_fork_false"
   ],
   "note": "Proved for runs without the instructions for which the machine is known to do something else (Spec.Strange) and without jumps by conditional branches inside subroutines. False as a whole: with bitlen of an integer (C98_false), and for runs that return from a subroutine after a conditional jump in it: no session has a branch with that history (C98_fork_false)."
  },
  {
   "property": "C99",
   "status": "proved",
   "theorems": [
    "Teal.Props.C99_unreachable",
    "Teal.Props.C99_loop",
    "Teal.Props.C99_redundant"
   ],
   "note": ""
  },
  {
   "property": "C100",
   "status": "proved",
   "theorems": [
    "Teal.Props.C100_understood",
    "Teal.Props.C100_rejected",
    "Teal.Props.C100_utf8",
    "Teal.Props.C100_unambiguous",
    "Teal.Props.C100_written",
    "Teal.Props.C100_written_same"
   ],
   "note": "The model is of encoding/json, the library the servers decode and encode with."
  },
  {
   "property": "C101",
   "status": "partial",
   "theorems": [
    "Teal.Props.C101",
    "Teal.Props.C101_false"
   ],
   "note": "Proved if no member has a name that differs from one the protocol defines there only in the case of letters, and for ids that are strings or integers up to 2^53. False without that: a member Line after line replaces it (C101_false), since encoding/json compares names without regard to case; larger integers pass through a float64."
  },
  {
   "property": "C102",
   "status": "proved",
   "theorems": [
    "Teal.Props.C102"
   ],
   "note": ""
  },
  {
   "property": "C103",
   "status": "partial",
   "theorems": [
    "Teal.Props.C103_partial",
    "Teal.Props.C103_texts",
    "Teal.Props.C103_false"
   ],
   "note": "Proved for all messages except two kinds of answer: shutdown is answered with [] and a question about nothing (a hover over no operation) with {} where the protocol has null (C103_false). The external formatter is a parameter that is assumed to give UTF-8. Of the texts of documentation and of the messages about operands it is proved (C103_texts), if the message about an address is UTF-8 (strconv.Quote: C131_texts); messages are assumed shorter than 2^63 bytes."
  },
  {
   "property": "C104",
   "status": "proved",
   "theorems": [
    "Teal.Props.C104"
   ],
   "note": "The arguments of the commands must be UTF-8 and the numbers in them in the range of int, as they are in every command offered (C103)."
  },
  {
   "property": "C105",
   "status": "partial",
   "theorems": [
    "Teal.Props.C105_position",
    "Teal.Props.C105_partial",
    "Teal.Props.C105_rename",
    "Teal.Props.C105_exact",
    "Teal.Props.C105_false"
   ],
   "note": "Proved for lines of ASCII characters. False of others: the server counts bytes. Renaming the label in a line é: makes the editor remove the colon too (C105_false). C105_exact: a position means the same place to both exactly if all characters before it on its line are ASCII."
  },
  {
   "property": "C106",
   "status": "partial",
   "theorems": [
    "Teal.Props.C106_partial",
    "Teal.Props.C106_false"
   ],
   "note": "Proved for requests in which no other member has a name that differs from one the protocol has only in the case of letters. False without that: the last of threadId and ThreadID wins (C106_false)."
  },
  {
   "property": "C107",
   "status": "partial",
   "theorems": [
    "Teal.Props.C107_partial",
    "Teal.Props.C107_served",
    "Teal.Props.C107_false"
   ],
   "note": "Proved for all messages except the responses to evaluate, setFunctionBreakpoints and setInstructionBreakpoints, which have no body where the protocol demands one (C107_false). The output is assumed shorter than 2^63 bytes. A session may also end early with a panic (C58 says when); then the claim is about what was written until then."
  },
  {
   "property": "C108",
   "status": "proved",
   "theorems": [
    "Teal.Props.C108",
    "Teal.Props.C108_indented"
   ],
   "note": "json.MarshalIndent is modelled as Marshal followed by the byte loop of Indent. The messages about operands are parameters and may be any bytes. What the results say about the files is C53."
  },
  {
   "property": "C109",
   "status": "partial",
   "theorems": [
    "Teal.Props.C109_flags",
    "Teal.Props.C109_tealsp_partial",
    "Teal.Props.C109_exit",
    "Teal.Props.C109_end",
    "Teal.Props.C109_sarif",
    "Teal.Props.C109_exact",
    "Teal.Props.C109_false"
   ],
   "note": "Proved for tealsp and tealsarif. False of tealdbg: its default for -debug is E:/dbg.txt, so without options it panics unless it can create that file (C109_false; C109_exact says what it does for every command line). The exit status of the language server is stated for inputs of frames of the protocol that do not crash it (C48 says when it does)."
  },
  {
   "property": "C110",
   "status": "partial",
   "theorems": [
    "Teal.Props.C110_apart",
    "Teal.Props.C110_words",
    "Teal.Props.C110_lines",
    "Teal.Props.C110_flow",
    "Teal.Props.C110_available_partial"
   ],
   "note": "Proved for all instructions but args, whose modes are swapped in the code (C22_false). The messages about operands are assumed not to begin like one of the other messages (Foreign); C121_foreign proves this of those in the code, up to the texts of the libraries."
  },
  {
   "property": "C111",
   "status": "proved",
   "theorems": [
    "Teal.Props.C111_titles",
    "Teal.Props.C111_labels"
   ],
   "note": ""
  },
  {
   "property": "C112",
   "status": "proved",
   "theorems": [
    "Teal.Props.C112"
   ],
   "note": "That the settings are heeded afterwards is C70 and C75."
  },
  {
   "property": "C113",
   "status": "partial",
   "theorems": [
    "Teal.Props.C113_signatures_partial",
    "Teal.Props.C113_exact",
    "Teal.Props.C113_false"
   ],
   "note": "The short form is right for every opcode. The long form never closes the bracket in front of an operand that can be left out (`txn {transaction field index : f} [{uint8 : i}`), so it is claimed for opcodes without such operands only (C113_exact says what every signature looks like); gitxna is shown, and read, with a 64-bit group index (C113_false). The version of args is not compared (see C22)."
  },
  {
   "property": "C114",
   "status": "proved",
   "theorems": [
    "Teal.Props.C114_inserted",
    "Teal.Props.C114_unique"
   ],
   "note": "Snippet expansion is a relation in Spec/Signature with text, escapes, tab stops and placeholders; C114_unique proves it is single-valued. Optional operands get a stop, too."
  },
  {
   "property": "C115",
   "status": "partial",
   "theorems": [
    "Teal.Props.C115_soc_partial",
    "Teal.Props.C115_named",
    "Teal.Props.C115_func_partial",
    "Teal.Props.C115_exact",
    "Teal.Props.C115_false"
   ],
   "note": "The snippets are offered whatever the version, although switch and proto came with version 8 (C115_false), so the claims are about versions from 8 on. C115_exact: what they insert is without an error exactly in these versions. The texts are read by the same process that serves the editor, after a line with the version."
  },
  {
   "property": "C116",
   "status": "partial",
   "theorems": [
    "Teal.Props.C116_tokens",
    "Teal.Props.C116_alike",
    "Teal.Props.C116_program",
    "Teal.Props.C116_lint",
    "Teal.Props.C116_clean",
    "Teal.Props.C116_silent",
    "Teal.Props.C116_interpret_partial",
    "Teal.Props.C116_status",
    "Teal.Props.C116_panic",
    "Teal.Props.C116_usage",
    "Teal.Props.C116_false"
   ],
   "note": "The interpreter tool does not end for a program with dupn 255, even one without errors (C116_false, cf. C36). The message of a diagnostic about an operand is a parameter here; it is determined in C120."
  },
  {
   "property": "C117",
   "status": "partial",
   "theorems": [
    "Teal.Props.C117_partial",
    "Teal.Props.C117_announced",
    "Teal.Props.C117_false"
   ],
   "note": "Commands are announced and executed but the request is not answered; hover, signature help and prepare rename answer {} over nothing, where the protocol has null (C117_false). Hovers over negative numbers crash (C48)."
  },
  {
   "property": "C118",
   "status": "partial",
   "theorems": [
    "Teal.Props.C118_partial",
    "Teal.Props.C118_silent",
    "Teal.Props.C118_exact",
    "Teal.Props.C118_false"
   ],
   "note": "The scanner ends if Process panics for a text (C118_false, cf. C17), and only then (C118_exact). The node, the stream and the clock are parameters."
  },
  {
   "property": "C119",
   "status": "partial",
   "theorems": [
    "Teal.Props.C119_partial",
    "Teal.Props.C119_false"
   ],
   "note": "It never does: if the file has a function or a variable, the translator panics and prints nothing but names of types, because Compile does not know what translateFunction returns (C119_false). Files without them give the empty program."
  },
  {
   "property": "C120",
   "status": "partial",
   "theorems": [
    "Teal.Props.C120_partial",
    "Teal.Props.C120_pragma",
    "Teal.Props.C120_elsewhere",
    "Teal.Props.C120_false"
   ],
   "note": "Array fields are known to every version and text behind a closing parenthesis is dropped (cf. C55), so reading goes on behind such a word and something further on is blamed instead (C120_false). The texts that strconv, encoding/* and the address check have for what they cannot read are parameters; C122 determines most of them."
  },
  {
   "property": "C121",
   "status": "partial",
   "theorems": [
    "Teal.Props.C121_partial",
    "Teal.Props.C121_pragma",
    "Teal.Props.C121_foreign"
   ],
   "note": "With the exceptions of C120 (C120_false): array fields and text behind a closing parenthesis. C121_foreign discharges the assumption of the theorems of C110 about the messages on operands, given that the texts of encoding/* and the address check do not begin like a message of the tool."
  },
  {
   "property": "C122",
   "status": "partial",
   "theorems": [
    "Teal.Props.C122_partial",
    "Teal.Props.C122_pragma",
    "Teal.Props.C122_texts",
    "Teal.Props.C122_unique",
    "Teal.Props.C122_foreign",
    "Teal.Props.C122_bytes",
    "Teal.Props.C122_false"
   ],
   "note": "A character that is not ASCII behind a backslash is not named as it is, because its first byte is printed as a character (C122_false; C122_bytes says which). The exceptions of C120 apply. The text of the address check is a parameter; strconv.Quote is C131; the texts of encoding/base32 and encoding/base64 are C130."
  },
  {
   "property": "C123",
   "status": "proved",
   "theorems": [
    "Teal.Props.C123_listing",
    "Teal.Props.C123_about",
    "Teal.Props.C123_missing",
    "Teal.Props.C123_duplicate",
    "Teal.Props.C123_unused"
   ],
   "note": ""
  },
  {
   "property": "C124",
   "status": "proved",
   "theorems": [
    "Teal.Props.C124",
    "Teal.Props.C124_covers"
   ],
   "note": "Complements C43 and C44: what these exclude as wrong of the code is described here. C124_covers: every instruction that these exclude, except dupn with 255, is described here (that one hangs, C38)."
  },
  {
   "property": "C125",
   "status": "proved",
   "theorems": [
    "Teal.Props.C125",
    "Teal.Props.C125_failed",
    "Teal.Props.C125_unique"
   ],
   "note": "Complements C40 and C45, which are false of branches created inside a subroutine: this is what those do. C125_unique: without forks the history determines the line and what is remembered. What json_ref costs is left open (cf. C41)."
  },
  {
   "property": "C126",
   "status": "proved",
   "theorems": [
    "Teal.Props.C126",
    "Teal.Props.C126_outside"
   ],
   "note": "Complements C62 and C63, which are false of the code on stacks of more than 256 values, on branches created in the subroutine and with values left below the results: this is what happens there."
  },
  {
   "property": "C127",
   "status": "proved",
   "theorems": [
    "Teal.Props.C127",
    "Teal.Props.C127_unique",
    "Teal.Props.C127_told"
   ],
   "note": "What instructions take is the table of C44, with the exceptions C124 describes. When instructions fail is C44 and C124; failures of instructions on frames are C126. The texts of Go's own run-time errors (places that do not exist) are not modelled."
  },
  {
   "property": "C128",
   "status": "partial",
   "theorems": [
    "Teal.Props.C128_exact",
    "Teal.Props.C128_partial",
    "Teal.Props.C128_false"
   ],
   "note": "All comments on lines of their own since the last label above are shown, also those with instructions between them and the label (C128_false); what is shown is proved exactly (C128_exact: the comments since the last label, without the mode pragma; the last `proto` below a label of this name). What goes over the wire is part of C103 (SeesCompletion)."
  },
  {
   "property": "C129",
   "status": "proved",
   "theorems": [
    "Teal.Props.C129_hover",
    "Teal.Props.C129_signature",
    "Teal.Props.C129_completion",
    "Teal.Props.C129_constants",
    "Teal.Props.C129_utf8"
   ],
   "note": "The descriptions are transcribed from go_algorand.go (data). For which opcodes and fields nothing is shown is C86; the eleven opcodes without a description are those C86 names (undescribed). With C129_utf8 the hypothesis CleanTexts of C103 is left with the messages about operands."
  },
  {
   "property": "C130",
   "status": "partial",
   "theorems": [
    "Teal.Props.C130_base32",
    "Teal.Props.C130_words",
    "Teal.Props.C130_texts",
    "Teal.Props.C130_unique",
    "Teal.Props.C130_named",
    "Teal.Props.C130_partial",
    "Teal.Props.C130_foreign",
    "Teal.Props.C130_false",
    "Teal.Props.C130_padding_false"
   ],
   "note": "Up to as many bytes as there are symbols in the last group are ignored behind the padding of base32, and one, three or six symbols at the end stand for nothing, so `b32 MFR` is the empty string (C130_false); C130_base32 says exactly what is accepted. As the message about base32 is that of the decoder that knows no padding, it names the first `=` even if the padding is right (C130_padding_false). Texts without line breaks and without the byte 255, which UTF-8 does not have; C130_named is about all texts. encoding/base32 and encoding/base64 are modelled from Go's published source. The exceptions of C120 apply."
  },
  {
   "property": "C131",
   "status": "proved",
   "theorems": [
    "Teal.Props.C131_literal",
    "Teal.Props.C131_unique",
    "Teal.Props.C131_names",
    "Teal.Props.C131_line",
    "Teal.Props.C131_plain",
    "Teal.Props.C131_texts"
   ],
   "note": "strconv.Quote is modelled from Go's published source; which characters outside ASCII can be printed (a table) is a parameter. With this the parameter q of C122 and C130 and the hypothesis of C103_texts about quoting are discharged (C131_texts)."
  },
  {
   "property": "C132",
   "status": "proved",
   "theorems": [
    "Teal.Props.C132_line",
    "Teal.Props.C132_value",
    "Teal.Props.C132_create",
    "Teal.Props.C132_unlabel",
    "Teal.Props.C132_version"
   ],
   "note": "The meaning of the edits, when the client applies them, is the subject of C77, C78 and C80 to C82."
  },
  {
   "property": "C133",
   "status": "proved",
   "theorems": [
    "Teal.Props.C133",
    "Teal.Props.C133_optimal",
    "Teal.Props.C133_again",
    "Teal.Props.C133_ends",
    "Teal.Props.C133_tidy",
    "Teal.Props.C133_lint",
    "Teal.Props.C133_stays",
    "Teal.Props.C133_reported"
   ],
   "note": "Complements C34, which is false of the code where a retsub that is reached is removed: this says exactly which are."
  }
 ]
}