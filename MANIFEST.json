{
 "claims": [
  {
   "property": "C01",
   "status": "proved",
   "theorems": [
    "Bant.Props.C01_match_target_implies_package",
    "Bant.Props.C01_pruning_loses_nothing"
   ],
   "note": ""
  },
  {
   "property": "C02",
   "status": "proved",
   "theorems": [
    "Bant.Props.C02_recursive_pattern",
    "Bant.Props.C02_recursive_pattern_relative",
    "Bant.Props.C02_boundary",
    "Bant.Props.C02_dots_all_counterexample"
   ],
   "note": "In addition: `//foo/...:all` selects no target (C02_dots_all_counterexample)."
  },
  {
   "property": "C03",
   "status": "proved",
   "theorems": [
    "Bant.Props.C03_target_roundtrip",
    "Bant.Props.C03_target_roundtrip_same",
    "Bant.Props.C03_toString_injective",
    "Bant.Props.C03_spellings",
    "Bant.Props.C03_spellings_project"
   ],
   "note": ""
  },
  {
   "property": "C04",
   "status": "partial",
   "theorems": [
    "Bant.Props.C04_counterexample",
    "Bant.Props.C04_relative_roundtrip_partial",
    "Bant.Props.C04_exact_partial",
    "Bant.Props.C04_short_in_own_package"
   ],
   "note": "False for main project targets seen from an external project (C04_counterexample); proved for all others. C04_exact_partial: what the relative form denotes in any case, and exactly when that is the target."
  },
  {
   "property": "C05",
   "status": "proved",
   "theorems": [
    "Bant.Props.C05_parsed_is_wf",
    "Bant.Props.C05_rename_preserves_meaning",
    "Bant.Props.C05_idempotent",
    "Bant.Props.C05_canonical_unique",
    "Bant.Props.C05_edits_in_scope",
    "Bant.Props.C05_edits_complete",
    "Bant.Props.C05_empty_name_counterexample",
    "Bant.Props.C05_lost_project_counterexample"
   ],
   "note": "Two counterexamples show what happens for dependencies that do not parse to a well-formed target."
  },
  {
   "property": "C06",
   "status": "partial",
   "theorems": [
    "Bant.Props.C06_any_partial",
    "Bant.Props.C06_package_roundtrip",
    "Bant.Props.C06_normal_form_counterexample",
    "Bant.Props.C06_package_normal_form_partial",
    "Bant.Props.C06_project_lost_counterexample",
    "Bant.Props.C06_package_toString_injective"
   ],
   "note": "Normal form is false for strings with several colons (C06_normal_form_counterexample). `@~x//..` loses the project: C06_project_lost_counterexample. C06_any_partial: the form of what is read from any string."
  },
  {
   "property": "C07",
   "status": "proved",
   "theorems": [
    "Bant.Props.C07_public",
    "Bant.Props.C07_private",
    "Bant.Props.C07_pkg",
    "Bant.Props.C07_subpackages",
    "Bant.Props.C07_relative",
    "Bant.Props.C07_package_group_is_public"
   ],
   "note": ""
  },
  {
   "property": "C08",
   "status": "partial",
   "theorems": [
    "Bant.Props.C08_dots_partial",
    "Bant.Props.C08_complete_partial",
    "Bant.Props.C08_counterexample",
    "Bant.Props.C08_target_glob_partial"
   ],
   "note": "False as stated: the last literal piece is not quoted (C08_counterexample); proved if that piece has no special characters; if it has no others but dots, C08_dots_partial is an exact account (a dot stands for any character), and nothing is missing (C08_complete_partial)."
  },
  {
   "property": "C09",
   "status": "proved",
   "theorems": [
    "Bant.Props.C09_position",
    "Bant.Props.C09_location",
    "Bant.Props.C09_column_is_distance",
    "Bant.Props.C09_monotone",
    "Bant.Props.C09_injective",
    "Bant.Props.C09_surrounding_line",
    "Bant.Props.C09_line_unique"
   ],
   "note": ""
  },
  {
   "property": "C10",
   "status": "proved",
   "theorems": [
    "Bant.Props.C10_lossless",
    "Bant.Props.C10_tokens_are_pieces"
   ],
   "note": ""
  },
  {
   "property": "C11",
   "status": "proved",
   "theorems": [
    "Bant.Props.C11_peek_is_free",
    "Bant.Props.C11_eof_sticky",
    "Bant.Props.C11_terminates"
   ],
   "note": ""
  },
  {
   "property": "C12",
   "status": "partial",
   "theorems": [
    "Bant.Props.C12_exact_partial",
    "Bant.Props.C12_unbroken_text",
    "Bant.Props.C12_counterexample",
    "Bant.Props.C12_token_location_partial",
    "Bant.Props.C12_start_partial",
    "Bant.Props.C12_line_starts_increase"
   ],
   "note": "False as stated for `not` newline `in` (C12_counterexample); proved for everything before such a token. C12_exact_partial: for all tokens, locations are those in the text with blanks instead of the newlines within `not in`."
  },
  {
   "property": "C13",
   "status": "partial",
   "theorems": [
    "Bant.Props.C13_counterexample",
    "Bant.Props.C13_word_boundary_partial",
    "Bant.Props.C13_not_partial"
   ],
   "note": "False for `not inner` (C13_counterexample); proved for all other words. C13_not_partial: exactly when `not` is a word of its own, and what is taken for `not in` otherwise."
  },
  {
   "property": "C14",
   "status": "proved",
   "theorems": [
    "Bant.Props.C14_parser_returns",
    "Bant.Props.C14_linear",
    "Bant.Props.C14_depth_is_no_limit"
   ],
   "note": ""
  },
  {
   "property": "C15",
   "status": "partial",
   "theorems": [
    "Bant.Props.C15_counterexample",
    "Bant.Props.C15_variables_counterexample",
    "Bant.Props.C15_no_holes_partial",
    "Bant.Props.C15_error_reported"
   ],
   "note": "False as stated: `(-)` and missing variable names are accepted silently (C15_counterexample, C15_variables_counterexample); all other places are filled."
  },
  {
   "property": "C16",
   "status": "partial",
   "theorems": [
    "Bant.Props.C16_counterexample",
    "Bant.Props.C16_quotes_counterexample",
    "Bant.Props.C16_triple_counterexample",
    "Bant.Props.C16_number_counterexample",
    "Bant.Props.C16_not_counterexample",
    "Bant.Props.C16_else_counterexample",
    "Bant.Props.C16_missing_counterexample",
    "Bant.Props.C16_statement_partial",
    "Bant.Props.C16_rules_partial",
    "Bant.Props.C16_command_partial",
    "Bant.Props.C16_number"
   ],
   "note": "False for expressions that need parentheses, strings with both kinds of quotes and other cases (C16_*counterexample). Proved for all trees without these (Reprintable), per statement, for lists of rules and for the output of the command."
  },
  {
   "property": "C17",
   "status": "partial",
   "theorems": [
    "Bant.Props.C17_every_token_denotes",
    "Bant.Props.C17_counterexample",
    "Bant.Props.C17_string_value_partial",
    "Bant.Props.C17_triple_single_quotes"
   ],
   "note": "False for literals in three single quotes (C17_counterexample), proved for all others."
  },
  {
   "property": "C18",
   "status": "proved",
   "theorems": [
    "Bant.Props.C18_decimal_value",
    "Bant.Props.C18_overflow_reported"
   ],
   "note": ""
  },
  {
   "property": "C19",
   "status": "proved",
   "theorems": [
    "Bant.Props.C19_unchanged",
    "Bant.Props.C19_plus",
    "Bant.Props.C19_select",
    "Bant.Props.C19_variable"
   ],
   "note": ""
  },
  {
   "property": "C20",
   "status": "partial",
   "theorems": [
    "Bant.Props.C20_counterexample",
    "Bant.Props.C20_function_name_counterexample",
    "Bant.Props.C20_elaboration_safe_partial",
    "Bant.Props.C20_form",
    "Bant.Props.C20_crash_partial"
   ],
   "note": "False as stated: a missing operand of `+` in a file with a syntax error is dereferenced (C20_counterexample), and a variable with the name of a called function is used as identifier node (C20_function_name_counterexample). Proved for files without syntax errors in which no called function is assigned; C20_crash_partial: exactly which files without syntax errors crash."
  },
  {
   "property": "C21",
   "status": "proved",
   "theorems": [
    "Bant.Props.C21_sequence",
    "Bant.Props.C21_references"
   ],
   "note": ""
  },
  {
   "property": "C22",
   "status": "partial",
   "theorems": [
    "Bant.Props.C22_alloc_works",
    "Bant.Props.C22_disjoint",
    "Bant.Props.C22_owned",
    "Bant.Props.C22_stable",
    "Bant.Props.C22_counterexample",
    "Bant.Props.C22_aligned_partial"
   ],
   "note": "Alignment is false (C22_counterexample): the arena never aligns. Disjointness, ownership and stability are proved for all request sequences."
  },
  {
   "property": "C23",
   "status": "proved",
   "theorems": [
    "Bant.Props.C23_found",
    "Bant.Props.C23_not_found",
    "Bant.Props.C23_empty_key",
    "Bant.Props.C23_insert"
   ],
   "note": ""
  },
  {
   "property": "C24",
   "status": "partial",
   "theorems": [
    "Bant.Props.C24_exact_partial",
    "Bant.Props.C24_counted",
    "Bant.Props.C24_counterexample",
    "Bant.Props.C24_attribution",
    "Bant.Props.C24_location_partial",
    "Bant.Props.C24_consumed_partial",
    "Bant.Props.C24_generated",
    "Bant.Props.C24_surrounding_line",
    "Bant.Props.C24_unknown"
   ],
   "note": "False as stated because of the newline in `not in` (C24_counterexample) and for text behind a syntax error; attribution to the file is proved for all pieces, line and column for files without these. C24_exact_partial: line and column of every piece of every file are those in the text in which newlines within `not in`, and those that were not read because of a syntax error, are blanks; C24_counted says what is read."
  },
  {
   "property": "C25",
   "status": "proved",
   "theorems": [
    "Bant.Props.C25_exact",
    "Bant.Props.C25_fuzzy",
    "Bant.Props.C25_nothing"
   ],
   "note": ""
  },
  {
   "property": "C26",
   "status": "proved",
   "theorems": [
    "Bant.Props.C26_minimize"
   ],
   "note": ""
  },
  {
   "property": "C27",
   "status": "partial",
   "theorems": [
    "Bant.Props.C27_removal_partial",
    "Bant.Props.C27_sole_provider_partial",
    "Bant.Props.C27_served_partial",
    "Bant.Props.C27_counterexample"
   ],
   "note": "False as stated (C27_counterexample): a dependency that is deprecated is removed although it alone provides an included header; also, two libraries can be replaced by a third that provides the headers of both. Proved: everything else that is claimed for a removal; the sole visible provider is never removed; what headers are still provided by."
  },
  {
   "property": "C28",
   "status": "partial",
   "theorems": [
    "Bant.Props.C28_account",
    "Bant.Props.C28_add_partial",
    "Bant.Props.C28_once",
    "Bant.Props.C28_counterexample",
    "Bant.Props.C28_sole_provider"
   ],
   "note": "False for binaries: `testonly` is not checked for them (C28_counterexample). Proved: everything else for every add edit, `testonly` for libraries and tests; C28_account is an exact account of all edits. The other direction: the only visible provider of an included header is added (C28_sole_provider)."
  },
  {
   "property": "C29",
   "status": "partial",
   "theorems": [
    "Bant.Props.C29_exact",
    "Bant.Props.C29_counterexample",
    "Bant.Props.C29_documented_partial"
   ],
   "note": "False as stated (C29_counterexample): a missing or empty visibility counts as public; deprecated libraries are invisible even in their package. Proved: an exact account (C29_exact), and the statement for libraries with a list of entries of the documented forms."
  },
  {
   "property": "C30",
   "status": "proved",
   "theorems": [
    "Bant.Props.C30_reach",
    "Bant.Props.C30_all",
    "Bant.Props.C30_loaded"
   ],
   "note": "Assumes that the files that are loaded can be searched; C62_build_partial says when that is so."
  },
  {
   "property": "C31",
   "status": "proved",
   "theorems": [
    "Bant.Props.C31_inverse"
   ],
   "note": ""
  },
  {
   "property": "C32",
   "status": "proved",
   "theorems": [
    "Bant.Props.C32_first"
   ],
   "note": ""
  },
  {
   "property": "C33",
   "status": "partial",
   "theorems": [
    "Bant.Props.C33_counterexample",
    "Bant.Props.C33_sound",
    "Bant.Props.C33_terminates_partial",
    "Bant.Props.C33_tree_partial",
    "Bant.Props.C33_no_inodes_counterexample"
   ],
   "note": "False as stated (C33_counterexample): directories on different file systems may have the same inode, and then one is not entered; without usable inodes a link cycle is walked for ever (C33_no_inodes_counterexample). Proved: what is reported is right in any file system, the walk ends if inodes are usable, and it is complete and reports each file once in trees without links whose inodes differ."
  },
  {
   "property": "C34",
   "status": "partial",
   "theorems": [
    "Bant.Props.C34_counterexample",
    "Bant.Props.C34_read_partial"
   ],
   "note": "False as stated (C34_counterexample): files whose size according to fstat is 0 although there is content (/proc) read as empty. Proved for files whose size is the length of the content, for every sequence of short reads and errors."
  },
  {
   "property": "C35",
   "status": "partial",
   "theorems": [
    "Bant.Props.C35_counterexample",
    "Bant.Props.C35_selection",
    "Bant.Props.C35_pruning_partial"
   ],
   "note": "Selection is proved for all patterns and paths. Pruning is false for paths with newlines (C35_counterexample) and proved for all others."
  },
  {
   "property": "C36",
   "status": "partial",
   "theorems": [
    "Bant.Props.C36_too_much_counterexample",
    "Bant.Props.C36_too_little_counterexample",
    "Bant.Props.C36_account",
    "Bant.Props.C36_single_partial",
    "Bant.Props.C36_complete_partial"
   ],
   "note": "False as stated: `**/foo.txt` accepts `xfoo.txt`, `a/**` does not accept `a/b/c` (C36_*counterexample). Proved: the exact account of what is accepted, for all patterns; that this is the meaning of patterns without `**`; that no file is missing for patterns that do not end in `**`."
  },
  {
   "property": "C37",
   "status": "proved",
   "theorems": [
    "Bant.Props.C37_defined",
    "Bant.Props.C37_exclusive",
    "Bant.Props.C37_order",
    "Bant.Props.C37_once",
    "Bant.Props.C37_finished",
    "Bant.Props.C37_shutdown",
    "Bant.Props.C37_ends",
    "Bant.Props.C37_terminates",
    "Bant.Props.C37_workers_stay",
    "Bant.Props.C37_destructor",
    "Bant.Props.C37_cancel",
    "Bant.Props.C37_workers",
    "Bant.Props.C37_terminates_all"
   ],
   "note": "Memory model: sequential consistency between lock operations; jobs are assumed to return and not to destroy the pool."
  },
  {
   "property": "C38",
   "status": "partial",
   "theorems": [
    "Bant.Props.C38_counterexample",
    "Bant.Props.C38_newline_counterexample",
    "Bant.Props.C38_log_partial",
    "Bant.Props.C38_runs_partial",
    "Bant.Props.C38_readonly",
    "Bant.Props.C38_all_requested"
   ],
   "note": "False as stated (C38_counterexample): a path that is accessed as file and as directory is recorded once only; newlines in paths (C38_newline_counterexample). Proved for paths without newline and NUL, each used as one of the two; together with C37, no access is left out when the pool stops itself."
  },
  {
   "property": "C39",
   "status": "partial",
   "theorems": [
    "Bant.Props.C39_json_counterexample",
    "Bant.Props.C39_csv_counterexample",
    "Bant.Props.C39_json_partial",
    "Bant.Props.C39_csv_partial",
    "Bant.Props.C39_sexpr",
    "Bant.Props.C39_plist",
    "Bant.Props.C39_c_reader",
    "Bant.Props.C39_injective"
   ],
   "note": "False as stated for JSON and CSV (C39_json_counterexample, C39_csv_counterexample): escapes are those of C in all formats. Proved: JSON for printable ASCII without `'`, CSV for texts without anything to escape, S-expressions and property lists for all bytes; JSON and CSV for all bytes with a reader that knows the escapes of C; injectivity for all bytes. `absl::CEscape` is modelled from its documentation."
  },
  {
   "property": "C40",
   "status": "proved",
   "theorems": [
    "Bant.Props.C40_columns"
   ],
   "note": "For all tables with at least one column; widths are unbounded."
  },
  {
   "property": "C41",
   "status": "partial",
   "theorems": [
    "Bant.Props.C41_lookup",
    "Bant.Props.C41_lookup_none",
    "Bant.Props.C41_counterexample",
    "Bant.Props.C41_augment_partial"
   ],
   "note": "Lookup is proved in full. Augmenting is false for a directory whose name begins with `@` (C41_counterexample), proved if there is none."
  },
  {
   "property": "C42",
   "status": "proved",
   "theorems": [
    "Bant.Props.C42_first_kept",
    "Bant.Props.C42_answers",
    "Bant.Props.C42_errors"
   ],
   "note": ""
  },
  {
   "property": "C43",
   "status": "proved",
   "theorems": [
    "Bant.Props.C43_unique",
    "Bant.Props.C43_prefix",
    "Bant.Props.C43_otherwise"
   ],
   "note": "What the command does is a parameter. getopt is modelled from its documentation."
  },
  {
   "property": "C44",
   "status": "proved",
   "theorems": [
    "Bant.Props.C44_pattern",
    "Bant.Props.C44_stops"
   ],
   "note": ""
  },
  {
   "property": "C45",
   "status": "partial",
   "theorems": [
    "Bant.Props.C45_counterexample",
    "Bant.Props.C45_tidy_partial",
    "Bant.Props.C45_sound_partial",
    "Bant.Props.C45_exact",
    "Bant.Props.C45_tidy_plain",
    "Bant.Props.C45_tidy_include",
    "Bant.Props.C45_tidy_directive"
   ],
   "note": "False as stated: a lone quote, e.g. in a comment, hides later directives (C45_counterexample). Proved for sources of tidy lines (three theorems say which lines are tidy); for any text C45_exact is an exact account of what is reported, with positions and order."
  },
  {
   "property": "C46",
   "status": "partial",
   "theorems": [
    "Bant.Props.C46_counterexample",
    "Bant.Props.C46_normalised",
    "Bant.Props.C46_idempotent_partial"
   ],
   "note": "False as stated: `.//./foo.h` is normalised to `./foo.h` (C46_counterexample). Proved: an exact account (C46_normalised), and the full statement for paths without double slashes."
  },
  {
   "property": "C47",
   "status": "partial",
   "theorems": [
    "Bant.Props.C47_counterexample",
    "Bant.Props.C47_assignment_counterexample",
    "Bant.Props.C47_visits",
    "Bant.Props.C47_parsed",
    "Bant.Props.C47_elaborated",
    "Bant.Props.C47_evaluated",
    "Bant.Props.C47_own_attributes_partial"
   ],
   "note": "False as stated: keyword arguments of a call that is a positional argument are taken for those of the outer call (C47_counterexample); rules inside assignments are not seen (C47_assignment_counterexample). Proved: an exact account of what is reported for any tree (C47_visits), and the full statement for files without these constructs; with or without syntax errors, before and after evaluation."
  },
  {
   "property": "C48",
   "status": "partial",
   "theorems": [
    "Bant.Props.C48_counterexample",
    "Bant.Props.C48_script_partial",
    "Bant.Props.C48_lines_partial",
    "Bant.Props.C48_canonicalize_partial",
    "Bant.Props.C48_dwyu_partial"
   ],
   "note": "False as stated (C48_counterexample): names are not quoted; a dependency with a quote breaks the line and can run other commands. Proved for names without special characters: all sequences of edits, all runs of canonicalize and dwyu. The shell is modelled by words, single quotes and ends of commands."
  },
  {
   "property": "C49",
   "status": "proved",
   "theorems": [
    "Bant.Props.C49_aliases"
   ],
   "note": ""
  },
  {
   "property": "C50",
   "status": "partial",
   "theorems": [
    "Bant.Props.C50_counterexample",
    "Bant.Props.C50_found_partial",
    "Bant.Props.C50_path_partial"
   ],
   "note": "False for hidden directories (C50_counterexample): the package of `.github/BUILD` is taken to be `github`. Proved for all others, for main and external projects, end to end from the walk (assumes that directories of external projects do not end in a slash)."
  },
  {
   "property": "C51",
   "status": "partial",
   "theorems": [
    "Bant.Props.C51_counterexample",
    "Bant.Props.C51_printed_location_partial",
    "Bant.Props.C51_newline_partial",
    "Bant.Props.C51_exact_partial"
   ],
   "note": "False for pieces that end in a newline (C51_counterexample). C51_exact_partial says what is printed for any piece."
  },
  {
   "property": "C52",
   "status": "proved",
   "theorems": [
    "Bant.Props.C52_characters",
    "Bant.Props.C52_token_class"
   ],
   "note": ""
  },
  {
   "property": "C53",
   "status": "proved",
   "theorems": [
    "Bant.Props.C53_parser_is_grammar",
    "Bant.Props.C53_unambiguous",
    "Bant.Props.C53_tokens"
   ],
   "note": ""
  },
  {
   "property": "C54",
   "status": "partial",
   "theorems": [
    "Bant.Props.C54_counterexample",
    "Bant.Props.C54_fraction_counterexample",
    "Bant.Props.C54_number_value_partial",
    "Bant.Props.C54_no_digits",
    "Bant.Props.C54_account"
   ],
   "note": "False: `0o19` is 1 and `1.9` is 1 without error (C54_counterexample); proved for well-formed integer literals of all bases; C54_account says which value any other text gets."
  },
  {
   "property": "C55",
   "status": "partial",
   "theorems": [
    "Bant.Props.C55_raw_counterexample",
    "Bant.Props.C55_octal_counterexample",
    "Bant.Props.C55_comprehension_counterexample",
    "Bant.Props.C55_unpack_counterexample",
    "Bant.Props.C55_meaning_partial"
   ],
   "note": "False in general: raw strings, octal escapes, comprehension variables, several variables on the left side (four counterexamples). Proved for files without these."
  },
  {
   "property": "C56",
   "status": "proved",
   "theorems": [
    "Bant.Props.C56_searchable",
    "Bant.Props.C56_usable",
    "Bant.Props.C56_lookup",
    "Bant.Props.C56_own_header"
   ],
   "note": ""
  },
  {
   "property": "C57",
   "status": "proved",
   "theorems": [
    "Bant.Props.C57_genrules"
   ],
   "note": ""
  },
  {
   "property": "C58",
   "status": "partial",
   "theorems": [
    "Bant.Props.C58_counterexample",
    "Bant.Props.C58_not_itself_partial",
    "Bant.Props.C58_why_partial",
    "Bant.Props.C58_itself_partial"
   ],
   "note": "False as stated (C58_counterexample): headers that are included under another path, or listed in textual_hdrs. Proved for rules whose headers are in hdrs, without prefix attributes, if includes are exact. In general: why a rule is told so (C58_why_partial), and that it always is if it is the only provider of a header that it includes (C58_itself_partial)."
  },
  {
   "property": "C59",
   "status": "proved",
   "theorems": [
    "Bant.Props.C59_parsed",
    "Bant.Props.C59_load"
   ],
   "note": ""
  },
  {
   "property": "C60",
   "status": "partial",
   "theorems": [
    "Bant.Props.C60_counterexample",
    "Bant.Props.C60_file_partial",
    "Bant.Props.C60_exact_partial"
   ],
   "note": "False for external projects that are not known: the file is looked for in the main project (C60_counterexample). C60_exact_partial: exactly then."
  },
  {
   "property": "C61",
   "status": "partial",
   "theorems": [
    "Bant.Props.C61_counterexample",
    "Bant.Props.C61_build_file_partial",
    "Bant.Props.C61_top_partial"
   ],
   "note": "False for the top directory of the main project: `/BUILD` is looked for (C61_counterexample). Proved for all other packages; C61_top_partial says which files are looked for in the top directory."
  },
  {
   "property": "C62",
   "status": "partial",
   "theorems": [
    "Bant.Props.C62_build_partial",
    "Bant.Props.C62_counterexample",
    "Bant.Props.C62_crash"
   ],
   "note": "False if there is a directory called BUILD, or a file that cannot be read in full (C62_counterexample): the null pointer is dereferenced. Proved if what has read permission can be read. C62_crash: exactly when it crashes."
  },
  {
   "property": "C63",
   "status": "partial",
   "theorems": [
    "Bant.Props.C63_counterexample",
    "Bant.Props.C63_load_partial",
    "Bant.Props.C63_nothing_else_partial"
   ],
   "note": "False as stated (C63_counterexample): a link listed before the directory it leads to hides that directory. Proved for trees in which inodes tell directories apart, without packages in hidden directories; directories called `_tmp`, `.cache`, `.git` are not looked into. That nothing else is loaded is proved for any file system (C63_nothing_else_partial)."
  },
  {
   "property": "C64",
   "status": "proved",
   "theorems": [
    "Bant.Props.C64_not_forgotten",
    "Bant.Props.C64_completes"
   ],
   "note": ""
  },
  {
   "property": "C65",
   "status": "partial",
   "theorems": [
    "Bant.Props.C65_counterexample",
    "Bant.Props.C65_same_partial",
    "Bant.Props.C65_different_partial",
    "Bant.Props.C65_argument_partial"
   ],
   "note": "False for every hash function (C65_counterexample): an argument given twice cancels itself. Proved: ignored flags and order do not matter; a different directory or argument is told apart as well as the hash does."
  },
  {
   "property": "C66",
   "status": "partial",
   "theorems": [
    "Bant.Props.C66_counterexample",
    "Bant.Props.C66_answers_partial",
    "Bant.Props.C66_path"
   ],
   "note": "False if the second part of a path has a slash (C66_counterexample). Proved for all other ways to make a path."
  },
  {
   "property": "C67",
   "status": "partial",
   "theorems": [
    "Bant.Props.C67_counterexample",
    "Bant.Props.C67_highlight_partial",
    "Bant.Props.C67_ends"
   ],
   "note": "False for patterns with an empty match (C67_counterexample: does not end). Proved for all others; C67_ends says exactly for which pattern and statement printing does not end. The regular expression engine is a parameter."
  },
  {
   "property": "C68",
   "status": "partial",
   "theorems": [
    "Bant.Props.C68_selection",
    "Bant.Props.C68_complete",
    "Bant.Props.C68_counterexample",
    "Bant.Props.C68_ends_partial",
    "Bant.Props.C68_ends_exact"
   ],
   "note": "Selection and order are proved for every pattern and option, with and without colour, for all texts, evaluated or not. That it always ends is false for a syntax error in a visibility list (C68_counterexample) and proved for all other files, without grep pattern or with one that has no empty match at the begin of a text (see C67 for the others); C68_ends_exact: exactly when it does not end. What the regular expression finds is a parameter."
  },
  {
   "property": "C69",
   "status": "proved",
   "theorems": [
    "Bant.Props.C69_glob"
   ],
   "note": "What is accepted by a pattern is the account of C36. Directories are told apart by inodes (see C33)."
  },
  {
   "property": "C70",
   "status": "partial",
   "theorems": [
    "Bant.Props.C70_counterexample",
    "Bant.Props.C70_status_partial",
    "Bant.Props.C70_command",
    "Bant.Props.C70_defined"
   ],
   "note": "False as stated (C70_counterexample): after an unknown option the status is 0. Proved for command lines with known options; undefined behaviour only for -r with numbers that do not fit."
  },
  {
   "property": "C71",
   "status": "partial",
   "theorems": [
    "Bant.Props.C71_counterexample",
    "Bant.Props.C71_accepted_partial",
    "Bant.Props.C71_effects",
    "Bant.Props.C71_depth",
    "Bant.Props.C71_number",
    "Bant.Props.C71_texts",
    "Bant.Props.C71_words"
   ],
   "note": "False for -E (C71_counterexample), which getopt is not told about. Proved for all other options of the help; effects for all command lines."
  },
  {
   "property": "C72",
   "status": "partial",
   "theorems": [
    "Bant.Props.C72_counterexample",
    "Bant.Props.C72_format_partial",
    "Bant.Props.C72_run_partial",
    "Bant.Props.C72_help"
   ],
   "note": "False for the empty text (C72_counterexample), which selects csv. Proved for all others."
  },
  {
   "property": "C73",
   "status": "partial",
   "theorems": [
    "Bant.Props.C73_counterexample",
    "Bant.Props.C73_message_partial"
   ],
   "note": "False with -q (C73_counterexample). Proved without -q, and with it for unknown commands."
  },
  {
   "property": "C74",
   "status": "partial",
   "theorems": [
    "Bant.Props.C74_counterexample",
    "Bant.Props.C74_files_partial"
   ],
   "note": "False (C74_counterexample): the file is truncated before the command line is checked. Proved: no other file is touched, and the output is in the last of the files."
  },
  {
   "property": "C75",
   "status": "partial",
   "theorems": [
    "Bant.Props.C75_readable",
    "Bant.Props.C75_filtered_partial",
    "Bant.Props.C75_known_partial",
    "Bant.Props.C75_output",
    "Bant.Props.C75_counterexample"
   ],
   "note": "False as stated (C75_counterexample): attributes other than load, deps and actual are not looked at. Proved for these, exactly and in order; the output, also without pattern."
  },
  {
   "property": "C76",
   "status": "partial",
   "theorems": [
    "Bant.Props.C76_database_partial",
    "Bant.Props.C76_invalid",
    "Bant.Props.C76_sources",
    "Bant.Props.C76_counterexample"
   ],
   "note": "False as stated (C76_counterexample, and C76_invalid for every database with an entry): there are commas before closing brackets. Proved for a reader that allows them, if no text needs escapes; each source once."
  },
  {
   "property": "C77",
   "status": "partial",
   "theorems": [
    "Bant.Props.C77_crash",
    "Bant.Props.C77_commands_partial",
    "Bant.Props.C77_counterexample"
   ],
   "note": "False as stated (C77_counterexample): include_prefix in the main project, or the name `:`. These are all the cases (C77_crash, an equivalence)."
  },
  {
   "property": "C78",
   "status": "partial",
   "theorems": [
    "Bant.Props.C78_dirs_partial",
    "Bant.Props.C78_flags",
    "Bant.Props.C78_counterexample",
    "Bant.Props.C78_once_partial",
    "Bant.Props.C78_project_once_partial"
   ],
   "note": "False as stated (C78_counterexample): a directory may be given twice. Proved: the set of directories is exactly as stated, if no directory is called like a project and only one project is called something with protobuf. Every directory but . and bazel-bin is given at most once, unless it is the one of another project (C78_once_partial); those, too, if no rule declares them (C78_project_once_partial)."
  },
  {
   "property": "C79",
   "status": "partial",
   "theorems": [
    "Bant.Props.C79_options_partial",
    "Bant.Props.C79_found",
    "Bant.Props.C79_missing",
    "Bant.Props.C79_counterexample"
   ],
   "note": "False as stated (C79_counterexample): build:asan is looked at, too. Proved: exactly which options are taken, for all texts (C79_found)."
  },
  {
   "property": "C80",
   "status": "partial",
   "theorems": [
    "Bant.Props.C80_found_partial",
    "Bant.Props.C80_external_partial",
    "Bant.Props.C80_includes_partial",
    "Bant.Props.C80_counterexample",
    "Bant.Props.C80_declared_partial",
    "Bant.Props.C80_includes_counterexample"
   ],
   "note": "False as stated: strip_include_prefix (C80_counterexample), and includes in packages that are not at the root (C80_includes_counterexample): lib-headers and dwyu look at such a directory as seen from the root, compilation-db from the package. Proved for headers included with their path in the project, for other projects that are depended on, for includes in the root package, and for includes as documented in any package (C80_declared_partial)."
  },
  {
   "property": "C81",
   "status": "partial",
   "theorems": [
    "Bant.Props.C81_counterexample",
    "Bant.Props.C81_status_partial",
    "Bant.Props.C81_program_partial"
   ],
   "note": "False for parse (C81_counterexample): syntax errors do not change the status. Proved for everything else, for RunCommand and for the whole program."
  },
  {
   "property": "C82",
   "status": "proved",
   "theorems": [
    "Bant.Props.C82_depends_on",
    "Bant.Props.C82_negative"
   ],
   "note": ""
  },
  {
   "property": "C83",
   "status": "proved",
   "theorems": [
    "Bant.Props.C83_has_dependents"
   ],
   "note": ""
  },
  {
   "property": "C84",
   "status": "proved",
   "theorems": [
    "Bant.Props.C84_converse"
   ],
   "note": ""
  },
  {
   "property": "C85",
   "status": "partial",
   "theorems": [
    "Bant.Props.C85_opened",
    "Bant.Props.C85_list_packages_partial",
    "Bant.Props.C85_counterexample"
   ],
   "note": "False as stated (C85_counterexample): of BUILD and BUILD.bazel, the one listed first is opened. Proved: exactly the packages, with the file that was opened or is loaded."
  },
  {
   "property": "C86",
   "status": "partial",
   "theorems": [
    "Bant.Props.C86_counterexample",
    "Bant.Props.C86_list_targets_partial"
   ],
   "note": "False as stated (C86_counterexample): with -r every rule in every loaded file is printed. Proved: that is exactly what is printed."
  },
  {
   "property": "C87",
   "status": "partial",
   "theorems": [
    "Bant.Props.C87_counterexample",
    "Bant.Props.C87_lib_headers_partial"
   ],
   "note": "False as stated (C87_counterexample): headers of other libraries in the opened files are printed as well, without a library. Proved: exactly the rows."
  },
  {
   "property": "C88",
   "status": "proved",
   "theorems": [
    "Bant.Props.C88_genrule_outputs"
   ],
   "note": ""
  },
  {
   "property": "C89",
   "status": "partial",
   "theorems": [
    "Bant.Props.C89_counterexample",
    "Bant.Props.C89_aliased_by_partial"
   ],
   "note": "False as stated (C89_counterexample): dependencies are never followed for this command. Proved: exactly the rows for the opened files."
  },
  {
   "property": "C90",
   "status": "partial",
   "theorems": [
    "Bant.Props.C90_counterexample",
    "Bant.Props.C90_depends_on_partial",
    "Bant.Props.C90_list_packages_partial",
    "Bant.Props.C90_list_targets_partial",
    "Bant.Props.C90_lib_headers_partial",
    "Bant.Props.C90_genrule_outputs_partial"
   ],
   "note": "False for genrule-outputs (C90_counterexample): a file may be attributed to another rule. Proved for the other commands, and that the file is still printed."
  },
  {
   "property": "C91",
   "status": "partial",
   "theorems": [
    "Bant.Props.C91_counterexample",
    "Bant.Props.C91_pattern_partial",
    "Bant.Props.C91_same_way_partial"
   ],
   "note": "False as stated (C91_counterexample): without -e expressions are evaluated only in files of dependencies. Proved with -e, if the file that is opened for a package is the one that is loaded for it (C91_pattern_partial); and without -e, if the package belongs to both patterns or to none, or if there is nothing to evaluate in its file (C91_same_way_partial)."
  },
  {
   "property": "C92",
   "status": "partial",
   "theorems": [
    "Bant.Props.C92_canonicalize",
    "Bant.Props.C92_stable_partial",
    "Bant.Props.C92_counterexample"
   ],
   "note": "The edits: proved. That they settle the matter is false as stated (C92_counterexample): @~1//foo:x is shortened to @//foo:x, and that to //foo:x. Proved for dependencies that have a name and, in other projects, the name of the project."
  },
  {
   "property": "C93",
   "status": "partial",
   "theorems": [
    "Bant.Props.C93_dwyu",
    "Bant.Props.C93_command_partial",
    "Bant.Props.C93_whole_partial",
    "Bant.Props.C93_counterexample",
    "Bant.Props.C93_stable_partial"
   ],
   "note": "False as stated (C93_counterexample): the edits of the first run can make packages known that were not loaded, and with them more advice. Proved (C93_stable_partial, C93_command_partial) if the same packages are read both times; and (C93_whole_partial) if all that is needed was opened for the pattern and matches it."
  },
  {
   "property": "C94",
   "status": "partial",
   "theorems": [
    "Bant.Props.C94_counterexample",
    "Bant.Props.C94_added_partial",
    "Bant.Props.C94_spelling"
   ],
   "note": "The spelling of dependencies: proved (C94_spelling). That what is added means a rule that exists is false for rules of other projects that need headers of the main one (C94_counterexample); proved for rules of the main project."
  },
  {
   "property": "C95",
   "status": "partial",
   "theorems": [
    "Bant.Props.C95_order_partial",
    "Bant.Props.C95_counterexample"
   ],
   "note": "False as stated (C95_counterexample): with BUILD and BUILD.bazel in one directory, the one listed first is used. Proved for directories that form a tree (different inodes, not too deep) with one BUILD file per package, outside of hidden directories."
  },
  {
   "property": "C96",
   "status": "partial",
   "theorems": [
    "Bant.Props.C96_tokens_partial",
    "Bant.Props.C96_tree_partial",
    "Bant.Props.C96_parser",
    "Bant.Props.C96_commands_partial",
    "Bant.Props.C96_counterexample"
   ],
   "note": "False as stated (C96_counterexample): a comment between `not` and `in` makes these two words. Proved unless the new text has `in` after `not` and white space, for texts without lexical errors."
  },
  {
   "property": "C97",
   "status": "partial",
   "theorems": [
    "Bant.Props.C97_load",
    "Bant.Props.C97_ends_partial",
    "Bant.Props.C97_counterexample",
    "Bant.Props.C97_print_partial",
    "Bant.Props.C97_parse_partial",
    "Bant.Props.C97_compile_partial",
    "Bant.Props.C97_clean_partial"
   ],
   "note": "False as stated (C97_counterexample): in a list with a syntax error an element can be missing, which is looked at. Proved for all commands if nothing is missing in the trees of BUILD files, with the conditions of C67 for print and parse, and of C77 for compilation-db and compile-flags. Loading the workspace never crashes (C97_load). C97_clean_partial: likewise for BUILD files without syntax errors that call no function they assign. If nothing is missing, C97_print_partial, C97_parse_partial and C97_compile_partial say exactly when these commands do not end; all others always do."
  },
  {
   "property": "C98",
   "status": "proved",
   "theorems": [
    "Bant.Props.C98_print",
    "Bant.Props.C98_parse"
   ],
   "note": "print: all machines. parse: if nothing is missing in the BUILD files."
  },
  {
   "property": "C99",
   "status": "proved",
   "theorems": [
    "Bant.Props.C99_all",
    "Bant.Props.C99_used"
   ],
   "note": "If nothing is missing in the BUILD files."
  },
  {
   "property": "C100",
   "status": "partial",
   "theorems": [
    "Bant.Props.C100_compile_partial",
    "Bant.Props.C100_counterexample"
   ],
   "note": "False as stated (C100_counterexample): the database is not JSON, see C76. Proved unless C77 says otherwise, with the conditions of C76 and C78 for the parts they are about."
  },
  {
   "property": "C101",
   "status": "proved",
   "theorems": [
    "Bant.Props.C101_rules"
   ],
   "note": ""
  },
  {
   "property": "C102",
   "status": "proved",
   "theorems": [
    "Bant.Props.C102_rules",
    "Bant.Props.C102_commands"
   ],
   "note": ""
  },
  {
   "property": "C103",
   "status": "partial",
   "theorems": [
    "Bant.Props.C103_rules",
    "Bant.Props.C103_commands_partial",
    "Bant.Props.C103_counterexample"
   ],
   "note": "False as stated (C103_counterexample): without -e, headers of a library that have a name are not found. Proved for the commands that evaluate files (with -e, and dwyu, compilation-db, compile-flags), and for the rules after evaluation (C103_rules)."
  },
  {
   "property": "C104",
   "status": "proved",
   "theorems": [
    "Bant.Props.C104_elsewhere",
    "Bant.Props.C104_pattern"
   ],
   "note": "C104_elsewhere is about files in which nothing is missing, C104_pattern about any (for commands that do not follow dependencies). For dwyu, a changed file that is also a source has to include the same."
  },
  {
   "property": "C105",
   "status": "partial",
   "theorems": [
    "Bant.Props.C105_silence_partial",
    "Bant.Props.C105_counterexample"
   ],
   "note": "False: unknown headers are not mentioned unless verbose (counterexample), and headers whose providers are all deprecated or not visible never are. Proved with these two exceptions. Locations in BUILD files are given from outside."
  },
  {
   "property": "C106",
   "status": "partial",
   "theorems": [
    "Bant.Props.C106_account_partial",
    "Bant.Props.C106_never_partial",
    "Bant.Props.C106_counterexample"
   ],
   "note": "False for one message: 'Would add ..., but not visible' is only said of libraries that are visible (C106_never_partial). Otherwise the exact account. How often a message is repeated for the same place is not stated; locations in BUILD files are given from outside, those in sources are computed."
  },
  {
   "property": "C107",
   "status": "partial",
   "theorems": [
    "Bant.Props.C107_relative_partial",
    "Bant.Props.C107_counterexample"
   ],
   "note": "False: an own header without any directory (#include \"x.h\") is taken for fine; the check only ever succeeds for #include \"/x.h\". Exact account of what is pointed out."
  },
  {
   "property": "C108",
   "status": "proved",
   "theorems": [
    "Bant.Props.C108_first_error",
    "Bant.Props.C108_not_earlier"
   ],
   "note": "For every content: what is before the first reported token can be completed, what includes it can not."
  },
  {
   "property": "C109",
   "status": "proved",
   "theorems": [
    "Bant.Props.C109_words",
    "Bant.Props.C109_inside"
   ],
   "note": "Texts with places, for every content."
  },
  {
   "property": "C110",
   "status": "partial",
   "theorems": [
    "Bant.Props.C110_list_targets_exact_partial",
    "Bant.Props.C110_list_targets_partial",
    "Bant.Props.C110_print_exact_partial",
    "Bant.Props.C110_print_partial",
    "Bant.Props.C110_counterexample"
   ],
   "note": "False for files with syntax errors, and with a newline in `not in`, which is not counted (C110_counterexample). Names made by + or glob have the location of the + or of glob. C110_list_targets_exact_partial, C110_print_exact_partial: for all files, the location is that in the text as it is counted (C24_counted)."
  },
  {
   "property": "C111",
   "status": "partial",
   "theorems": [
    "Bant.Props.C111_removed_partial",
    "Bant.Props.C111_counterexample"
   ],
   "note": "False for dependencies that are made by +, whose line is not seen, and for those that are in the list twice (C111_counterexample, example)."
  },
  {
   "property": "C112",
   "status": "partial",
   "theorems": [
    "Bant.Props.C112_same_partial",
    "Bant.Props.C112_ends_partial",
    "Bant.Props.C112_counterexample"
   ],
   "note": "As C97, with which it shares the counterexample; for dwyu the second part needs that no two rules of a file are the same (example)."
  },
  {
   "property": "C113",
   "status": "partial",
   "theorems": [
    "Bant.Props.C113_exact_partial",
    "Bant.Props.C113_messages_partial",
    "Bant.Props.C113_counterexample",
    "Bant.Props.C113_written_partial",
    "Bant.Props.C113_got"
   ],
   "note": "False behind a `not in` with a newline in it, which is not counted, and for pieces that end in a newline, as C51 (C113_counterexample). Proved for all other places. C113_exact_partial says what is printed for all places."
  },
  {
   "property": "C114",
   "status": "partial",
   "theorems": [
    "Bant.Props.C114_expected_partial",
    "Bant.Props.C114_counterexample"
   ],
   "note": "False for the closing bracket after `a[` and `a[:`, which is named but not accepted (C114_counterexample). Proved for all other words."
  },
  {
   "property": "C115",
   "status": "proved",
   "theorems": [
    "Bant.Props.C115_silent"
   ],
   "note": "If nothing is missing in the BUILD files."
  },
  {
   "property": "C116",
   "status": "proved",
   "theorems": [
    "Bant.Props.C116_said"
   ],
   "note": "If nothing is missing in the BUILD files. What genrule-outputs, dwyu and canonicalize say besides is C120 to C122."
  },
  {
   "property": "C117",
   "status": "partial",
   "theorems": [
    "Bant.Props.C117_counterexample",
    "Bant.Props.C117_absent_partial"
   ],
   "note": "False (C117_counterexample): without such a project in a file of the old kind (WORKSPACE), nothing is said about those in MODULE.bazel, and the other way round. Proved what is said, exactly."
  },
  {
   "property": "C118",
   "status": "proved",
   "theorems": [
    "Bant.Props.C118_not_found"
   ],
   "note": "If nothing is missing in the BUILD files."
  },
  {
   "property": "C119",
   "status": "proved",
   "theorems": [
    "Bant.Props.C119_anywhere",
    "Bant.Props.C119_quiet"
   ],
   "note": "For -q before the other arguments (C119_quiet) and at whatever place (C119_anywhere)."
  },
  {
   "property": "C120",
   "status": "proved",
   "theorems": [
    "Bant.Props.C120_invalid"
   ],
   "note": "If nothing is missing in the BUILD files. A text that is made by + or glob has the location of that."
  },
  {
   "property": "C121",
   "status": "proved",
   "theorems": [
    "Bant.Props.C121_also_created"
   ],
   "note": "If nothing is missing in the BUILD files. A text that is made by + or glob has the location of that."
  },
  {
   "property": "C122",
   "status": "proved",
   "theorems": [
    "Bant.Props.C122_dwyu"
   ],
   "note": "If nothing is missing in the BUILD files. The set of messages about a rule is exact, not their order or number."
  },
  {
   "property": "C123",
   "status": "proved",
   "theorems": [
    "Bant.Props.C123_provided"
   ],
   "note": "Headers that are not found, or that no visible library provides, are not spoken of (see C105, C106)."
  },
  {
   "property": "C124",
   "status": "partial",
   "theorems": [
    "Bant.Props.C124_kept_partial",
    "Bant.Props.C124_counterexample"
   ],
   "note": "False as stated (C124_counterexample): if two libraries that provide less are dependencies, and two others provide all that is included, then the former are removed, and none of the latter is added, as there is a choice. Proved for rules about which no choice and no testonly problem is reported."
  },
  {
   "property": "C125",
   "status": "proved",
   "theorems": [
    "Bant.Props.C125_depends_on",
    "Bant.Props.C125_list_packages",
    "Bant.Props.C125_has_dependents",
    "Bant.Props.C125_list_targets",
    "Bant.Props.C125_aliased_by",
    "Bant.Props.C125_canonicalize",
    "Bant.Props.C125_files"
   ],
   "note": "C125_files is about texts: rules that stand next to each other are exchanged; the other theorems are about any projects that have the same rules once evaluated (Reordered)."
  },
  {
   "property": "C126",
   "status": "partial",
   "theorems": [
    "Bant.Props.C126_lib_headers_partial",
    "Bant.Props.C126_genrule_outputs_partial",
    "Bant.Props.C126_counterexample"
   ],
   "note": "False as stated (C126_counterexample): of two genrules with the same output, the first one in the file is printed. Proved for projects in which no two genrules have the same output (genrule-outputs), and no file has two C++ libraries made from the same protocol buffer (lib-headers)."
  },
  {
   "property": "C127",
   "status": "partial",
   "theorems": [
    "Bant.Props.C127_dwyu_partial",
    "Bant.Props.C127_counterexample"
   ],
   "note": "False as stated (C127_counterexample): of two C++ libraries made from the same protocol buffer, the first one in the file is suggested. Proved for projects in which no file has two of these."
  },
  {
   "property": "C128",
   "status": "proved",
   "theorems": [
    "Bant.Props.C128_record",
    "Bant.Props.C128_written",
    "Bant.Props.C128_line",
    "Bant.Props.C128_speed",
    "Bant.Props.C128_millis",
    "Bant.Props.C128_titles"
   ],
   "note": "C128_written: relation between the runs with and without the statistics; C128_record: what the numbers are; C128_line, C128_speed: what a line looks like, without and with throughput; C128_millis: durations; C128_titles: which lines there can be for a command. How long something takes, and the text of the throughput (a floating point number), come from outside."
  },
  {
   "property": "C129",
   "status": "partial",
   "theorems": [
    "Bant.Props.C129_counts",
    "Bant.Props.C129_counts_partial",
    "Bant.Props.C129_counterexample"
   ],
   "note": "False as stated (C129_counterexample): if there are BUILD and BUILD.bazel in a directory, both are counted. C129_counts says what the numbers are in general; proved as stated if all files found can be read and are for different packages."
  },
  {
   "property": "C130",
   "status": "partial",
   "theorems": [
    "Bant.Props.C130_rounds",
    "Bant.Props.C130_rounds_partial",
    "Bant.Props.C130_counterexample"
   ],
   "note": "False as stated (C130_counterexample): a target for which there is no rule is not remembered, so that it makes another round if it is needed again farther away. C130_rounds: the rounds are enough for all targets, and there is a target in each, new or without rule; proved as stated if there is a rule for each target that is reached."
  },
  {
   "property": "C131",
   "status": "proved",
   "theorems": [
    "Bant.Props.C131_canonicalize",
    "Bant.Props.C131_dwyu"
   ],
   "note": ""
  },
  {
   "property": "C132",
   "status": "partial",
   "theorems": [
    "Bant.Props.C132_walk",
    "Bant.Props.C132_walk_partial",
    "Bant.Props.C132_counterexample"
   ],
   "note": "False as stated (C132_counterexample): a directory that can be reached in two ways (a mount) is searched once, so what is in it is not counted for the other. C132_walk: in general nothing is counted that is not there, nothing twice, and all files found are among it; proved as stated if no directory below can be reached in two ways."
  },
  {
   "property": "C133",
   "status": "partial",
   "theorems": [
    "Bant.Props.C133_tried_partial",
    "Bant.Props.C133_least_partial",
    "Bant.Props.C133_counterexample"
   ],
   "note": "False as stated (C133_counterexample): packages that do not exist are looked for, too, and again in each round. Proved if all packages that are needed exist; otherwise there are at least as many (C133_least_partial)."
  },
  {
   "property": "C134",
   "status": "partial",
   "theorems": [
    "Bant.Props.C134_rules",
    "Bant.Props.C134_files",
    "Bant.Props.C134_commands_partial",
    "Bant.Props.C134_counterexample"
   ],
   "note": "False as stated (C134_counterexample): without -e, headers of a library are not found if there is glob(). Proved for the commands that evaluate files, for the tree after evaluation (C134_rules), and for what is found (C134_files)."
  },
  {
   "property": "C135",
   "status": "partial",
   "theorems": [
    "Bant.Props.C135_rules",
    "Bant.Props.C135_files",
    "Bant.Props.C135_depends_on_partial",
    "Bant.Props.C135_has_dependents_partial",
    "Bant.Props.C135_list_packages_partial",
    "Bant.Props.C135_list_targets_partial",
    "Bant.Props.C135_aliased_by_partial",
    "Bant.Props.C135_lib_headers_partial",
    "Bant.Props.C135_genrule_outputs_partial",
    "Bant.Props.C135_counterexample",
    "Bant.Props.C135_canonicalize_partial"
   ],
   "note": "False as stated (C135_counterexample): with -e, a header is printed under another path if include_prefix is a variable. Proved for files with rules as usual (EvalSpec.Usual: keyword arguments without repetition, not summands, not called like a variable) and without two rules of the same name after evaluation; lib-headers where include_prefix and strip_include_prefix are written out and no two libraries are made from the same protocol buffers; genrule-outputs if no file is made by two rules; aliased-by for targets that have a name."
  },
  {
   "property": "C136",
   "status": "partial",
   "theorems": [
    "Bant.Props.C136_canonicalize_partial",
    "Bant.Props.C136_list_targets_partial",
    "Bant.Props.C136_list_packages_partial",
    "Bant.Props.C136_print_partial",
    "Bant.Props.C136_depends_on_partial",
    "Bant.Props.C136_depends_on_further_partial",
    "Bant.Props.C136_has_dependents_partial",
    "Bant.Props.C136_aliased_by_partial",
    "Bant.Props.C136_counterexample",
    "Bant.Props.C136_genrule_outputs_partial",
    "Bant.Props.C136_lib_headers_partial"
   ],
   "note": "False as stated (C136_counterexample): a directory called _tmp, .cache or .git is only looked into if it is asked for. Proved where the directory that is asked for is reached by the wider search (Within), in projects as in C95 (directories are a tree, told apart by inodes; one BUILD file for each package). The texts with the names of files are parameters: they are different, //a is found as a/BUILD, //... finds ./a/BUILD. has-dependents: without these assumptions. aliased-by: exact relation of lines. genrule-outputs: lines of rules asked for stay; others only for files made in other packages, too. lib-headers: both directions, but for aliases of libraries in packages not asked for. depends-on with -r: a sublist, if packages are the same as found for the pattern and as loaded for a dependency (Consistent)."
  },
  {
   "property": "C137",
   "status": "partial",
   "theorems": [
    "Bant.Props.C137_tree_partial",
    "Bant.Props.C137_commands_partial",
    "Bant.Props.C137_trees",
    "Bant.Props.C137_counterexample"
   ],
   "note": "False as stated (C137_counterexample): (a,) is a tuple of one element, (a) is a. Proved for all other such commas (square and curly brackets, calls, parentheses with another comma before) by induction over the derivations of the grammar that the parser is proved to implement (C53), and for the commands. C137_trees: commands depend on BUILD files only by their trees and by whether there are errors."
  },
  {
   "property": "C138",
   "status": "proved",
   "theorems": [
    "Bant.Props.C138_appended",
    "Bant.Props.C138_rules",
    "Bant.Props.C138_split"
   ],
   "note": "For all texts. The scanner at the seam (not in can not be formed there), then the parser: a run of the grammar on the first part stops at a name or a string (C138_appended); the rules (C138_rules); the form of any tree with errors (C138_split)."
  },
  {
   "property": "C139",
   "status": "proved",
   "theorems": [
    "Bant.Props.C139_tree",
    "Bant.Props.C139_commands"
   ],
   "note": "For all texts without errors (C139_tree) and all commands (C139_commands; places in the file that are printed and, for dwyu, sources are the same). Expressions end where bant ends them: it reads operators from the right, so in a * b + c the product alone is not one. Lists of variables are not expressions."
  },
  {
   "property": "C140",
   "status": "proved",
   "theorems": [
    "Bant.Props.C140_rules",
    "Bant.Props.C140_commands"
   ],
   "note": "For files (C140_rules) and commands (C140_commands), if the evaluation of the added values does not crash (it does for some, see C97). For dwyu the keep comments, for list-targets the places of names are the same."
  },
  {
   "property": "C141",
   "status": "proved",
   "theorems": [
    "Bant.Props.C141_old_name",
    "Bant.Props.C141_first"
   ],
   "note": "For the whole program, with all that is written to standard error."
  },
  {
   "property": "C142",
   "status": "proved",
   "theorems": [
    "Bant.Props.C142_files",
    "Bant.Props.C142_depends_on",
    "Bant.Props.C142_has_dependents",
    "Bant.Props.C142_list_packages",
    "Bant.Props.C142_list_targets",
    "Bant.Props.C142_aliased_by",
    "Bant.Props.C142_lib_headers",
    "Bant.Props.C142_genrule_outputs",
    "Bant.Props.C142_canonicalize",
    "Bant.Props.C142_print"
   ],
   "note": "For projects in which nothing is missing (Healthy), before and after. An example shows that a file can be attributed to another rule by genrule-outputs."
  },
  {
   "property": "C143",
   "status": "proved",
   "theorems": [
    "Bant.Props.C143_strings",
    "Bant.Props.C143_tree",
    "Bant.Props.C143_commands"
   ],
   "note": "For all texts (C143_strings, C143_tree) and for the commands on all machines (C143_commands). Strings between statements follow a part without errors; the part behind can have any."
  },
  {
   "property": "C144",
   "status": "partial",
   "theorems": [
    "Bant.Props.C144_rules",
    "Bant.Props.C144_commands_partial",
    "Bant.Props.C144_counterexample"
   ],
   "note": "False as stated (C144_counterexample): without -e, headers of a library are not found if there is select(). Proved for the commands that evaluate files (C144_commands_partial), and for the tree after evaluation (C144_rules)."
  },
  {
   "property": "C145",
   "status": "proved",
   "theorems": [
    "Bant.Props.C145_rules",
    "Bant.Props.C145_commands",
    "Bant.Props.C145_workspace"
   ],
   "note": "C145_rules for what is found in files, C145_commands for the output. C145_workspace shows that the exception is needed: the command workspace does see load()."
  }
 ]
}