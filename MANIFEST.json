{"claims": [
 {"property": "C01", "status": "proved", "theorems": ["Palc.C01_long_inline_separate"], "note": ""},
 {"property": "C02", "status": "proved", "theorems": ["Palc.C02_short_attached_eq_separate"], "note": ""},
 {"property": "C03", "status": "proved", "theorems": ["Palc.C03_require_equals_rejected", "Palc.C03_bundle_split"], "note": "The flag may follow other bundled flags. C03_require_equals_rejected shows why flags with require_equals are excluded."},
 {"property": "C04", "status": "proved", "theorems": ["Palc.C04_dashdash_tail", "Palc.C04_dashdash_errors"], "note": ""},
 {"property": "C05", "status": "proved", "theorems": ["Palc.C05_value_verbatim"], "note": ""},
 {"property": "C06", "status": "proved", "theorems": ["Palc.C06_at_most_once", "Palc.C06_second_rejected"], "note": ""},
 {"property": "C07", "status": "proved", "theorems": ["Palc.C07_vec_collects", "Palc.C07_vec_empty"], "note": ""},
 {"property": "C08", "status": "proved", "theorems": ["Palc.C08_move", "Palc.C08_commute"], "note": ""},
 {"property": "C09", "status": "proved", "theorems": ["Palc.C09_positional_order"], "note": ""},
 {"property": "C10", "status": "proved", "theorems": ["Palc.C10_surplus_rejected", "Palc.C10_surplus_after_dashdash", "Palc.C10_count"], "note": ""},
 {"property": "C11", "status": "proved", "theorems": ["Palc.C11_trailing_takes_all", "Palc.C11_trailing_reads", "Palc.C11_trailing_errors"], "note": ""},
 {"property": "C12", "status": "proved", "theorems": ["Palc.C12_last_needs_dashdash", "Palc.C12_no_dashdash", "Palc.C12_last_takes_all"], "note": ""},
 {"property": "C13", "status": "proved", "theorems": ["Palc.C13_subcommand_entered", "Palc.C13_subcommand_selects", "Palc.C13_otherwise_positional"], "note": "If two subcommands have the same name (not checked by the macros, C42), one of them is entered."},
 {"property": "C14", "status": "proved", "theorems": ["Palc.C14_global_stored", "Palc.C14_nonglobal_rejected"], "note": ""},
 {"property": "C15", "status": "proved", "theorems": ["Palc.C15_precedence", "Palc.C15_unique_winner", "Palc.C15_precedes"], "note": ""},
 {"property": "C16", "status": "proved", "theorems": ["Palc.C16_own", "Palc.C16_reads", "Palc.C16_reads_back", "Palc.C16_accepted", "Palc.C16_values", "Palc.C16_inline_args", "Palc.C16_inline_reads", "Palc.C16_inline", "Palc.C16_inline_accepted", "Palc.C16_inline_values", "Palc.C16_exclusive_differs", "Palc.C16_precedence_differs"], "note": "Reading: no condition on constraints (C16_inline_reads). Acceptance and values: no exclusive option in the flattened struct. Both: no option declared by two flattened structs. C16_exclusive_differs and C16_precedence_differs show that the conditions are needed."},
 {"property": "C17", "status": "proved", "theorems": ["Palc.C17_required_given"], "note": ""},
 {"property": "C18", "status": "proved", "theorems": ["Palc.C18_conflicts_exclusive"], "note": ""},
 {"property": "C19", "status": "proved", "theorems": ["Palc.C19_requires_given"], "note": ""},
 {"property": "C20", "status": "proved", "theorems": ["Palc.C20_exclusive_alone", "Palc.C20_count_fits"], "note": ""},
 {"property": "C21", "status": "proved", "theorems": ["Palc.C21_inert", "Palc.C21_given_wins", "Palc.C21_given_many", "Palc.C21_default_string", "Palc.C21_default_expr"], "note": ""},
 {"property": "C22", "status": "proved", "theorems": ["Palc.C22_subcommand_selected"], "note": ""},
 {"property": "C23", "status": "proved", "theorems": ["Palc.C23_accepts_iff", "Palc.C23_rejects_iff"], "note": ""},
 {"property": "C24", "status": "proved", "theorems": ["Palc.C24_panic_cause", "Palc.C24_no_panic", "Palc.C24_bad_default", "Palc.C24_bool_default"], "note": ""},
 {"property": "C25", "status": "proved", "theorems": ["Palc.C25_lookup", "Palc.C25_unambiguous"], "note": ""},
 {"property": "C26", "status": "partial", "theorems": ["Palc.C26_syntax", "Palc.C26_value_partial", "Palc.C26_constraint", "Palc.C26_positional_value"], "note": "The code violates the full statement for positional arguments: value errors about them carry no description (C26_positional_value, finding 8). C26_value_partial says exactly when there is one."},
 {"property": "C27", "status": "proved", "theorems": ["Palc.C27_attributes", "Palc.C27_index"], "note": ""},
 {"property": "C28", "status": "proved", "theorems": ["Palc.C28_counter", "Palc.C28_no_overflow", "Palc.C28_step", "Palc.C28_iterations"], "note": ""},
 {"property": "C29", "status": "proved", "theorems": ["Palc.C29_all_consumed", "Palc.C29_reading_unique"], "note": ""},
 {"property": "C30", "status": "proved", "theorems": ["Palc.C30_missing_eq", "Palc.C30_attached_rejected", "Palc.C30_eq_accepted"], "note": ""},
 {"property": "C31", "status": "proved", "theorems": ["Palc.C31_taken", "Palc.C31_missing_value"], "note": ""},
 {"property": "C32", "status": "partial", "theorems": ["Palc.C32_three_states", "Palc.C32_bare", "Palc.C32_long_value_partial", "Palc.C32_short_value_rejected", "Palc.C32_short_value_witness"], "note": "The code violates the full statement: -c=v is always rejected (C32_short_value_rejected, witness C32_short_value_witness, finding 1). Everything else is proved."},
 {"property": "C33", "status": "proved", "theorems": ["Palc.C33_value_rejected", "Palc.C33_bare_step", "Palc.C33_true_iff_given"], "note": ""},
 {"property": "C34", "status": "proved", "theorems": ["Palc.C34_unknown_long", "Palc.C34_unknown_short", "Palc.C34_invalid_short"], "note": ""},
 {"property": "C35", "status": "proved", "theorems": ["Palc.C35_long_help", "Palc.C35_short_help", "Palc.C35_help_only"], "note": ""},
 {"property": "C36", "status": "proved", "theorems": ["Palc.C36_try_into_help", "Palc.C36_custom", "Palc.C36_render", "Palc.C36_own_help", "Palc.C36_own_help_witness"], "note": ""},
 {"property": "C37", "status": "proved", "theorems": ["Palc.C37_parse", "Palc.C37_names_distinct", "Palc.C37_display_inverse", "Palc.C37_duplicate_rejected"], "note": ""},
 {"property": "C38", "status": "proved", "theorems": ["Palc.C38_select", "Palc.C38_parsed", "Palc.C38_accepted"], "note": ""},
 {"property": "C39", "status": "partial", "theorems": ["Palc.C39_split", "Palc.C39_unique", "Palc.C39_empty", "Palc.C39_pieces_partial", "Palc.C39_letter_delimiter"], "note": "The code violates the full statement for ignore_case with an ASCII letter as delimiter (C39_letter_delimiter, finding 5). All other cases are proved."},
 {"property": "C40", "status": "proved", "theorems": ["Palc.C40_reported", "Palc.C40_fromStr_ok", "Palc.C40_fromStr_error", "Palc.C40_osStr", "Palc.C40_enum_error"], "note": ""},
 {"property": "C41", "status": "proved", "theorems": ["Palc.C41_names_distinct", "Palc.C41_names_wellformed"], "note": ""},
 {"property": "C42", "status": "partial", "theorems": ["Palc.C42_duplicate_accepted", "Palc.C42_lookup_partial"], "note": "The code violates the statement: enums with colliding variant names are accepted (C42_duplicate_accepted, finding 2). C42_lookup_partial says what lookup does then."},
 {"property": "C43", "status": "proved", "theorems": ["Palc.C43_first_violation", "Palc.C43_reading_first"], "note": ""},
 {"property": "C44", "status": "proved", "theorems": ["Palc.C44_missing", "Palc.C44_result", "Palc.C44_failure", "Palc.C44_help"], "note": ""},
 {"property": "C45", "status": "proved", "theorems": ["Palc.C45_names", "Palc.C45_descriptions", "Palc.C45_possible_values", "Palc.C45_subcommands", "Palc.C45_concat"], "note": ""},
 {"property": "C46", "status": "proved", "theorems": ["Palc.C46_help", "Palc.C46_request", "Palc.C46_render", "Palc.C46_entry", "Palc.C46_hidden", "Palc.C46_required", "Palc.C46_order"], "note": ""},
 {"property": "C47", "status": "proved", "theorems": ["Palc.C47_compositional", "Palc.C47_prefix_exchange", "Palc.C47_lookahead"], "note": ""},
 {"property": "C48", "status": "partial", "theorems": ["Palc.C48_text", "Palc.C48_paragraphs", "Palc.C48_no_trailing", "Palc.C48_first_paragraph_partial", "Palc.C48_leading_blank"], "note": "The code violates the full statement for comments starting with a blank line (C48_leading_blank, finding 6). All other comments are covered; C48_text gives the text for all comments."},
 {"property": "C49", "status": "proved", "theorems": ["Palc.C49_every_argument_once", "Palc.C49_type_parser_default", "Palc.C49_flattened_and_subcommand", "Palc.C49_known", "Palc.C49_result"], "note": ""},
 {"property": "C50", "status": "proved", "theorems": ["Palc.C50_quote", "Palc.C50_name", "Palc.C50_value", "Palc.C50_enum", "Palc.C50_other", "Palc.C50_total", "Palc.C50_custom"], "note": ""},
 {"property": "C51", "status": "proved", "theorems": ["Palc.C51_accepted_iff", "Palc.C51_duplicate", "Palc.C51_unknown", "Palc.C51_false", "Palc.C51_repeatable"], "note": ""},
 {"property": "C52", "status": "proved", "theorems": ["Palc.C52_meaning", "Palc.C52_grouping", "Palc.C52_grouping_meaning", "Palc.C52_order", "Palc.C52_ignored"], "note": ""},
 {"property": "C53", "status": "proved", "theorems": ["Palc.C53_field_command", "Palc.C53_conflict", "Palc.C53_two_commands", "Palc.C53_malformed", "Palc.C53_container_iff", "Palc.C53_container_meaning", "Palc.C53_unsupported", "Palc.C53_after_long_about", "Palc.C53_arg_not_allowed", "Palc.C53_container_duplicate"], "note": ""},
 {"property": "C54", "status": "proved", "theorems": ["Palc.C54_accepted_iff", "Palc.C54_reorder", "Palc.C54_remove"], "note": ""},
 {"property": "C55", "status": "proved", "theorems": ["Palc.C55_accepted_iff", "Palc.C55_derived", "Palc.C55_same"], "note": ""},
 {"property": "C56", "status": "proved", "theorems": ["Palc.C56_accepted_iff", "Palc.C56_names", "Palc.C56_derived"], "note": ""},
 {"property": "C57", "status": "proved", "theorems": ["Palc.C57_accepted_iff", "Palc.C57_parse"], "note": ""},
 {"property": "C58", "status": "proved", "theorems": ["Palc.C58_kind_iff", "Palc.C58_type", "Palc.C58_field"], "note": ""},
 {"property": "C59", "status": "partial", "theorems": ["Palc.C59_args", "Palc.C59_asserts", "Palc.C59_subcommand_partial", "Palc.C59_subcommand_reports", "Palc.C59_subcommand_panics"], "note": "The code violates the full statement: derive(Subcommand) panics on tuple variants without exactly one element and on struct variants with more than 254 fields (C59_subcommand_panics, finding 10). C59_subcommand_partial says exactly when; everything else is proved."},
 {"property": "C60", "status": "partial", "theorems": ["Palc.C60_names_partial", "Palc.C60_raw"], "note": "The code violates the full statement for raw identifiers: `r#type` is called -r and --r-type (C60_raw, finding 12). All other identifiers are covered."},
 {"property": "C61", "status": "proved", "theorems": ["Palc.C61_returns_iff", "Palc.C61_exits", "Palc.C61_outcomes", "Palc.C61_no_arguments", "Palc.C61_help"], "note": ""},
 {"property": "C62", "status": "proved", "theorems": ["Palc.C62_options", "Palc.C62_positionals", "Palc.C62_last", "Palc.C62_own_option", "Palc.C62_has_name"], "note": ""},
 {"property": "C63", "status": "proved", "theorems": ["Palc.C63_normal_form", "Palc.C63_accepted"], "note": ""},
 {"property": "C64", "status": "proved", "theorems": ["Palc.C64_same_values", "Palc.C64_accepts_iff", "Palc.C64_same_errors", "Palc.C64_help_iff", "Palc.C64_same_panics", "Palc.C64_never_help"], "note": ""},
 {"property": "C65", "status": "proved", "theorems": ["Palc.C65_reads", "Palc.C65_accepted", "Palc.C65_values", "Palc.C65_flatten_order_matters"], "note": ""},
 {"property": "C66", "status": "proved", "theorems": ["Palc.C66_reads", "Palc.C66_values", "Palc.C66_accepted", "Palc.C66_shadowing_breaks", "Palc.C66_global_breaks", "Palc.C66_subcommand_breaks"], "note": "C66_shadowing_breaks, C66_global_breaks and C66_subcommand_breaks show that the conditions on names are needed: the macros do not reject such additions."},
 {"property": "C67", "status": "proved", "theorems": ["Palc.C67_final", "Palc.C67_missing_value", "Palc.C67_conflict", "Palc.C67_prefix"], "note": "C67_final: same error for every continuation; C67_missing_value: the next argument decides; C67_conflict: conflicts and exclusiveness are never repaired; C67_prefix: beginnings of accepted command lines. A panic on an invalid default value (C24) is a possible outcome of a beginning, too."},
 {"property": "C68", "status": "proved", "theorems": ["Palc.C68_reads", "Palc.C68_values", "Palc.C68_accepted_iff", "Palc.C68_added_used"], "note": "Converse of C66, for definitions and command lines of any size. The old version may be stricter about subcommands only."},
 {"property": "C69", "status": "proved", "theorems": ["Palc.C69_refines", "Palc.C69_never_stuck", "Palc.C69_reserved_breaks"], "note": "Refinement between the emitted statements (Verif/Emit.lean) and the functional model used by the other properties. C69_reserved_breaks: the condition on names is needed (finding 13)."},
 {"property": "C70", "status": "proved", "theorems": ["Palc.C70_sound", "Palc.C70_well_typed", "Palc.C70_reserved_breaks"], "note": "The checker (Verif/EmitTypes.lean) covers scopes, types up to the user's value types, labels, u8 literals and exclusive borrows; assertions in constants and the info tables are not part of it. C70_reserved_breaks: finding 13. C70_sound: code that passes the checker does not go wrong (progress and preservation)."},
 {"property": "C71", "status": "proved", "theorems": ["Palc.C71_refines", "Palc.C71_unit", "Palc.C71_verbatim"], "note": "No hypothesis on the definition. Templates are parsed with the rules of std::fmt (subset: `{}`, `{:.N}` with one digit, `{{`, `}}`)."},
 {"property": "C72", "status": "proved", "theorems": ["Palc.C72_result", "Palc.C72_exchange", "Palc.C72_failure", "Palc.C72_failure_plain", "Palc.C72_accepted"], "note": "What follows a subcommand name, against `tryParseFrom` of the subcommand as root. Values of the arguments before it are assumed acceptable for failures (otherwise their error is the outcome)."},
 {"property": "C73", "status": "partial", "theorems": ["Palc.C73_long", "Palc.C73_short", "Palc.C73_default_value_partial", "Palc.C73_ignore_case_default"], "note": "C73_long and C73_short are in full generality for any value equal to the default, also with default_value_t. C73_default_value_partial has the condition that ignore_case does not change the text of the default; C73_ignore_case_default shows that the code violates the claim without it (the program panics)."},
 {"property": "C74", "status": "proved", "theorems": ["Palc.C74_accepted", "Palc.C74_presentation", "Palc.C74_rejected"], "note": "Examples show that the relaxed program accepts more, also inside a subcommand."},
 {"property": "C75", "status": "partial", "theorems": ["Palc.C75_text", "Palc.C75_reads", "Palc.C75_followed_partial", "Palc.C75_subcommand_partial", "Palc.C75_not_order", "Palc.C75_not_trailing", "Palc.C75_not_short", "Palc.C75_not_parents"], "note": "C75_reads: read as meant, in any command; C75_text: the text. The full claim is false: an optional positional before a required one (C75_not_order), a list after a trailing one (C75_not_trailing), a non-ASCII short name (C75_not_short), arguments required by the commands before a subcommand (C75_not_parents). requires, conflicts_with and exclusive are not shown in the usage line, so they are hypotheses (Sufficient)."},
 {"property": "C76", "status": "proved", "theorems": ["Palc.C76_local", "Palc.C76_long", "Palc.C76_positional", "Palc.C76_invalid"], "note": "C76_local is the general statement (any arguments replaced by others that are read as the same occurrences up to acceptable values); C76_long and C76_positional are instances; C76_invalid is about unacceptable values."},
 {"property": "C77", "status": "partial", "theorems": ["Palc.C77_shown", "Palc.C77_followed_partial", "Palc.C77_documented", "Palc.C77_command", "Palc.C77_not_short", "Palc.C77_not_shadowed"], "note": "C77_followed_partial excludes the value of an Option<Option<T>> option after its short name (C77_not_short) and names that an earlier struct of the command uses too (C77_not_shadowed): there the code violates the claim. C77_shown, C77_documented and C77_command hold as stated."},
 {"property": "C78", "status": "proved", "theorems": ["Palc.C78_same", "Palc.C78_kind", "Palc.C78_docs"], "note": "Two programs that differ only in what they show. Same results, and the same errors up to how the argument is shown (C78_same, C78_kind); with unchanged value names only help texts differ (C78_docs)."},
 {"property": "C79", "status": "proved", "theorems": ["Palc.C79_reads", "Palc.C79_accepted", "Palc.C79_values"], "note": "C65 at every level: fields of the struct and of the structs of subcommands, and the subcommands themselves, in another order."},
 {"property": "C80", "status": "partial", "theorems": ["Palc.C80_lines", "Palc.C80_quiet_partial", "Palc.C80_not_help"], "note": "Proved for all errors other than help requests. False for help requests: the program name is printed unescaped (C80_not_help)."},
 {"property": "C81", "status": "proved", "theorems": ["Palc.C81_errors", "Palc.C81_same", "Palc.C81_not_first"], "note": ""},
 {"property": "C82", "status": "proved", "theorems": ["Palc.C82_compile_iff", "Palc.C82_order", "Palc.C82_compiles_iff", "Palc.C82_runs", "Palc.C82_no_panic"], "note": "C82_runs composes the macros, the emitted code and the language; C82_compile_iff and C82_order make the order of items irrelevant; C82_compiles_iff is the acceptance criterion for whole crates."},
 {"property": "C83", "status": "proved", "theorems": ["Palc.C83_long", "Palc.C83_short", "Palc.C83_long_short", "Palc.C83_declared"], "note": "Full outcomes, including errors. C83_declared starts from the declaration; the others from what a name resolves to, so they include global options and flattened structs."},
 {"property": "C84", "status": "proved", "theorems": ["Palc.C84_others"], "note": "Whole outcomes. Help texts of a command with changed subcommands differ, as they list them."},
 {"property": "C85", "status": "proved", "theorems": ["Palc.C85_shown", "Palc.C85_help", "Palc.C85_render", "Palc.C85_determined", "Palc.C85_path"], "note": ""},
 {"property": "C86", "status": "proved", "theorems": ["Palc.C86_text", "Palc.C86_enum", "Palc.C86_display"], "note": ""},
 {"property": "C87", "status": "proved", "theorems": ["Palc.C87_same", "Palc.C87_process", "Palc.C87_help", "Palc.C87_accepted", "Palc.C87_names_kept"], "note": "C87_same: same error or the same values; C87_process: same text and exit status; C87_help; C87_accepted: the macro accepts the renamed struct. C87_names_kept shows that the names have to be kept."},
 {"property": "C88", "status": "proved", "theorems": ["Palc.C88_same", "Palc.C88_process", "Palc.C88_accepted", "Palc.C88_command_titled"], "note": "C88_same: same outcome of every argv, including error and help texts; C88_process: same process output, render_long_help; C88_accepted: the macro accepts it. C88_command_titled shows that the same attributes matter if the struct is itself a command."},
 {"property": "C89", "status": "proved", "theorems": ["Palc.C89_past_name", "Palc.C89_before_name", "Palc.C89_past", "Palc.C89_hidden"], "note": "C89_past_name, C89_before_name: equal outcomes around the name of a subcommand; C89_past: over further arguments, through several subcommands. C89_hidden: a subcommand declaring the same name takes the option."},
 {"property": "C90", "status": "proved", "theorems": ["Palc.C90_fewer", "Palc.C90_leave_out", "Palc.C90_optional"], "note": "C90_fewer: the general form (also positional arguments, also in another order); C90_leave_out: options removed anywhere; C90_optional: always accepted if nothing requires them."},
 {"property": "C91", "status": "proved", "theorems": ["Palc.C91_any_std", "Palc.C91_no_subcommands", "Palc.C91_collision"], "note": "C91_any_std: the library on top of any std equals the model; C91_no_subcommands: no condition without subcommands; C91_collision: the condition is needed."},
 {"property": "C92", "status": "proved", "theorems": ["Palc.C92_at_once", "Palc.C92_apart", "Palc.C92_regroup", "Palc.C92_letter_delimiter"], "note": "C92_at_once: one joined value for several pieces, in any context; C92_apart: any number of occurrences; C92_regroup: any two groupings for `--name=`; C92_letter_delimiter: the exception is needed."},
 {"property": "C93", "status": "proved", "theorems": ["Palc.C93_struct", "Palc.C93_variants", "Palc.C93_variant_attributes", "Palc.C93_field", "Palc.C93_value_enum", "Palc.C93_unnoticed"], "note": "C93_struct: fields of structs; C93_field: one field; C93_variants, C93_variant_attributes: subcommand enums; C93_value_enum: value enums; C93_unnoticed: the exceptions are needed."},
 {"property": "C94", "status": "proved", "theorems": ["Palc.C94_struct", "Palc.C94_subcommand", "Palc.C94_program", "Palc.C94_first"], "note": "C94_struct, C94_subcommand: the macros; C94_program: whole programs; C94_first: the first impl matters."},
 {"property": "C95", "status": "proved", "theorems": ["Palc.C95_accepted", "Palc.C95_rejected", "Palc.C95_shadow"], "note": "C95_accepted, C95_rejected; C95_shadow: names that are not new may be taken from other arguments."},
 {"property": "C96", "status": "proved", "theorems": ["Palc.C96_accepted", "Palc.C96_rejected", "Palc.C96_taken"], "note": "C96_accepted, C96_rejected; C96_taken: the condition on names is needed."},
 {"property": "C97", "status": "proved", "theorems": ["Palc.C97_given", "Palc.C97_required"], "note": "C97_given: equivalence for command lines that give the arguments; C97_required: arguments that had to be given may get a default."},
 {"property": "C98", "status": "proved", "theorems": ["Palc.C98_accepted", "Palc.C98_rejected", "Palc.C98_variants"], "note": "C98_accepted, C98_rejected; C98_variants: value enums with more variants are types that accept more."}
]}
