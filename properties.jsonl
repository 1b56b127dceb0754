{"id": "C01", "title": "`--name=value` and `--name value` are interchangeable", "statement": "For a declared long option that takes a value and does not have `require_equals`, whenever options are being recognised, giving the value inline (`--name=v`) or as the next argument (`--name v`) leads to exactly the same outcome of `try_parse_from` (same parsed struct, or same error), for every value `v` that may stand alone as a value argument, and whatever arguments come before and after.", "quantifier": "every CLI definition accepted by the derive macros, every argument vector prefix and suffix, every option name and alias, every value byte string (including empty, containing '=', or not UTF-8)", "why_tests_cant": "values, surrounding arguments and CLI definitions are unbounded; a test fixes a handful of spellings", "anchors": ["src/runtime.rs::run_parser", "src/runtime.rs::visit_named"]}
{"id": "C02", "title": "`-cV`, `-c=V` and `-c V` are interchangeable", "statement": "For a declared value-taking short option without `require_equals`, the attached, '='-separated and next-argument spellings of the same value lead to exactly the same outcome (attached requires a non-empty value not starting with '=', the separate form a value that may stand alone).", "quantifier": "every accepted CLI definition, every short name (any Unicode char), every value byte string, every surrounding argument list", "why_tests_cant": "unbounded values and contexts, multi-byte short names, non-UTF-8 tails", "anchors": ["src/runtime.rs::run_parser", "src/runtime.rs::visit_named"]}
{"id": "C03", "title": "Bundled short flags mean the same as separate flags", "statement": "`-xREST` is equivalent to `-x` followed by `-REST` whenever `x` is a boolean flag visible at that point and declared without `require_equals` (with it, the flag cannot be bundled with anything after it) and REST is non-empty and starts neither with '=' nor with '-': same result, same error, for any REST (more flags, an option with an attached value, junk, invalid UTF-8).", "quantifier": "every accepted CLI definition, every flag, every tail byte string, every parser state", "why_tests_cant": "bundles are arbitrarily long and mix flags, values and invalid bytes", "anchors": ["src/runtime.rs::run_parser"]}
{"id": "C04", "title": "`--` ends option and subcommand recognition", "statement": "After the first `--` that is not itself consumed as an option value, every following argument (including ones starting with '-', ones equal to a subcommand name and further `--`) is delivered verbatim to positional arguments, in order, and none is interpreted as an option or a subcommand.", "quantifier": "every accepted CLI definition, every argument list after `--`, every state before it", "why_tests_cant": "the tail after `--` is an arbitrary list of arbitrary byte strings", "anchors": ["src/runtime.rs::run_parser", "src/runtime.rs::visit_positional"]}
{"id": "C05", "title": "Option values are delivered byte-for-byte", "statement": "The bytes handed to the value parser of an option are exactly the bytes after the first '=' (long and short inline form), exactly the bytes following the option character (attached form) or exactly the next argument; later '=' signs, empty values and non-UTF-8 bytes are preserved; nothing is trimmed or re-encoded (except ASCII lower-casing when `ignore_case` is set).", "quantifier": "every accepted CLI definition, every byte string value", "why_tests_cant": "values range over all byte strings", "anchors": ["src/runtime.rs::run_parser", "src/runtime.rs::visit_named", "src/values.rs::TryFromOsStrParser"]}
{"id": "C06", "title": "A single-valued argument or flag can be given at most once", "statement": "If `try_parse_from` succeeds, every argument that is not `Vec`-like occurred at most once in the arguments, counting all its spellings (long, short, alias, bundled) and, for global arguments, all subcommand levels. A second occurrence is an error, never a silent override.", "quantifier": "every accepted CLI definition and every argument list", "why_tests_cant": "occurrences can be arbitrarily far apart, in different spellings and at different subcommand levels", "anchors": ["src/runtime.rs::FlagPlace", "src/runtime.rs::SetValuePlace", "src/runtime.rs::SetOptionalValuePlace"]}
{"id": "C07", "title": "`Vec` arguments collect all values in argument order", "statement": "If parsing succeeds, a `Vec`-like argument holds exactly the parsed values of all its occurrences in the order they occurred (after delimiter splitting if configured), no matter how they are interleaved with other arguments; without an occurrence it is empty (`None` for `Option<Vec<_>>`).", "quantifier": "every accepted CLI definition and every argument list", "why_tests_cant": "any number of occurrences, any interleaving", "anchors": ["src/runtime.rs::VecPlace", "src/runtime.rs::VecDelimitedPlace", "derive/src/derive_args.rs::FieldInfo::extractor"]}
{"id": "C08", "title": "Occurrences of different arguments commute", "statement": "Exchanging two adjacent complete option occurrences that go to different arguments does not change a successful outcome: the same struct is produced.", "quantifier": "every accepted CLI definition, every pair of adjacent occurrences in any spelling, every context", "why_tests_cant": "all pairs of occurrences in all contexts; no finite test set covers them", "anchors": ["src/runtime.rs::run_parser", "src/runtime.rs::visit_named"]}
{"id": "C09", "title": "Positional arguments are filled in declaration order", "statement": "The k-th argument read as positional goes to the k-th declared positional field (single-valued fields in declaration order, then the variable-length one), irrespective of options interspersed between them.", "quantifier": "every accepted CLI definition, every argument list", "why_tests_cant": "arbitrary interleavings of options and positionals", "anchors": ["src/runtime.rs::visit_positional", "derive/src/derive_args.rs::expand_args_parse"]}
{"id": "C10", "title": "Surplus positional arguments are rejected, never dropped", "statement": "A positional argument that no positional field can take makes parsing fail: as an unrecognised subcommand if the command has subcommands, otherwise as an unexpected argument, quoting that argument verbatim.", "quantifier": "every accepted CLI definition, every parser state, every argument", "why_tests_cant": "must hold at every position count and for every argument text", "anchors": ["src/runtime.rs::visit_positional"]}
{"id": "C11", "title": "`trailing_var_arg` takes everything after its first value verbatim", "statement": "Once a `trailing_var_arg` argument has received its first value, all remaining arguments go to it verbatim and in order, whatever they look like (`-x`, `--`, subcommand names).", "quantifier": "every accepted CLI definition with such a field, every remaining argument list", "why_tests_cant": "the tail is an arbitrary argument list", "anchors": ["src/runtime.rs::visit_positional"]}
{"id": "C12", "title": "`last` arguments are reachable only through `--` and take all of its tail", "statement": "An `arg(last)` field receives values only from arguments after `--`; when a command has such a field, every argument after `--` goes to it, even if earlier positional fields are unfilled.", "quantifier": "every accepted CLI definition with a `last` field, every argument list", "why_tests_cant": "arbitrary numbers of positionals before and after `--`", "anchors": ["src/runtime.rs::run_parser", "src/runtime.rs::visit_positional"]}
{"id": "C13", "title": "Subcommand names take priority over positional arguments and match exactly", "statement": "Outside `--` and trailing arguments, an argument not starting with '-' (or exactly '-') is a subcommand if and only if it is byte-equal to a declared subcommand name of the current command; it then selects exactly that variant and all following arguments are read by that subcommand. Otherwise it is positional.", "quantifier": "every accepted CLI definition with distinct subcommand names, every argument, every state", "why_tests_cant": "every byte string must be classified; name sets are unbounded", "anchors": ["src/runtime.rs::run_parser", "src/refl.rs::RawSubcommandInfo::search", "derive/src/derive_subcommand.rs::expand_for_enum"]}
{"id": "C14", "title": "Global options are accepted below subcommands and stored at their declaring level", "statement": "After entering subcommands, an option not declared by the current command is resolved to the nearest enclosing command that declares it with `global = true`, and its value ends up in that command's struct; an option of an enclosing command without `global` is reported as unexpected.", "quantifier": "every accepted CLI definition, every nesting depth of subcommands, every option name", "why_tests_cant": "nesting depth and shadowing combinations are unbounded", "anchors": ["src/runtime.rs::ArgsFrame::search_named", "src/runtime.rs::CommandFrame::search_named"]}
{"id": "C15", "title": "Name resolution precedence is deterministic: own fields, flattened structs in order, then enclosing globals", "statement": "When the same option name is declared in several places, the struct's own field wins over flattened ones, an earlier flattened struct wins over a later one, and the current command wins over enclosing commands; exactly one field receives each occurrence.", "quantifier": "every accepted CLI definition with arbitrarily nested flattening, every option name", "why_tests_cant": "flatten trees are unbounded", "anchors": ["src/runtime.rs::ArgsFrame::search_named", "derive/src/derive_args.rs::ArgsParse::to_tokens"]}
{"id": "C16", "title": "Flattening is transparent", "statement": "Named arguments of a flattened struct are parsed exactly as if they were declared in the containing struct (same grammar, interleaving allowed); the struct produced by parsing has each flattened sub-struct filled from the occurrences of its own arguments only.", "quantifier": "every accepted CLI definition, every flatten tree, every argument list", "why_tests_cant": "flatten trees and argument lists are unbounded", "anchors": ["derive/src/derive_args.rs::ArgsParse::to_tokens", "src/runtime.rs::RunParser"]}
{"id": "C17", "title": "Required arguments are present after a successful parse", "statement": "If parsing succeeds, every argument that is required (`arg(required)` or a plain non-Option/bool/Vec type without default) was given on the command line, at every entered level and in every flattened struct; if one is missing parsing fails and never yields a struct.", "quantifier": "every accepted CLI definition, every argument list", "why_tests_cant": "all argument lists that omit some required argument", "anchors": ["derive/src/derive_args.rs::ValidateFinish", "src/runtime.rs::error_missing_arg"]}
{"id": "C18", "title": "Conflicting arguments are never accepted together", "statement": "If parsing succeeds, no two arguments related by `conflicts_with`/`conflicts_with_all` (declared in either direction) were both given; the relative order on the command line is irrelevant and default values do not count as given.", "quantifier": "every accepted CLI definition, every argument list", "why_tests_cant": "all combinations and orders of arguments", "anchors": ["derive/src/derive_args.rs::ValidateFinish", "src/runtime.rs::error_conflict"]}
{"id": "C19", "title": "`requires` is enforced", "statement": "If parsing succeeds and an argument with `requires = \"x\"` was given, then `x` was given too (a default value for x does not satisfy it).", "quantifier": "every accepted CLI definition, every argument list", "why_tests_cant": "all combinations of arguments", "anchors": ["derive/src/derive_args.rs::ValidateFinish", "src/runtime.rs::error_dependency"]}
{"id": "C20", "title": "`exclusive` is enforced, with no counter overflow", "statement": "If parsing succeeds and an `exclusive` argument was given, no other direct argument of that struct and no subcommand was given. The count used cannot overflow its 8-bit type for any struct the macro accepts.", "quantifier": "every accepted struct (up to the field limit), every argument list", "why_tests_cant": "all subsets of up to 254 fields", "anchors": ["derive/src/derive_args.rs::ValidateFinish", "derive/src/derive_args.rs::MAX_FIELD_LEN"]}
{"id": "C21", "title": "Default values apply exactly when the argument is absent", "statement": "If parsing succeeds, a field with a default holds the default value iff the argument did not occur, otherwise it holds the user's value; defaults never trigger conflict, dependency or exclusivity errors.", "quantifier": "every accepted CLI definition, every argument list", "why_tests_cant": "all argument lists", "anchors": ["derive/src/derive_args.rs::ValidateFinish", "src/runtime.rs::Parsable::set_default", "src/runtime.rs::Parsable::set_default_parse"]}
{"id": "C22", "title": "A required subcommand must be given", "statement": "If parsing succeeds, every non-Option subcommand field at every entered level was selected on the command line; an Option subcommand field is None iff none was selected.", "quantifier": "every accepted CLI definition, every argument list", "why_tests_cant": "all argument lists and nesting depths", "anchors": ["derive/src/derive_args.rs::ValidateFinish", "src/runtime.rs::error_missing_subcmd"]}
{"id": "C23", "title": "No spurious rejections: complete characterisation of success", "statement": "`try_parse_from` succeeds if and only if the arguments can be read by the documented grammar, every single-valued argument occurs at most once, every value parses, and all constraints (required, requires, conflicts, exclusive, required subcommand) hold; and the resulting struct is the one determined by the occurrences.", "quantifier": "every accepted CLI definition, every argument list", "why_tests_cant": "an equivalence over all argument lists cannot be sampled", "anchors": ["src/runtime.rs::run_parser", "derive/src/derive_args.rs::ValidateFinish"]}
{"id": "C24", "title": "`try_parse_from` never panics", "statement": "For every CLI definition the macros accept whose `default_value` strings parse, `try_parse_from` returns Ok or Err for every argument list: no index out of bounds, no failing unwrap, no integer underflow/overflow, no cut inside a character (`OsStrBytesExt::index` panics there), no reachable `unreachable!`.", "quantifier": "every accepted CLI definition, every argument list of arbitrary byte strings", "why_tests_cant": "panic freedom quantifies over all inputs and definitions", "anchors": ["src/runtime.rs::run_parser", "src/runtime.rs::visit_named", "src/runtime.rs::visit_positional", "derive/src/derive_args.rs::ArgsParse::to_tokens", "src/lib.rs::Parser::try_parse_from"]}
{"id": "C25", "title": "Option lookup is exact", "statement": "For every accepted struct, an encoded option name resolves to field f iff it is one of f's declared names (long, short or alias); every declared name resolves, and any other byte string resolves to nothing. In particular binary search over the generated table never misses.", "quantifier": "every accepted struct with any set of names, every byte string", "why_tests_cant": "unbounded name sets and lookup keys", "anchors": ["src/refl.rs::RawArgsInfo::get_named", "derive/src/derive_args.rs::RawArgsInfo", "derive/src/derive_args.rs::expand_args_parse"]}
{"id": "C26", "title": "Error messages name the argument they are about", "statement": "The argument description attached to a value, duplicate, missing-value, missing-'=', required, conflict, dependency or exclusivity error is exactly the description of the field concerned, for every field of every accepted struct.", "quantifier": "every accepted struct with up to 254 fields, every field", "why_tests_cant": "description tables are packed strings; any separator inside a description or off-by-one would misattribute for some field", "anchors": ["src/refl.rs::RawArgsInfo::get_description", "src/error.rs::ErrorKind::with_arg_idx", "derive/src/derive_args.rs::RawArgsInfo"]}
{"id": "C27", "title": "Argument attributes and index do not interfere in the packed word", "statement": "For every accepted field the packed attribute word yields back exactly its field index and exactly the set of behaviours requested in its attributes; no flag reads as set because of another flag or of the index.", "quantifier": "every field index 0..253 and every combination of attributes", "why_tests_cant": "index and flag combinations are too many to enumerate in unit tests and none exist for them", "anchors": ["src/shared.rs::ArgAttrs", "derive/src/derive_args.rs::expand_args_parse"]}
{"id": "C28", "title": "The positional counter stays in range", "statement": "During any parse, the 8-bit positional counter never exceeds the number of positional fields, hence never overflows and never skips a field.", "quantifier": "every accepted CLI definition, every argument list", "why_tests_cant": "reachability over all argument lists", "anchors": ["src/runtime.rs::ArgsFrame::next_positional", "src/runtime.rs::visit_positional"]}
{"id": "C29", "title": "Successful parses consume every argument", "statement": "If `try_parse_from` returns Ok, every argument after argv[0] has been read exactly once, as an option, an option value, a positional value, a subcommand name or the `--` marker; nothing is ignored.", "quantifier": "every accepted CLI definition, every argument list", "why_tests_cant": "all argument lists", "anchors": ["src/runtime.rs::run_parser"]}
{"id": "C30", "title": "`require_equals` options take values only after '='", "statement": "A value-taking option with `require_equals` given without '=' is rejected (neither the next argument nor attached characters are consumed as its value), and is accepted with `=` followed by any value, including the empty one.", "quantifier": "every accepted CLI definition, every value and context", "why_tests_cant": "all spellings and contexts", "anchors": ["src/runtime.rs::visit_named"]}
{"id": "C31", "title": "Values starting with '-' are only taken when allowed", "statement": "As a separate argument, a value is accepted iff it does not start with '-', or is exactly '-', or the option has `allow_hyphen_values`, or it has `allow_negative_numbers` and the value is '-' followed by ASCII digits only; otherwise the option is reported as missing its value.", "quantifier": "every accepted CLI definition, every candidate value byte string", "why_tests_cant": "all byte strings", "anchors": ["src/runtime.rs::visit_named"]}
{"id": "C32", "title": "`Option<Option<T>>` options distinguish absent, bare and valued, and never consume the next argument", "statement": "An `Option<Option<T>>` option is None when absent, Some(None) for a bare occurrence and Some(Some(v)) for an occurrence with `=v`, in long and in short form; it never takes the following argument as its value.", "quantifier": "every accepted CLI definition, every value and context", "why_tests_cant": "all values and contexts; the short form with '=' has no test", "anchors": ["src/runtime.rs::SetOptionalValuePlace", "src/runtime.rs::visit_named", "src/runtime.rs::run_parser"]}
{"id": "C33", "title": "Boolean flags never take a value", "statement": "A bool flag given with an inline value (`--flag=v`, `-f=v`, including empty v) is rejected with the value quoted verbatim; a bare flag never consumes the next argument; the field is true iff the flag was given.", "quantifier": "every accepted CLI definition, every inline value and context", "why_tests_cant": "all values", "anchors": ["src/runtime.rs::FlagPlace", "src/runtime.rs::visit_named"]}
{"id": "C34", "title": "Option names that are not declared are rejected with the offending name", "statement": "An option argument whose name resolves to no visible field (and is not the built-in help) makes parsing fail quoting that name; option names that are not valid UTF-8 are always rejected and never panic, whatever the byte sequence.", "quantifier": "every accepted CLI definition, every byte string", "why_tests_cant": "all byte strings including every invalid UTF-8 form", "anchors": ["src/runtime.rs::visit_named", "src/runtime.rs::run_parser"]}
{"id": "C35", "title": "Built-in help is a fallback for `-h`/`--help` and describes the innermost entered command", "statement": "`--help` or `-h` (also bundled after flags) where options are recognised yields the help outcome unless a visible user argument has that name; the rendered usage line carries the program name and the path of entered subcommands; help outcomes take precedence over all constraint errors.", "quantifier": "every accepted CLI definition, every state", "why_tests_cant": "all states and nesting depths", "anchors": ["src/runtime.rs::visit_named", "src/help.rs::render_help_into", "src/runtime.rs::CommandFrame::collect_command_prefix"]}
{"id": "C36", "title": "`try_into_help` and `render_long_help`", "statement": "`Error::try_into_help` returns the help text iff the error is a help request, otherwise gives back the same error; `render_long_help` returns a help text (does not panic) for every accepted CLI that does not define its own `--help`.", "quantifier": "every accepted CLI definition, every error", "why_tests_cant": "all errors and definitions", "anchors": ["src/error.rs::Error::try_into_help", "src/lib.rs::Parser::render_long_help"]}
{"id": "C37", "title": "ValueEnum parsing and displaying are inverse", "statement": "For every accepted ValueEnum, parsing the display name of a variant gives that variant, a string parses to a variant only if it is exactly that variant's name, and two variants never share a name.", "quantifier": "every accepted ValueEnum with any set of names, every string", "why_tests_cant": "all strings and all enums", "anchors": ["derive/src/derive_value_enum.rs", "src/values.rs::ValueEnumParser"]}
{"id": "C38", "title": "`ignore_case` matches exactly up to ASCII case", "statement": "For an accepted `ignore_case` option, an input value selects a variant iff it equals the variant's name up to ASCII letter case (non-ASCII letters are compared exactly).", "quantifier": "every accepted ValueEnum field with ignore_case, every input byte string", "why_tests_cant": "all case mixtures of all strings", "anchors": ["src/runtime.rs::visit_named", "derive/src/derive_args.rs::ArgsParse::to_tokens", "derive/src/derive_value_enum.rs"]}
{"id": "C39", "title": "`value_delimiter` splits losslessly", "statement": "With a delimiter, each occurrence contributes the pieces between delimiters: no piece contains the delimiter, joining the pieces with the delimiter restores the value, and an empty value contributes one empty piece.", "quantifier": "every delimiter char and every value byte string", "why_tests_cant": "all byte strings, multi-byte delimiters", "anchors": ["src/runtime.rs::VecDelimitedPlace"]}
{"id": "C40", "title": "Value parser contract: UTF-8 requirement and verbatim error input", "statement": "`FromStr`/`ValueEnum` values are only parsed from valid UTF-8 and otherwise produce an invalid-value error; `TryFrom<&OsStr>` values receive the raw bytes; every invalid-value error carries the exact input and the source error if there is one.", "quantifier": "every value byte string, every value parser", "why_tests_cant": "all byte strings", "anchors": ["src/values.rs"]}
{"id": "C41", "title": "Duplicate or malformed option names are rejected at compile time", "statement": "The derive accepts a struct only if all option names of its direct fields are pairwise distinct, long names are non-empty, do not start with '-', and contain neither '=' nor ASCII control characters, and short names are not '-', '=' or ASCII control characters.", "quantifier": "every struct definition", "why_tests_cant": "all definitions", "anchors": ["derive/src/derive_args.rs::encode_long_name", "derive/src/derive_args.rs::encode_short_name", "derive/src/derive_args.rs::expand_args_parse"]}
{"id": "C42", "title": "Duplicate subcommand names produce a compile error", "statement": "As documented for derive(Subcommand), an enum whose variant names collide after kebab-case conversion is rejected.", "quantifier": "every enum definition", "why_tests_cant": "all definitions", "anchors": ["src/lib.rs::Subcommand", "derive/src/derive_subcommand.rs::expand_for_enum"]}
{"id": "C43", "title": "Validation order: parse errors first, then innermost command outwards, flattened before containing struct", "statement": "When several things are wrong, an error in reading the arguments is reported in preference to any constraint violation; among violations, those of the innermost subcommand come first and those of flattened structs come before those of the struct containing them; on-set checks come before missing-argument checks.", "quantifier": "every accepted CLI definition, every argument list", "why_tests_cant": "all combinations of violations", "anchors": ["derive/src/derive_args.rs::ArgsParse::to_tokens", "derive/src/derive_args.rs::ValidateFinish"]}
{"id": "C44", "title": "argv[0] is skipped and does not influence the result", "statement": "An empty argument iterator is an error; otherwise the first argument is never interpreted, and replacing it changes neither a successful result nor a non-help error.", "quantifier": "every accepted CLI definition, every argument list, every argv[0]", "why_tests_cant": "all argument lists and names", "anchors": ["src/lib.rs::Parser::try_parse_from", "src/runtime.rs::StructParserFlavor"]}
{"id": "C45", "title": "Packed string tables decode to what was encoded", "statement": "Subcommand name lists, possible-value lists and description lists packed with NUL terminators are decoded to exactly the original list, for every list of names without NUL; compile-time concatenation produces exactly the concatenated text.", "quantifier": "every list of names", "why_tests_cant": "all lists", "anchors": ["src/util.rs::split_terminator", "src/util.rs::const_concat_impl", "src/util.rs::const_concat_len"]}
{"id": "C46", "title": "Help lists every visible argument and no hidden one", "statement": "The rendered help contains an entry with the description, doc and default for every non-hidden argument of the command including flattened ones, in declaration order (named / positional separately), none for hidden ones, the usage line shows every required non-hidden argument, and `[OPTIONS]` appears iff there is an optional visible named argument.", "quantifier": "every accepted CLI definition", "why_tests_cant": "all definitions", "anchors": ["src/help.rs::render_help_into", "derive/src/derive_args.rs::HelpDisplay", "src/refl.rs::RawArgsInfo::new"]}
{"id": "C47", "title": "Parsing is compositional over argument prefixes", "statement": "If a prefix of the arguments is read completely (no option is left waiting for its value), reading the whole list equals reading the rest from the state after the prefix; in particular the meaning of a later argument depends on the earlier ones only through that state, and no argument is looked at more than one position ahead.", "quantifier": "every accepted CLI definition, every split of every argument list", "why_tests_cant": "all splits", "anchors": ["src/runtime.rs::run_parser"]}
{"id": "C48", "title": "Doc comments are collapsed to one line per paragraph", "statement": "The text shown for a doc comment has no leading or trailing ASCII whitespace, consecutive non-blank lines are joined by one space, and runs of blank lines become a single line break, so the first line is the first paragraph.", "quantifier": "every list of doc-comment lines", "why_tests_cant": "all line lists", "anchors": ["derive/src/common.rs::Doc"]}
{"id": "C49", "title": "The derive macro keeps every declared argument exactly once", "statement": "For every struct the macro accepts, the generated parser has exactly one argument for every declared non-flatten, non-subcommand field and no others, with the declared identifier, kind and value parser; flattened structs and the subcommand enum are kept in declaration order.", "quantifier": "every accepted struct with any number of fields in any order", "why_tests_cant": "structs have unboundedly many shapes; the macro reorders fields into three index ranges", "anchors": ["derive/src/derive_args.rs::try_expand_for_named_struct", "derive/src/derive_args.rs::expand_args_parse"]}
{"id": "C50", "title": "Error texts are total and quote what is wrong", "statement": "Formatting an error that parsing reports never panics; the text contains the offending argument or value exactly when the kind of error is about one, the description of the option it is about, the message of the underlying error and the possible values of a value enum; the text of a help request is exactly the help text.", "quantifier": "every accepted CLI definition, every rejected argument list, every implementation of the caller-supplied formatters", "why_tests_cant": "the formatter unwraps optional parts of the error, so totality depends on which parts every one of the unboundedly many error paths fills in", "anchors": ["src/error.rs::Display for Error", "src/error.rs::Error"]}
{"id": "C51", "title": "Mistakes in field attributes are reported, and only those", "statement": "The attributes of a field are accepted exactly if every `#[arg(..)]` item is a documented attribute with a value of the documented form, no setting is made twice (within one or across several `#[arg(..)]`, including through a synonym such as use_value_delimiter/value_delimiter), and there is at most one `#[command(subcommand)]`/`#[command(flatten)]`, not combined with `#[arg(..)]`. Switches cannot be set to false; attributes that add to a list can be repeated.", "quantifier": "every list of attributes with any items, values and order", "why_tests_cant": "combinations of 25 attributes with repetitions and value forms are unbounded", "anchors": ["derive/src/common.rs::ArgMeta::parse_update", "derive/src/common.rs::FieldIdent", "derive/src/common.rs::ArgOrCommand::parse_attrs"]}
{"id": "C52", "title": "The meaning of field attributes depends neither on their grouping nor on their order", "statement": "Accepted attributes set exactly what is written: each setting has the value given, switches are on iff given, lists hold all given elements. Splitting or joining `#[arg(..)]` attributes changes nothing; reordering items changes only the order inside lists. `help`, `long_help` and `value_enum` have no effect on the generated code.", "quantifier": "every accepted list of attributes, every regrouping and permutation of it", "why_tests_cant": "permutations and groupings are unbounded", "anchors": ["derive/src/common.rs::ArgMeta::parse_update", "derive/src/common.rs::ArgOrCommand::parse_attrs"]}
{"id": "C53", "title": "#[command(..)] attributes", "statement": "A field with `#[command(subcommand)]` or `#[command(flatten)]` is treated so iff that is its only command attribute and it has no `#[arg(..)]`; any other form is an error. On structs and variants exactly name, version, long_about and after_long_help are accepted, each at most once and with a value of the right form, and set what is written; `#[arg(..)]` is an error there.", "quantifier": "every list of attributes", "why_tests_cant": "unbounded attribute lists", "anchors": ["derive/src/common.rs::ArgsCommandMeta", "derive/src/common.rs::CommandMeta::parse_update", "derive/src/common.rs::CommandMeta::parse_attrs_opt"]}
{"id": "C54", "title": "Which structs the derive accepts", "statement": "A struct is accepted exactly if: at most 254 fields with distinct identifiers; every argument obeys the documented rules for its type and attributes (parsable type, legal names, compatible defaults, delimiters, hyphen options, require_equals, ignore_case, last); all option names are distinct; at most one subcommand, one variable-length positional and one `last` positional; no single positional after a variable-length one; references name arguments of the struct; flattened structs contain only options and no subcommand, and are not combined with an exclusive argument. Acceptance does not depend on the order of fields other than positional ones, and is kept when fields nobody refers to are removed.", "quantifier": "every list of field declarations, with flattened types any accepted definitions", "why_tests_cant": "structs have unboundedly many fields and the checks interact through mutable loop state", "anchors": ["derive/src/derive_args.rs::expand_args_parse", "derive/src/derive_args.rs::encode_long_name", "derive/src/derive_args.rs::encode_short_name"]}
{"id": "C55", "title": "derive(Args) and derive(Parser), from the source", "statement": "A struct compiles exactly if it has named fields and no generics, its own attributes and those of its fields are documented ones used correctly, fields with `command(flatten)` have a type implementing Args and fields with `command(subcommand)` a type (or Option of one) implementing Subcommand, and the resulting declarations obey the rules of C54. What it compiles to depends on the struct's attributes only through documentation and settings, and is one of the definitions all run-time properties are about.", "quantifier": "every macro input, every environment of types made by the macros", "why_tests_cant": "inputs are unbounded and the conditions interact; the ui tests check a dozen rejected inputs", "anchors": ["derive/src/derive_args.rs::expand", "derive/src/derive_args.rs::try_expand_for_named_struct", "derive/src/derive_args.rs::expand_args_parse", "derive/src/derive_parser.rs::expand"]}
{"id": "C56", "title": "derive(Subcommand), from the source", "statement": "An enum without generics compiles exactly if every variant has correct attributes and is a unit variant, a newtype of a type implementing Args without own documentation or `#[command(..)]`, or has named fields that would be legal in a struct. The subcommands are called after the variants in kebab-case, in source order, and the result is one of the definitions all run-time properties are about.", "quantifier": "every macro input, every environment of types made by the macros", "why_tests_cant": "unbounded inputs", "anchors": ["derive/src/derive_subcommand.rs::expand", "derive/src/derive_subcommand.rs::expand_for_enum"]}
{"id": "C57", "title": "derive(ValueEnum), from the source", "statement": "An enum compiles exactly if all variants are units, `#[value(rename_all = ..)]` on the enum and `#[value(name = ..)]` on variants are the only value attributes, each at most once, with a string and for rename_all one of the eight documented styles, and the resulting names are distinct and free of control characters. At run time exactly these names are accepted, each for its own variant; the default style is kebab-case.", "quantifier": "every enum and every input value", "why_tests_cant": "unbounded enums and values; tests cover a few styles on one enum", "anchors": ["derive/src/derive_value_enum.rs::expand_for_enum", "derive/src/common.rs::ValueEnumMeta::parse_attrs", "derive/src/common.rs::ValueVariantMeta::parse_attrs", "derive/src/common.rs::Rename"]}
{"id": "C58", "title": "Argument kinds follow the spelling of the type", "statement": "A field is a flag, optional, repeated, doubly optional or optionally repeated exactly if its type is literally written `bool`, `Option<T>`, `Vec<T>`, `Option<Option<T>>` or `Option<Vec<T>>` with single-segment paths; every other spelling (qualified paths, aliases) is a plain value type. The kind and value type chosen agree with the actual type of the field.", "quantifier": "every type expression", "why_tests_cant": "types are unbounded trees", "anchors": ["derive/src/common.rs::strip_ty_ctor", "derive/src/derive_args.rs::MagicKind::classify"]}
{"id": "C59", "title": "The macros report errors instead of panicking", "statement": "For every input the derive macros either generate code or report at least one error; they do not panic, and the assertions inside them hold.", "quantifier": "every macro input", "why_tests_cant": "unbounded inputs; no ui test covers the panicking one", "anchors": ["derive/src/derive_subcommand.rs::expand_for_enum", "derive/src/derive_args.rs::expand_args_parse", "derive/src/error.rs::catch_errors"]}
{"id": "C60", "title": "Arguments are named after their fields", "statement": "For an accepted struct, `arg(long)` without a value declares the field's name in kebab-case and `arg(short)` without a value its first character, where the name of a raw identifier r#x is x.", "quantifier": "every accepted struct and every field of it", "why_tests_cant": "unbounded structs and identifiers", "anchors": ["derive/src/derive_args.rs::expand_args_parse"]}
{"id": "C61", "title": "Parser::parse returns the value or exits with status 1", "statement": "Parser::parse returns exactly the value that try_parse_from gives for the process arguments. If there is none, it writes the text of the error followed by a line break to stderr and exits with status 1; this includes help requests, where the text is the help page. It never writes an empty message, and panics only if an invalid default string is used.", "quantifier": "every accepted CLI definition and every list of process arguments, including the empty one", "why_tests_cant": "argument lists are unbounded; the process exit makes it untestable in process", "anchors": ["src/lib.rs::Parser::parse", "src/error.rs::fmt"]}
{"id": "C62", "title": "Every combination of values can be written down", "statement": "For any sequence of options (by any of their names) with any values, byte strings included, writing each as `--name=value`, `-n=value`, `--flag` or `-f`, followed by `--` and any positional values, is read back as exactly this sequence: it is accepted iff the values are valid and the constraints hold, and the result has exactly these values. Every option of the innermost command can be written this way.", "quantifier": "every accepted CLI definition, every command reached, every list of option occurrences and every list of positional values", "why_tests_cant": "values are arbitrary byte strings (leading hyphens, '=', invalid UTF-8) in unbounded combinations", "anchors": ["src/runtime.rs::run_parser", "src/runtime.rs::visit_named", "src/runtime.rs::visit_positional"]}
{"id": "C63", "title": "Every command line has an equivalent normal form", "statement": "Every readable list of arguments can be re-spelled such that every occurrence of an option is an argument of its own, with its value after '=' (no bundles, no attached values, no values in the next argument). Whatever follows, the outcome is the same.", "quantifier": "every accepted CLI definition, every readable prefix, every continuation", "why_tests_cant": "combines all spellings of all options in unbounded command lines", "anchors": ["src/runtime.rs::run_parser", "src/runtime.rs::visit_named"]}
{"id": "C64", "title": "Disabling the help feature changes nothing else", "statement": "Built without the Cargo feature `help`, the library accepts exactly the same command lines with the same values and reports the same errors, except that what would have been a help request is an error about the undeclared option `-h` or `--help`. Help is never requested, and `try_into_help` always gives the error back.", "quantifier": "every CLI definition and every command line", "why_tests_cant": "relates two builds of the library on all inputs; the tests only run with the default features", "anchors": ["src/runtime.rs::visit_named", "src/error.rs::maybe_render_help"]}
{"id": "C65", "title": "The order of options does not matter", "statement": "Reordering the fields of a struct, as long as positional arguments keep their order and flattened structs keep theirs, changes neither which command lines are accepted nor the value any field gets; command lines are read as the same sequence of occurrences of the same arguments.", "quantifier": "every two accepted structs with the same fields in different orders and every command line", "why_tests_cant": "quantifies over all permutations of the fields of all structs; the derive macro sorts, numbers and cross-references fields by position", "anchors": ["derive/src/derive_args.rs::expand_args_parse", "derive/src/derive_args.rs::ArgsParse"]}
{"id": "C66", "title": "Adding optional arguments and subcommands is backward compatible", "statement": "If a later version of a CLI only adds options that can be left out and whose names are not taken by flattened structs or global options, flattened structs of such options, positional arguments that can be left out after the existing ones, and subcommands (at any depth), then every command line accepted by the old version that does not contain the name of an added subcommand is accepted by the new one, is read as the same occurrences, and gives all old arguments the same values and the added ones their defaults.", "quantifier": "every accepted struct, every later version of it at any depth of subcommands, every command line", "why_tests_cant": "relates all pairs of definitions, which are different types in Rust, on all command lines; name lookup, positional numbering, constraint indexes and required-masks all shift when fields are added", "anchors": ["derive/src/derive_args.rs::expand_args_parse", "src/runtime.rs::run_parser", "src/runtime.rs::visit_named"]}
{"id": "C67", "title": "Further arguments repair only what is missing", "statement": "Arguments are read from left to right. An error that is not about a missing value, a missing argument or subcommand, or a constraint is reported whatever arguments follow. After an error about a missing value the next argument alone decides: it becomes the value of the option named in the error, or the error stays. Arguments that conflict, or are exclusive and not alone, are never accepted by adding arguments. Hence every beginning of an accepted command line is accepted or lacks something.", "quantifier": "every accepted CLI definition, every failing argument list, every continuation", "why_tests_cant": "all continuations of all failing command lines", "anchors": ["src/runtime.rs::run_parser", "src/runtime.rs::visit_named", "derive/src/derive_args.rs::ValidateFinish"]}
{"id": "C68", "title": "Added arguments have no effect where they are not used", "statement": "If a command line is accepted by a later version of a struct (with options, positional arguments, flattened structs or subcommands added as in C66), mentions no added subcommand and has no occurrence of an added argument, then the earlier version reads it in the same way and accepts it with the same values; the only exception is that the earlier version may want a subcommand where the later one does not, and then this is the error it reports.", "quantifier": "every pair of accepted CLI definitions related by additions, every argument list", "why_tests_cant": "all possible additions to all definitions and all command lines that do not use them", "anchors": ["src/runtime.rs::run_parser", "src/runtime.rs::visit_named", "derive/src/derive_args.rs::ValidateFinish"]}
{"id": "C69", "title": "The emitted code does what the generated functions are specified to do", "statement": "The statements emitted by the macros (local variables, the nested calls of the parser, the number of arguments, the labeled blocks of constraints, defaults, the final assertion, the extraction of fields), executed as Rust code, return for every argument list exactly what the model of the generated functions returns: they never use a variable that is not in scope or has another type, never leave a block they are not in, never overflow or unwrap a missing value, and never reach `unreachable_nounwind`. This needs that no field has the name of a variable used by emitted code.", "quantifier": "every accepted CLI definition without such names, every argument list", "why_tests_cant": "all programs the macros can emit, with any number of fields, flattened structs, constraints and subcommands, on all inputs", "anchors": ["derive/src/derive_args.rs::ArgsParse", "derive/src/derive_args.rs::ValidateFinish", "derive/src/derive_subcommand.rs::SubcommandImpl"]}
{"id": "C70", "title": "The emitted code is well-typed and builds the declared struct", "statement": "For every struct accepted by the macros in which no field has a name used by emitted code, the emitted parsing function has no unbound or shadowed variable, no type error, no `break` outside of its block, no index that does not fit in a `u8` and no variable borrowed twice; the struct it builds has exactly the declared fields, each given once and with the declared type.", "quantifier": "every accepted list of fields, flattened structs and subcommands", "why_tests_cant": "each struct is another program; tests compile a few of them", "anchors": ["derive/src/derive_args.rs::ArgsParse", "derive/src/derive_args.rs::ValidateFinish", "derive/src/derive_args.rs::FieldInfo"]}
{"id": "C71", "title": "Help templates are well-formed and print user text verbatim", "statement": "The `format_args!` calls emitted for help texts always compile (every brace belongs to a placeholder, and there are as many placeholders as arguments), and print what the help is specified to contain; labels, doc comments and displayed defaults of visible arguments appear verbatim, whatever characters they contain.", "quantifier": "every struct and unit variant, with any number of fields, flattened structs and any texts", "why_tests_cant": "all texts in all positions; a brace that reaches a template only shows up as a compile error or garbled help of that particular program", "anchors": ["derive/src/derive_args.rs::HelpDisplay", "derive/src/derive_args.rs::FormatArgsBuilder", "derive/src/derive_args.rs::maybe_push_help_for"]}
{"id": "C72", "title": "Subcommands are programs of their own", "statement": "After the name of a subcommand, the remaining arguments are treated as by the program made of that subcommand alone: if that program accepts them, the selected subcommand has exactly its value; any arguments it accepts can be exchanged without affecting the acceptance or the values of the arguments before; if it fails and the values before are acceptable, the whole program fails with the same error or panic, except that options it does not know may be global options of the commands around. Without global options all failures agree, help texts up to the command line they show, and the whole program accepts only what that program accepts.", "quantifier": "every accepted CLI definition, every reading of arguments up to any level of subcommands, every selected subcommand, every remaining argument list", "why_tests_cant": "all nestings of commands and all argument lists; state leaking from outer commands (positional counters, values, constraints) would only show for particular combinations", "anchors": ["src/runtime.rs::run_parser", "src/runtime.rs::visit_named", "derive/src/derive_subcommand.rs::SubcommandImpl"]}
{"id": "C73", "title": "Giving a default value explicitly changes nothing", "statement": "An option with a default that is given, once, the value it has by default can be left out: the outcome is the same value, the same error or the same help text, provided that no argument of the same struct is exclusive and the option takes part in no requires/conflicts_with. In particular this holds for the text s of default_value = \"s\". (False if ignore_case is combined with a default_value with upper-case letters: the default is not converted.)", "quantifier": "every accepted CLI definition, every option with a default, all arguments before and after, whether or not they can be read", "why_tests_cant": "relates two runs for all command lines and definitions; a default that is parsed by another route than a given value (as it is with ignore_case) would only show for particular values", "anchors": ["src/runtime.rs::set_default_parse", "src/runtime.rs::visit_named", "derive/src/derive_args.rs::DefaultValue"]}
{"id": "C74", "title": "Relaxing the attributes of an argument breaks nobody", "statement": "If attributes of arguments of a struct, of its flattened structs or of its subcommands are relaxed (required dropped, require_equals dropped, hyphens or negative numbers allowed, exclusive dropped, fewer requires or conflicts_with) or anything that is only shown is changed (docs, value_name, hide, ...), then every command line accepted before is accepted afterwards, with the same result. In particular attributes that are only shown never change what is accepted.", "quantifier": "every two accepted CLI definitions related in this way, all command lines", "why_tests_cant": "relates two programs on all command lines; an attribute that changes what a name resolves to, how the next argument is taken or in which order occurrences are counted would only show for particular combinations", "anchors": ["src/shared.rs::ArgAttrs", "src/runtime.rs::visit_named", "derive/src/derive_args.rs::ValidateFinish", "derive/src/common.rs::ArgMeta"]}
{"id": "C75", "title": "The usage line can be followed", "statement": "The usage line of a command's help is what to type: with valid values in place of the <NAME> parts, the arguments typed as shown (options by the name shown, separate values or `=` as shown, positional arguments in order, `--` and the last list) are read as exactly those arguments and, unless other constraints forbid it, accepted with these values. The line shown is literally this command line with placeholders.", "quantifier": "every accepted CLI definition, every command in it, all values for the arguments shown", "why_tests_cant": "connects two separate outputs of the macros (a text and a parser) for every definition; which name is shown, how the value is attached, the order of positional arguments and lists must all agree with what the parser does", "anchors": ["derive/src/derive_args.rs::maybe_push_usage_for", "derive/src/derive_args.rs::ValidateFinish", "src/help.rs::render_help_into", "src/runtime.rs::visit_positional"]}
{"id": "C76", "title": "Values only influence their own argument", "statement": "If values on the command line are replaced by other acceptable values of the same arguments, then the outcome is of the same kind: either the same error (so no error message reveals an acceptable value, and none depends on it), or a success with the same commands entered and the same values of all other arguments. An unacceptable value is reported as an error about its own argument, whatever follows.", "quantifier": "every accepted CLI definition, every command line, every place on it where a value is replaced, all values", "why_tests_cant": "relates pairs of runs on all command lines (non-interference); a leak of one argument into another, into an error text or into option recognition would only be seen with the right pair", "anchors": ["src/lib.rs::try_parse_from", "src/runtime.rs::visit_named", "src/runtime.rs::visit_positional", "derive/src/derive_args.rs::ValidateFinish"]}
{"id": "C77", "title": "Help entries can be followed", "statement": "Each entry `-c, --config <VALUE>` in the help of a command can be typed as shown, by either name, with any value in place of `<VALUE>`, and is read as an occurrence of exactly that option with exactly that value; each listed subcommand is entered by its name. Conversely, each name understood in a command is shown in its help, except for hidden options, aliases and global options of enclosing commands.", "quantifier": "every accepted CLI definition, every command of it, every entry of its help text, all values, all arguments before and after", "why_tests_cant": "relates two generated artefacts (the help text and the recognised names) over all definitions; tests compare help snapshots and parse results of single definitions", "anchors": ["derive/src/derive_args.rs::expand_args_parse", "derive/src/derive_args.rs::HelpDisplay", "src/runtime.rs::visit_named", "src/help.rs::render_help_into"]}
{"id": "C78", "title": "What is shown does not influence what is done", "statement": "Changing documentation, help texts, value names, hiding of arguments or docs of commands never changes which command lines are accepted nor their results. A rejected command line is rejected at the same place for the same reason: the same kind, quoted input and value error, with the same argument, shown by its new label; a help request shows the new help of the same command. If value names are unchanged then nothing but help texts changes.", "quantifier": "every pair of accepted CLI definitions differing only in what is shown (at any depth of flattened structs and subcommands), all command lines", "why_tests_cant": "a relation between two programs for all command lines; tests check single definitions, and never the same command lines against two of them", "anchors": ["src/runtime.rs::visit_named", "derive/src/derive_args.rs::ValidateFinish", "derive/src/derive_args.rs::HelpDisplay", "src/runtime.rs::run_parser"]}
{"id": "C79", "title": "The order of subcommands and of nested declarations does not matter", "statement": "If the fields of a struct, its subcommands, and the fields and subcommands of the structs of these, and so on, are declared in another order (positional arguments and flattened structs each keeping theirs, names of subcommands being unique), then every command line is read in the same way, the same command lines are accepted, and every argument of every entered command gets the same value.", "quantifier": "every pair of accepted CLI definitions that are rearrangements of each other at any depth, all command lines", "why_tests_cant": "a relation between two programs for all command lines and all permutations at all depths; subcommand tables are sorted and searched by bisection, so tests of one order say nothing about another", "anchors": ["derive/src/derive_subcommand.rs::expand_for_enum", "src/runtime.rs::run_parser", "derive/src/derive_args.rs::expand_args_parse"]}
{"id": "C80", "title": "What is printed has no control characters from the command line", "statement": "Nothing on the command line can make the program print control characters such as terminal escape sequences: the text of an error is one line without control characters (as long as the errors of the user's value parsers have none), followed for a ValueEnum value by one line with the possible values; help texts likewise only contain line breaks besides what the author wrote.", "quantifier": "every accepted CLI definition whose enums are accepted by derive(ValueEnum), all argument lists (any bytes), all kinds of errors", "why_tests_cant": "all byte strings in all positions of all command lines; each error path formats its parts separately", "anchors": ["src/error.rs::Display", "derive/src/derive_args.rs::encode_long_name", "derive/src/derive_value_enum.rs::expand_for_enum", "src/values.rs::PossibleValues"]}
{"id": "C81", "title": "Errors do not depend on the order of declarations", "statement": "For definitions that are rearrangements of each other as in C79: where the one rejects a command line, the other does, after reading the same arguments and entering the same commands. An error about an argument on the command line (unknown, missing value, invalid value, duplicated, surplus) is exactly the same in both; a help request is one in both, for the same command; if all arguments can be read, both complain about a violated constraint (possibly about another one, if there are several).", "quantifier": "every pair of accepted CLI definitions that are rearrangements of each other at any depth, all command lines", "why_tests_cant": "a relation between the errors of two programs for all command lines and all permutations; the generated tables use indices that all differ", "anchors": ["derive/src/derive_args.rs::expand_args_parse", "src/runtime.rs::run_parser", "derive/src/derive_subcommand.rs::expand_for_enum", "src/error.rs"]}
{"id": "C82", "title": "A program behaves as its source says", "statement": "The items of a crate with derive macros, expanded one by one after those they mention, get the meaning each item has with all items in scope; any other such order gives the same result. The crate compiles exactly if every item is legal given those before it. The emitted code of the main type (with no field named as a variable of emitted code) accepts exactly the command lines, with exactly the values and errors, that the fields as written describe, and does not panic if all default strings are values.", "quantifier": "all lists of structs and enums with any attributes and field types, all environments of value types, all command lines", "why_tests_cant": "quantifies over all programs: source text, macro expansion, the emitted code and all command lines together", "anchors": ["derive/src/lib.rs", "derive/src/derive_parser.rs", "derive/src/derive_args.rs::expand", "derive/src/derive_subcommand.rs::expand", "derive/src/derive_value_enum.rs::expand", "src/lib.rs::try_parse_from"]}
{"id": "C83", "title": "All names of an argument mean the same", "statement": "Wherever options are recognised, any two names of an argument (long, alias, short, short_alias) can be exchanged without a difference: the same value or the same error, with an attached value, a value after `=`, the value as the next argument, no value, and after bundled flags. The only exception is `-c=v` for Option<Option<T>> (C32).", "quantifier": "every definition, every argument and pair of its names, every command line before and after, every attached or following value", "why_tests_cant": "unbounded definitions, prefixes, values and continuations", "anchors": ["src/runtime.rs::visit_named", "src/runtime.rs::search_named", "derive/src/derive_args.rs::encode_long_name", "derive/src/derive_args.rs::encode_short_name"]}
{"id": "C84", "title": "Subcommands do not interfere with each other", "statement": "Adding, removing or redefining subcommands, at any level, does not change what happens for command lines on which their names do not occur: the same value, the same error, or the help of the same command (with the same text if that command has no subcommands).", "quantifier": "every pair of definitions differing in such subcommands, every command line", "why_tests_cant": "relates all pairs of programs on all command lines", "anchors": ["src/runtime.rs::run_parser", "src/refl.rs::search", "derive/src/derive_subcommand.rs::expand_for_enum"]}
{"id": "C85", "title": "Help shows the program by its file name", "statement": "The usage line of every help text begins with the name of the program: the final component of the path in argv[0] (trailing slashes and `.` components are ignored; all of argv[0] if the final component is `..` or there is none), with characters as they are and the longest incomplete beginning of a character (or else one byte) shown as U+FFFD where it is not UTF-8.", "quantifier": "every definition, every argv[0], every command line leading to help", "why_tests_cant": "all paths and byte strings", "anchors": ["src/lib.rs::try_parse_from", "src/runtime.rs::StructParserFlavor", "src/help.rs::render_help_into"]}
{"id": "C86", "title": "The default that help shows can be typed", "statement": "The help of the current command shows, in the entry of a visible option with a default, the text of default_value = \"s\", the name of the variant if the type of default_value_t derives ValueEnum (even if it also implements Display), and otherwise what Display gives. Giving this text explicitly has the same outcome as leaving the option out: for default_value (unless ignore_case meets upper-case letters, see C73) and ValueEnum always, for other types if they parse what they display. (Under the conditions of C73 on constraints.)", "quantifier": "every accepted CLI definition, every visible option with a default, all arguments before and after, every type", "why_tests_cant": "relates the help text to the outcomes of two runs for all definitions and command lines", "anchors": ["src/values.rs::InferDisplayDefaultValue", "src/values.rs::assert_impl_display_default_value", "derive/src/derive_args.rs::maybe_push_help_for"]}
{"id": "C87", "title": "Field names are not part of the command line", "statement": "Renaming the fields of the structs of a program (and variants of subcommand enums), while options, values and commands keep their names (written explicitly where they came from the field) and requires/conflicts_with refer to the new names, changes nothing visible: every command line has the same output and exit status, the help texts are the same, and the values are the same, in the same order, in the fields with the new names. The macro accepts the renamed struct if the new names differ from each other.", "quantifier": "every accepted CLI definition with flattened structs and subcommands, every renaming (a different one for each struct), every command line", "why_tests_cant": "relates two programs on all command lines, for all definitions and all renamings", "anchors": ["derive/src/derive_args.rs::expand_args_parse", "derive/src/derive_args.rs::ValidateFinish", "derive/src/derive_args.rs::RawArgsInfo", "src/runtime.rs::run_parser"]}
{"id": "C88", "title": "Container attributes of flattened structs are ignored", "statement": "If a struct is used by `#[command(flatten)]`, its own `#[command(..)]` attributes and documentation have no effect: two programs that differ only in them accept the same command lines with the same values, and otherwise show the same error texts and the same help texts, also in subcommands. The macro accepts the struct into which they are flattened independently of them.", "quantifier": "every accepted CLI definition with nested flattened structs and subcommands, every choice of container attributes of the flattened structs, every argv", "why_tests_cant": "relates two programs on all command lines, for all definitions and attributes", "anchors": ["derive/src/derive_args.rs::HelpDisplay", "derive/src/derive_args.rs::RawArgsInfo", "src/error.rs::maybe_render_help"]}
{"id": "C89", "title": "Global options can be given before or after the name of a subcommand", "statement": "A global option of an entered command may be given right before or right after the name of a subcommand, with the same outcome in all respects (the same value, or the same error), if the subcommand does not declare one of its names; likewise in the other direction, if the enclosing command has no argument of this name that is not global. Over further arguments, in which it does not occur, the accepted command lines and values are the same. If the subcommand declares the name, the two positions mean different arguments.", "quantifier": "every accepted CLI definition, every position of a subcommand name, all spellings of one or more global options, everything that precedes and follows", "why_tests_cant": "infinitely many definitions, spellings and rests of the command line", "anchors": ["src/runtime.rs::search_named", "src/runtime.rs::run_parser", "derive/src/derive_args.rs::RawArgsInfo"]}
{"id": "C90", "title": "Leaving out arguments", "statement": "If a command line is accepted, then so is one that enters the same commands and lacks some occurrences of arguments, and the arguments of which nothing was left out have the same values; unless a required argument was left out entirely, or one that another given argument requires: then the error is about this argument and says so (and if its default string is invalid, the parser panics). In particular an optional option that nothing requires can be removed wherever it is.", "quantifier": "every accepted CLI definition, every accepted command line, every choice of occurrences left out", "why_tests_cant": "relates infinitely many pairs of command lines; interactions of all constraints", "anchors": ["derive/src/derive_args.rs::ValidateFinish", "src/runtime.rs::run_parser"]}
{"id": "C91", "title": "What the standard library leaves open does not matter", "statement": "The documentation of `sort_unstable_by` and `binary_search_by_key` allows several results. With any implementation of them that keeps its promises, every command line has the same result, provided that the variants of each subcommand enum have different names. Without this condition, which the macros do not check, the meaning of a program depends on the implementation.", "quantifier": "every accepted CLI definition, every pair of functions meeting the documented contracts, every command line", "why_tests_cant": "tests run with one implementation of the standard library", "anchors": ["src/refl.rs::search", "src/refl.rs::get_named", "derive/src/derive_subcommand.rs::expand_for_enum"]}
{"id": "C92", "title": "A delimited list can be given at once or piece by piece", "statement": "For an argument with `value_delimiter`, one occurrence with several pieces joined by the delimiter and one occurrence per piece, or any other grouping of the same pieces, have the same result, whatever else is on the command line: the same value, or exactly the same error. Excepted are letters as delimiter together with `ignore_case`, for which it is false (see C39).", "quantifier": "every accepted CLI definition, every argument with a delimiter, all pieces and groupings, all arguments before and after", "why_tests_cant": "tests use single lists; the number of pieces, groupings and surrounding arguments is unbounded", "anchors": ["src/runtime.rs::VecDelimitedPlace", "src/runtime.rs::Parsable"]}
{"id": "C93", "title": "Mistakes do not hide each other", "statement": "Errors found by the derive macros are collected: whatever is reported for some of the fields of a struct alone is also reported for the whole struct, however many other mistakes it has, and likewise for the variants of a value enum, and of a subcommand enum unless the macro panics (see C59). Excepted are references to fields (which may be among the others), an exclusive argument next to a flattened struct, and structs with more than 254 fields.", "quantifier": "all structs and enums as written, all sublists of their fields and variants, all errors emitted by the macros", "why_tests_cant": "compile-fail tests have one mistake each", "anchors": ["derive/src/error.rs::catch_errors", "derive/src/error.rs::emit_error", "derive/src/derive_args.rs::expand_args_parse", "derive/src/derive_subcommand.rs::expand_for_enum", "derive/src/derive_value_enum.rs::expand_for_enum"]}
{"id": "C94", "title": "Only the first of the value traits counts", "statement": "A type that implements several of ValueEnum, TryFrom<&OsStr> and FromStr is parsed by the first of these: adding, changing or removing impls of the later ones changes neither the errors of the macros nor the result of any program on any command line.", "quantifier": "all environments of types that agree in the first impl of each type, all items with derive macros, all programs and command lines", "why_tests_cant": "the selection relies on method lookup through references and is tested for five types with one impl each", "anchors": ["src/values.rs::InferValueParser", "src/values.rs::assert_auto_infer_value_parser_ok", "src/values.rs::FallbackValueParser", "derive/src/derive_args.rs::initializer"]}
{"id": "C95", "title": "Giving arguments more names breaks nobody", "statement": "If arguments are given additional names (aliases, a long name besides a short one and vice versa, or another name with the old one kept as an alias) which no argument of the program had before, every command line that was accepted is accepted with the same result.", "quantifier": "all programs, all changes of names and relaxations of other attributes of any number of arguments, also in flattened structs and subcommands, all command lines", "why_tests_cant": "the tests parse with fixed definitions; this compares two programs on all command lines, including clusters of short options and global options of enclosing commands", "anchors": ["derive/src/derive_args.rs::expand_args_parse", "derive/src/common.rs::ArgMeta", "derive/src/derive_args.rs::RawArgsInfo", "src/runtime.rs::visit_named", "src/runtime.rs::run_parser"]}
{"id": "C96", "title": "Making options global breaks nobody", "statement": "If options which have no name in common with the global ones are made global, every command line that was accepted is accepted with the same result, also where subcommands have options of their own with the same names.", "quantifier": "all programs, all sets of options made global, also in flattened structs and subcommands, all command lines", "why_tests_cant": "the tests parse with fixed definitions; this compares two programs on all command lines, with any nesting of subcommands", "anchors": ["derive/src/derive_args.rs::RawArgsInfo", "src/runtime.rs::visit_named", "src/runtime.rs::CommandFrame", "src/runtime.rs::ArgsFrame"]}
{"id": "C97", "title": "Defaults matter only for arguments that are not given", "statement": "If all arguments whose defaults differ between two otherwise equal programs are given on the command line, both accept it with the same result or both reject it. In particular, giving a default to arguments that had to be given changes nothing that was accepted.", "quantifier": "all programs, all changes of defaults (default_value, default_value_t, none) of any number of arguments, also in flattened structs and subcommands, all command lines", "why_tests_cant": "the tests parse with fixed definitions and few defaults; this compares two programs on all command lines", "anchors": ["derive/src/derive_args.rs::ValidateFinish", "derive/src/derive_args.rs::FieldInfo", "derive/src/derive_args.rs::expand_args_parse"]}
{"id": "C98", "title": "Types of values that accept more break no command line", "statement": "If the types of arguments are changed to accept more values, without changing the meaning of those accepted before and their Default, every command line that was accepted is still accepted with the same result. Adding variants to a value enum, at any place, is such a change.", "quantifier": "all programs, all such changes of the types of any number of arguments, also in flattened structs and subcommands, all command lines", "why_tests_cant": "the tests parse with fixed types and few values; this compares two programs on all command lines", "anchors": ["derive/src/derive_args.rs::FieldInfo", "derive/src/derive_value_enum.rs::expand", "src/values.rs::ValueEnum"]}
