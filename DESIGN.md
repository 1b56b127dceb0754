# Design of the Lean model of palc

Source under study: `/repo` (oxalica/palc, pinned commit), feature `help` enabled (the default
feature set) unless stated otherwise; `NoHelp` is the build without it.  All line references are to files in `/repo`.

## 1. What is modelled

| module (`lean/Verif/…`) | models |
| --- | --- |
| `Bytes` | `OsStr` as byte lists, UTF-8 encoding/validation (std `Utf8Chunks`, `str::from_utf8`), `split_once`, `strip_prefix`, `OsStr::split(char)`, `Path::file_name` (Unix), `make_ascii_lowercase`, `slice::binary_search_by`, `to_string_lossy` |
| `ArgAttrs` | `src/shared.rs` (bit-packed `u32`) |
| `Error` | `src/error.rs` |
| `Util` | `src/util.rs` |
| `Values` | `src/values.rs`, `derive/src/derive_value_enum.rs` |
| `Places` | `src/runtime.rs` 301-463 (`Parsable` and its five implementations) |
| `Refl` | `src/refl.rs` |
| `Runtime` | `src/runtime.rs` 198-299 (frames) and 465-686 (`run_parser`, `visit_positional`, `visit_named`), `src/help.rs` |
| `Codegen` | what the code generated by `derive/src/derive_args.rs` 642-860 and `derive/src/derive_subcommand.rs` 130-192 does at run time, `src/lib.rs` `try_parse_from`, `render_long_help`, `parse` |
| `Emit` | the code emitted by `ArgsParse::to_tokens`, `ValidateFinish::to_tokens` (`derive_args.rs` 642-860) and `derive_subcommand.rs` 130-192 as syntax of a small subset of Rust, and the meaning of that subset |
| `EmitTypes` | a type checker for that subset (scopes, types, labels, exclusive borrows) |
| `EmitHelp` | the `format_args!` calls emitted by `HelpDisplay::to_tokens` and `FormatArgsBuilder` (`derive_args.rs` 912-1113), and the meaning of templates |
| `AnyStd` | the library on top of any implementation of `sort_unstable_by` and `binary_search_by_key` (`derive_subcommand.rs` 123-124, `src/refl.rs` 53-57, 190-194) and all callers |
| `NoHelp` | the parts that differ without the feature `help`: `src/error.rs` 206-209, `src/runtime.rs` 602-622, and their callers |
| `Derive` | compile-time checks and tables of `derive_args.rs` 257-640, 862-1104, `derive_subcommand.rs` 64-128, `derive_value_enum.rs` 36-73, `common.rs` `Doc` |
| `Source` | the front end of the macros: `common.rs` (reading `#[arg(..)]`, `#[command(..)]`, `#[value(..)]`, doc comments, `strip_ty_ctor`, `Rename`), `MagicKind::classify` on type expressions, the entry points of the four derive macros |
| `Program` | a crate: items with derive macros expanded one after the other, and the program run by the emitted code |

Conventions: a Rust panic (index out of bounds, `unwrap` on `None`, arithmetic overflow in debug
builds, `unreachable!`) is the explicit outcome `Fail.panic`; a palc `Error` is `Fail.error e`;
`&mut` parameters are returned.  The argument iterator is a list of byte strings.  All functions
are total and computable.

### Parameters of the model (not modelled)

* user value types: one type `V` of values; each field carries a parser of one of the three
  classes that palc infers (`ValueEnum` table, `TryFrom<&OsStr>` function, `FromStr` function),
  as arbitrary functions.  User parsers are assumed not to panic.
* `heck` case conversions are arbitrary functions `Str → Str`.
* `syn`: the front end starts from attributes as lists of items `path`, `path = value`, `path(..)`; whether a value
  parses as a literal of each kind, an identifier or an expression is part of the item.  Expressions are represented by
  their value (and displayed text).
* `Display` of default values: `default_value_t` needs it in `rustc`; the model accepts a superset.  The text shown for an expression is a part of the
  attribute in the model; `ShownDefault.lean` says which text it is (C86).
* rustc: trait-based parser inference, type checking of `default_value_t`, uniqueness of field
  identifiers are modelled as checks that reject the program.
* `std::fmt` debug formatting of `OsStr` (`{input:?}`) is an arbitrary function.
* Windows `OsStr`: the model is the Unix one (bytes).  `OsStrBytesExt::index` panics except at the ends and next to a valid
  non-empty UTF-8 substring, as documented (`isBoundary`); that this never happens is part of C24.  The source of `os_str_bytes` is not
  available here.  Its other functions cut next to an ASCII pattern or a `char` and need no check.
* `sort_unstable_by` on the subcommands (derive_subcommand.rs) is modelled as a stable sort, `binary_search_by_key` as the loop of one
  version of std.  `AnyStd` has both as parameters of which only the documented contract is known; the results are the same (C91) unless
  two variants have the same name.  Theorems about subcommands speak of the variant that is `Selected` (the one found by the search) and
  hold for duplicate names as well.
* `Error: Debug`, failure to write to stderr in `Parser::parse`.

## 2. Trusted base

* Lean 4.33.0 kernel; axioms at most `propext`, `Classical.choice`, `Quot.sound` (checked for every
  theorem of a property by `Verif/Audit.lean`; the build fails otherwise).  No own axioms, no `sorry`, no `native_decide`.
* The correspondence between each definition and the cited Rust lines (by reading).  As a check of the reading, `Verif/Tests` runs the
  project's own tests (`tests/parse.rs`, `help.rs`, `smoke.rs`, `value_enum.rs`, `ui/*.rs`) on the model, from the source text of the structs
  to results, messages and help texts, with `heck` and value types filled in.  All of them agree.  The example programs of `test-suite` (`simple`,
  `criterion`, `deno`) are accepted, as they are by the real macros (`Verif/Tests/Examples`, evaluated with `#guard`).  These are tests of the model and
  not proofs of anything about the code.
* The parameters above.

## 3. How the properties are proved

1. `Derive` → `WF`: every definition tree built by successful derives (`DerivedArgs`) satisfies a
   structural well-formedness predicate (indices, sorted unique name tables, attribute bits agree
   with the source attributes, positional layout, resolved references).
2. `Linear`: the continuation-passing nest of generated closures for flattened structs and
   subcommands is shown equal to a flat *machine* working over one chain of frames, followed by
   finishing all entered levels innermost first.
3. The machine satisfies a prefix law; local equivalences (C01–C03 …) are proved for every state
   and lifted to `tryParseFrom` for every prefix and suffix.
4. `Spec`: an independent grammar (inductive relation over spelled arguments) and a declarative
   acceptance condition; the crown theorem states that success of `tryParseFrom` is equivalent to
   it, with the output determined by it.  Success-side properties are corollaries.

Per property plan:

| id | plan |
| --- | --- |
| C01–C03 | machine-state equalities lifted through the prefix law, all outcomes including errors |
| C04, C11, C12 | closed form of the machine in the `--` and trailing modes, by induction on the tail |
| C05 | from the machine: the value handed to the place; corollary of the grammar |
| C06, C07 | from the crown theorem: occurrence logs |
| C08 | the outcome depends on the occurrences per argument only (`SameOccs`); exchanging complete occurrences keeps them |
| C09, C10, C28 | invariant of the positional counter; closed form of the slot of the k-th positional |
| C13 | exactness of subcommand search + step of the machine |
| C14, C15 | declarative visibility vs. frame search; output tree built from own slots |
| C16 | `SpecInline`: when two definitions declare the same arguments in different places; simulation of readings and outputs between two such definitions; a derived struct with a flattened field and the struct with the fields written in place are an instance.  Two side conditions (`exclusive` in the flattened struct, precedence of duplicate names) are needed; `C16_exclusive_differs` and `C16_precedence_differs` show why |
| C17–C23 | crown theorem and its corollaries; that defaults do not take part in constraints (`C21_inert`) from the constraint errors naming only arguments that occur |
| C24 | no-panic invariant over all reachable states, for definitions with valid string defaults; witness theorems for the panicking ones |
| C25 | binary search correctness on sorted unique tables |
| C26 | NUL-separated table decoding; error description equals the field description |
| C27 | bit-vector reasoning by generic lemmas, all indices < 256 |
| C29 | the machine returns only with the whole list read; grammar consumes everything |
| C30–C34 | decision logic of one option occurrence, for every state |
| C35, C36 | help outcome; precedence over validation; witness of the `render_long_help` panic for a user `--help` |
| C37, C38, C40 | value parsers, derive of ValueEnum |
| C39 | `split`/`join` theory on bytes |
| C41, C42 | derive acceptance implies name properties; C42 is **false** of the code (witness), partial |
| C43 | order of finishing in the machine |
| C44 | argv0 independence |
| C45 | table encode/decode |
| C46 | `SpecHelp`: the help text as a function of the command path, independent of the search through frames; `render_help` equals it |
| C47 | prefix law |
| C48 | doc joining; the "no leading whitespace" part is **false** of the code (witness), partial |
| C49 | the generated argument list is a permutation of the declared fields (derive is modelled, not assumed); `Props/Parser.lean`: the running parser recognises every requested name (C23 with the declared names), and its result has exactly the declared fields |
| C50 | `Shape`: which parts of an error are filled in, per kind; every rejection has this shape; `Display` on it; the possible values of an enum by C40 |
| C51–C53 | `SpecSource`: table of the documented attributes with the form of their values, settings without reference to order; equality with the sequential reading by an invariant over the items |
| C54 | `SpecLegal`: the rules for structs without reference to the loop over fields; equivalence by induction over the fields, with the loop invariant of C49 |
| C55–C57 | `SpecMacro`: what a field, a variant and an enum mean, as relations on the source; the macros accept exactly the sources with a meaning that is legal (C54), by induction over fields and variants |
| C58 | table of spellings; equality with the nested tests of `classify`, agreement with the elaborated type |
| C59 | panic is an outcome of the modelled macros; characterised exactly; **false** for `derive(Subcommand)` (witness), partial |
| C60 | from C52, C49 and C55; **false** for raw identifiers (witness), partial |
| C61 | `parseMain`: `Parser::parse` with the process outcome (returned value, or exit status and text on stderr) as an explicit value; from C23, C24, C50 and C46 |
| C62 | `SpecWrite`: the argument for one occurrence of an option; any list of occurrences written this way, and any positional values after `--`, is read back as exactly these |
| C63 | `SpecWrite`: readings in which every option occurrence is an argument of its own with its value after `=`; every reading is re-spelled to one of them by induction, then the outcomes agree by C23 |
| C64 | The runs of the two builds are related step by step (same result, same error, or a help request against an undeclared `-h`/`--help`), by induction over the arguments and the definition; all definitions, derived or not |
| C65 | Two accepted structs with the same fields in another order, positional arguments and flattened structs each keeping theirs: the generated tables are related by a renumbering (by identifier), an instance of the relation used for C16, so readings, acceptance and values carry over. Which of several violated constraints is reported may differ. Witness that the order of flattened structs matters if they share an option |
| C66 | `SpecEvolve`: what may be added to the declared fields and subcommands of a CLI. The tables generated for the two versions are related by an injection of positions that keeps resolution of names (`SpecExtend`); the steps of the grammar, values and constraints are carried over by induction over the command line and the definition. Witnesses that each condition on names is needed |
| C67 | From the characterisation of failures (C23): every way of failing while reading is stable under appending arguments, except an option waiting for its value at the end. Conflicts: the entered commands and occurrences only grow, and C18, C20 apply to the longer command line |
| C68 | Converse of the simulation for C66: a step of the new version whose occurrences belong to arguments of the old one is a step of the old one (names cannot have been taken away; a positional argument goes to the same field). Constraints: those of an old argument only mention old arguments |
| C69 | Refinement: `emitBody` produces the statements as the `to_tokens` functions do; executing them step by step gives what `Codegen` says, by invariants about the variables in scope.  Needs that parsers passed to `__parse` keep the shape of the frames they are given (`Lemmas/Keep`), and that no field has the name of a variable of emitted code |
| C70 | The type checker of `EmitTypes` succeeds on `emitBody` of every accepted struct, and the struct built has exactly the declared fields with the declared types.  Uses what the macros check: unique names, resolved references, kinds of defaults, at most 255 indexes.  `C70_sound`: progress and preservation for the checker, so that passing it means something: whatever values of these types the parser leaves behind, execution ends only for the reasons of `EmitFaults` (an error, an overflow, an invalid default, `unreachable_nounwind`, `unwrap` of a missing value), none of which is a mistake found by rustc |
| C71 | Refinement: a builder that prints `s`, extended by a constant without braces or by a placeholder with its argument, prints `s` and the new text; so by induction over the loops the four builders print what `helpDisplay` says |
| C72 | Simulation: entered commands `S` placed below `B` (`under`): visible names are those of `S`, shifted by `B.length`, followed by the globals of `B`; so readings, stuck arguments (with local errors, or without globals), first bad values, constraints and values of `S` carry over, and those of `B` see only the occurrences before |
| C73 | Relation of two logs of occurrences, one of which has one more occurrence that is worth as much as none (`Extra`): acceptability, first bad value, constraints (if the argument takes no part in any) and values agree; the rest of the arguments is read in the same context. **False** for upper-case `default_value` with `ignore_case` (witness), partial |
| C74 | Relation of the declarations (`Relaxed`, `SpecRelax.lean`) carried through the derive to the definitions (`LooseArgs`), then to what names resolve to, to readings, constraints and values: a reading of the one is a reading of the other with the same occurrences; through C23 |
| C75 | What is typed for a usage line is a function of the definition and of values (`usageArgs`, `SpecUsage.lean`). Steps of the grammar for it, by induction over options and positional values (layout of the positional fields); occurrences of distinct arguments; no constraint fails (through C23). The text by comparing the texts of the parts |
| C76 | Occurrences related one by one (`Revalued`, `SpecLocal.lean`): the same argument, and the same or another acceptable value. Acceptability of a list of occurrences is that of each for lists, and of the only one otherwise, so it is preserved; so are the first unacceptable occurrence, and which arguments occur, hence the constraints. The three outcomes of reading the rest are compared |
| C77 | What is to be typed is defined on the text of the entry (`Typed`, `SpecEntry.lean`): a name, and `<VALUE>`, `=<VALUE>` or `[=<VALUE>]`. The entry is in the text by C46; the name is a declared one (`own_resolves`: no other argument of the same struct has it), so the typed form is read as one occurrence (`Reads`). Conversely every name understood is in the help, an alias, hidden or global (`C77_documented`). Full claim false: findings 1 and 18 |
| C78 | `SpecStyle.lean`: two derived programs related by `Changed` with `StyledArg` (same declarations, but other docs, help, long_help, value_name, hide, value_enum, and any command docs). Every step of the reference semantics is possible in both with the same occurrences (`step_loose`), and every way of being stuck or unacceptable is one of both (`stuck_styled`, `firstBad_styled`), with errors related by `SameError`. With equal value names even the labels agree (`C78_docs`) |
| C79 | `SpecOrder.lean`: declarations permuted at every level (`Rearranged`). Such a definition is a later version of the other in the sense of C66 with nothing added, and conversely, so C66 applies in both directions. Flattened structs and positional arguments keep their order (C65_flatten_order_matters shows why), names of subcommands are unique (the code does not check it, finding 2) |
| C80 | Descriptions of fields are free of ASCII control characters (from the derive), possible values too, arguments are shown by `{:?}`; case distinction over the shapes of errors. That `{:?}` of an `OsStr` escapes control characters is an assumption about std (hypothesis of the theorems). Missing: help texts, which contain the program name unescaped (finding 19) |
| C81 | Same relation as C79. Reading is simulated in both directions (`Lemmas/Mirror.lean`), so unknown names, missing positional arguments and unusable values correspond; fields agree except for their index, so errors about them are equal. Which of several violated constraints is reported first depends on the order (`C81_not_first`), as does the text of the help |
| C82 | `Program.lean`: a list of items with derive macros, expanded one after the other in an environment of types (`compile`); a program is run by the emitted code (`runProgram`). The specification (`SpecProgram.lean`) has no order: every item means what it says with all items in scope (`CrateMeans`). Equivalence by induction over the items, as an item depends on the environment only at the names it mentions. The rest by C55–C57, C69, C23 and C24 with invariants of the environment. Not modelled: modules, visibility, types mentioning each other in a circle (rustc: infinite size) |
| C83 | Case distinction over what can follow a name: for two names that resolve to the same argument the same rules of the grammar apply, with the same occurrences or the same error; then outcomes agree (`outcome_ext`, `outcome_halts_ext`). From the declaration by `own_resolves` |
| C84 | `SpecSiblings.lean`: definitions derived from the same declarations but for the variants of the subcommand enum (`OtherSubs`). The derived tables then agree except for these variants, so visible names, positional layout, constraints and outputs are equal, and every step of the grammar for arguments that name no changed subcommand is possible in both; the outcomes follow from C23 |
| C85 | `SpecPath.lean`: the final component of a path and how bytes are shown, as relations. Both are total and determine the result of the model's `fileName` and `lossy` (induction over the path; over the decoding, by the shape of proper beginnings of encoded characters). Then the help outcomes of C35, C46 and C36 |
| C86 | `ShownDefault.lean`: which text `__palc_infer_display` finds for a value. The entry of the argument in the help page by C46; that giving the shown text changes nothing by C73, as the text of a `ValueEnum` value parses to it (C37, and C38 with `ignore_case`) |
| C87 | `SpecRename.lean`: structs with renamed fields whose argument and value names are kept and whose references follow. The generated tables are equal and the references resolve to the same indexes (`Lemmas/Alike.lean`); two runs are related step by step, only the names in the results differ (`Lemmas/AlikeRun.lean`). Names reserved in the generated code are a matter of C69 |
| C88 | `SpecTitle.lean`: definitions that differ in the container attributes of flattened structs only. By C78 the outcomes agree except for help texts; the same commands are entered (`Linked` in `Lemmas/Title.lean`), and the table of a command does not depend on the container attributes of the structs flattened into it |
| C89 | Options are read in the same way wherever their names refer to the same fields (`Lemmas/Past.lean`); by the address form of name resolution (`resolves_iff`) a global field stays the referent below commands that do not declare the name. With the name of the subcommand alone the occurrences are the same list, so the outcomes are equal; over further arguments it is C08. `C89_hidden` shows that the condition on names is needed |
| C90 | Fewer occurrences of acceptable values are acceptable (`Lemmas/Fewer.lean`). So a failure is a violated constraint of an entered command (C23, `allFail_some`); conflicts and exclusiveness hold for fewer occurrences, and the same commands are entered: only `required`, `requires` or an invalid default of something left out remain |
| C91 | A sorted permutation of a table with distinct names is unique, and so is the index of a match in it: both libraries have the same tables and find the same entries. All frames of a run have such tables (`TidyChain`, kept by every step), so the runs are equal (`Lemmas/AnyStd.lean`). Distinct names of options are checked by the macros; those of subcommands are not: `C91_collision` is a program whose meaning depends on std |
| C92 | One occurrence with the joined value and one occurrence per piece are worth the same (`Worth`: same presence, same content, all other arguments untouched), and the first bad piece gives the same error in both (`Lemmas/Regroup.lean`); then the outcome of any rest is compared case by case. Letters as delimiter with `ignore_case` are excluded (finding 5, `C92_letter_delimiter`) |
| C93 | The state of the loop over fields only grows (`FewerSeen`: errors, names seen, presence of a subcommand, a list, a last argument), so the errors of a sublist of the fields are among those of the whole (`Lemmas/Mistakes.lean`); attribute errors are per field. For `derive(ValueEnum)`: a sublist of distinct names is distinct, and equal names are neighbours after sorting. The exceptions are shown to be needed by `C93_unnoticed` |
| C94 | The lookup of the method `__palc_infer_value_parser` is modelled as rustc does it (`ValTy.lookup`: receivers with fewer and fewer references, each as it is and with one added). Types are replaced by normal forms that have only the first impl (`ValTy.norm`); all definitions that look at types commute with this (`Lemmas/Impls.lean`). `C94_first` shows that the first impl does matter |
| C95 | The lemmas for C74 (`Lemmas/Relax.lean`) hold for any change of attributes that keeps the meaning of the names in use (`Naming`): the argument that a name resolves to is the first visible one that declares it, all names declared before are `Old`, and no other argument gets an `Old` name. `C95_shadow` shows that the names must be new: the macro does not see names of flattened structs |
| C96 | As C95 (`Naming.scope`, `Naming.apart` in `Lemmas/Relax.lean`): what is visible in a subcommand only grows; if a name resolves to an argument of the command itself, that comes first anyway, and if it resolves to a global argument, arguments that became global do not declare it (`find_filter`). `C96_taken`: the condition on names is needed |
| C97 | `SpecGiven.lean`: two derived programs that differ in the defaults of arguments with certain identifiers only. By the lemmas of C74 (which do not use defaults up to the constraints) both read the same; arguments that are given satisfy `required` in both, and their values do not depend on the default (`Lemmas/Given.lean`). The relation is symmetric, which gives the equivalence. Arguments that are required are given in all that is accepted (`C97_required`) |
| C98 | `SpecWiden.lean`: two derived programs that differ in the types of values only, where the second type accepts all values of the first with the same meaning (and has the same `Default`). Which words are read as which occurrences does not depend on the parsers, so the lemmas of C74, with the relation of the parsers as a parameter, give the same reading; values and defaults that parse keep their meaning (`Lemmas/Widen.lean`). For value enums the condition follows from C57: the names of the variants are the values (`C98_variants`) |

### Statements about prefixes

Many properties are about "an argument at a place where options are recognised".  They take a prefix `pre` of the arguments that
the grammar reads completely (`Reads … pre evs κ`).  A conclusion that only says what the *grammar* reads next would stay true
if the parser were wrong, so conclusions are about `tryParseFrom`: either an equation, or one of

* `Explains stack evs out` (`SpecAfter.lean`): the result `out` of a successful parse has, for every argument of every entered
  command, the value of its occurrences in `evs`, and selects the entered commands;
* `After cx d argv0 pre evs κ`: whatever follows `pre`, results of `tryParseFrom` are explained by `evs` and a reading of the
  rest from `κ`; if the rest cannot be read it fails, with that error if the values are acceptable; if it can, it fails
  because of values or constraints only.

## 4. Findings about the code

(see the end of this file for those established by theorems; updated as the work proceeds)

1. `-f=v` on a short `Option<Option<T>>` option is always rejected (the README documents it).
2. Duplicate subcommand names are accepted (docs promise a compile error).
3. `render_long_help` panics if the CLI defines its own `--help`.
4. An invalid `default_value` string panics on first use; `default_value` on a `bool` always does.
5. `ignore_case` with an upper-case `value_delimiter` never splits.
6. A doc comment starting with a blank line keeps a leading line break, so the summary is empty.
7. The trailing padding after an undocumented subcommand is never removed (dead condition).
8. Value errors of positional arguments carry no argument description.
9. `arg(help = ..)`, `arg(long_help = ..)` and `arg(value_enum)` are accepted and ignored (`C52_ignored`); likewise
   `command(name, version)`.
10. `derive(Subcommand)` panics instead of reporting a tuple variant with several elements or a struct variant with more
    than 254 fields: `name_map.push(idx)` comes before the variant is dropped.
11. By reading only: `default_values_t = vec![..]` on a visible `Vec` argument cannot type-check with the `help` feature,
    since the display helper is instantiated with the element type; the check of `default_value_t` for positional arguments is
    dead code; `trailing_var_arg` on a single positional and a `bool` positional are accepted; a field with aliases only is
    positional.
12. Raw identifiers keep their `r#`: `#[arg(short, long)] r#type` is called `-r` and what heck makes of `r#type` (`C60_raw`).
    Likewise for variants.
13. Names in emitted code are not hygienic (`quote!` uses call-site spans): a field called `__out`, `__frame`, `__parser`, `__info`,
    `__fields` or `__total_args` is accepted by the macros but the code emitted for it does not compile (`C69_reserved_breaks`).  By
    reading only: a `default_value_t` expression is evaluated where the fields are local variables, so `fn port()` with
    `#[arg(default_value_t = port())] port` does not compile either.
14. `default_value` is not converted to lower case by `ignore_case`: with `default_value = "JSON"` the option accepts `--format=JSON`
    but the program panics if it is not given (`C73_ignore_case_default`).
15. An optional positional argument before a required one is accepted by the macros and missing from the usage line: with `first:
    Option<String>, second: String` it is `<SECOND>`, but a single argument goes to `first` (`C75_not_order`).
16. A `trailing_var_arg` list together with a `last` list is accepted and shown as `[ARGS]... -- <REST>...`, but `--` is then one of the
    `ARGS` (`C75_not_trailing`).
17. A required option with a long name and a non-ASCII short name is shown in the usage line with both, `-ß, --level <LEVEL>`, since the
    code that removes the short name tests one byte (`C75_not_short`).
18. An option of a flattened struct with a name that an earlier struct of the command also uses is accepted by the macros (no check across
    structs) and shown in the help under this name, which always means the earlier one (`C77_not_shadowed`).
19. The help text contains the file name of `argv[0]` without escaping, so control characters (terminal escape sequences) in it are
    printed; error messages use `{:?}` instead (`C80_not_help`).
20. `src/lib.rs` 144 documents `#[command(after_long_about = ..)]`, which the macro rejects; the attribute it accepts is called
    `after_long_help` (`C53_after_long_about`).
