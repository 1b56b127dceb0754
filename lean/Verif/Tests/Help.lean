import Verif.Tests.Parse
/-!
# `tests/help.rs`, and the help test of `tests/smoke.rs`
-/

namespace Palc.Tests

namespace HelpCli

/-- `Flatten`, 26-31. -/
def flatten := derive []
  [D " The main config file path." "config_file" (ty "PathBuf") [on "long"]]

/-- `ConfigCli`, 64-80. -/
def config := derive []
  [F "key" string [on "short", on "long", str "value_name" "VALUE"],
   D " Enable debug." "debug" bool [on "long"],
   D " Force to do it." "force" bool [on "short"]]
  [.doc (some (lit " Configure something.")), .doc (some []), .doc (some (lit " Some detailed explanation.")),
   .command (some [⟨lit "after_long_help", .eq none (some (lit "this command provides absolutely no warranty!"))⟩])]

/-- `Commands`, 47-62. -/
def commands := subTy [("ConfigCli", argsTy config)]
  [{ ident := lit "Run", attrs := [.doc (some (lit " Run the app."))],
     fields := .named [D " Passthru arguments." "args" (vec string) [tru "last"]] },
   { ident := lit "Test", attrs := [.doc (some (lit " Run some tests."))],
     fields := .named [D " Filter patterns." "filters" (vec string), F "feature" (vec string) [on "long"]] },
   { ident := lit "Config", fields := .tuple [ty "ConfigCli"] }]

/-- `ArgsCli`, 8-24. -/
def cli := derive
  [("Flatten", argsTy flatten), ("Commands", commands), ("Color", enumTy ["Auto", "Always", "Never"] (some "Auto"))]
  [D " Log more details." "verbose" bool [chr "short" 'v'],
   F "color" (ty "Color") [on "long", on "default_value_t"],
   C "flatten" "flatten" (ty "Flatten"),
   C "subcommand" "command" (ty "Commands")]
  [.doc (some (lit " My great app."))]

/-- `top_level`, 88-113. -/
example : help cli (a ["me", "--help"]) "My great app.

Usage: me --config-file <CONFIG_FILE> [OPTIONS] <COMMAND>

Commands:
    run     Run the app.
    test    Run some tests.
    config  Configure something.

Options:
  -v
          Log more details.

      --color <COLOR>
          [default: auto]

      --config-file <CONFIG_FILE>
          The main config file path.

" := by decide +kernel

/-- `subcommand`, 115-137. -/
example : help cli (a ["me", "config", "--help"]) "Configure something.
Some detailed explanation.

Usage: me config --key <VALUE> [OPTIONS]

Options:
  -k, --key <VALUE>

      --debug
          Enable debug.

  -f
          Force to do it.

this command provides absolutely no warranty!" := by decide +kernel

/-- `last`, 139-154. -/
example : help cli (a ["me", "run", "--help"]) "Run the app.

Usage: me run [-- [ARGS]...]

Arguments:
  [ARGS]...
          Passthru arguments.

" := by decide +kernel

/-- `multiple`, 156-174. -/
example : help cli (a ["me", "test", "--help"]) "Run some tests.

Usage: me test [OPTIONS] [FILTERS]...

Arguments:
  [FILTERS]...
          Filter patterns.

Options:
      --feature <FEATURE>

" := by decide +kernel

end HelpCli

namespace default_value

def cli := derive []
  [F "default_str" (ty "i32") [on "long", str "default_value" "invalid"],
   F "default_trait" (ty "i32") [on "long", on "default_value_t"],
   D " Preferred!" "default_expr" (ty "i32") [on "long", expr "default_value_t" (.int 42) "42"],
   F "infer" string [on "long", expr "default_value_t" (text "foo") "foo"],
   F "positional" (opt string) [str "default_value" "static"]]

/-- `default_value`, 176-218. -/
example : help cli (a ["me", "--help"]) "Usage: me [OPTIONS]

Arguments:
  [POSITIONAL]
          [default: static]

Options:
      --default-str <DEFAULT_STR>
          [default: invalid]

      --default-trait <DEFAULT_TRAIT>
          [default: 0]

      --default-expr <DEFAULT_EXPR>
          Preferred!
          [default: 42]

      --infer <INFER>
          [default: foo]

" := by decide +kernel

/-- Not a test of the project: the help text is compared, not ignored. -/
example : help cli (a ["me", "--help"]) "Usage: me [OPTIONS]" = false := by decide +kernel

end default_value

namespace smoke

/-- `str::contains`. -/
def contains (t : Str) : Str → Bool
  | [] => t.isEmpty
  | c :: s => t.isPrefixOf (c :: s) || contains t s

/-- `MyCli::render_long_help("me")` contains the text. -/
def helpContains (t : String) : Bool :=
  match cli with
  | .ok d =>
    match renderLongHelp d (lit "me") with
    | .ok s => contains (lit t) s
    | .error _ => false
  | _ => false

/-- `help`, `smoke.rs` 82-91. -/
example : helpContains "My great App." ∧ helpContains "Usage: me --color=<COLOR> [OPTIONS]" := by decide +kernel

end smoke

end Palc.Tests
