import Verif.Tests.Parse
/-!
# The example programs of the project

`test-suite/src/bin/common/{simple,criterion,deno}.rs`, from the source text.  They compile with palc (they are its benchmarks), so the model
of the macros has to accept them; the command lines are those in the comments and help texts, as far as they fit the trimmed programs.
The checks are evaluated and not proved (the programs are large).
-/

namespace Palc.Tests

def app (c : String) (t : TyExpr) : TyExpr := .path false false [(lit c, .angle [.ty t])]

/-- A field with several lines of doc comments. -/
def docs (ls : List String) (f : SrcField Val) : SrcField Val :=
  { f with attrs := ls.map (fun l => .doc (some (lit l))) ++ f.attrs }

/-- Further types of the standard library.  The value of an `f64` is its text. -/
def env' (user : List (String × TyInfo Val)) (t : TyExpr) : TyInfo Val :=
  match t with
  | .path false false [(i, .none)] =>
    if i = lit "usize" ∨ i = lit "u64" then { val := { fromStr := some (intOf 0 18446744073709551615), default := some (.int 0, lit "0") } }
    else if i = lit "f64" then { val := { fromStr := some (fun s => .ok (.str s)) } }
    else env user t
  | .path false false [(i, .angle _)] =>
    if i = lit "NonZero" then { val := { fromStr := some (intOf 1 18446744073709551615) } } else env user t
  | _ => env user t

def derive' (user : List (String × TyInfo Val)) (fields : List (SrcField Val)) (attrs : List (Attr Str) := []) : Expansion (ArgsDef Val) :=
  expandArgs cx (env' user) { attrs := attrs, data := .structNamed fields }

/-- `name = "s"` in `#[command(..)]`. -/
def text' (p v : String) : Item Str := ⟨lit p, .eq (some (.str (lit v))) (some (lit v))⟩

/-- The command line is accepted, with these fields among the result. -/
def has (d : Expansion (ArgsDef Val)) (args : List String) (expect : List (String × O)) : Bool :=
  match d with
  | .ok d =>
    match tryParseFrom d (a args) with
    | .ok (.struct fs) => sameFields (expect.map (fun x => (lit x.1, x.2))) fs
    | _ => false
  | _ => false

namespace simple

/-- `Cli`, 8. -/
def cli := derive' []
  [D " Print more text." "verbose" bool [on "long", on "short"],
   D " The file to process." "file" (ty "PathBuf")]
  [.doc (some (lit " My great app."))]

#guard ok cli (a ["simple", "-v", "x"]) (st [("verbose", b true), ("file", one (.path (blit "x")))])
#guard err cli (a ["simple"]) "the argument '<FILE>' is required but not provided"
#guard help cli (a ["simple", "--help"]) "My great app.

Usage: simple [OPTIONS] <FILE>

Arguments:
  <FILE>
          The file to process.

Options:
  -v, --verbose
          Print more text.

"

end simple

namespace criterion

/-- `Color`, 129. -/
def color := enumTy ["Auto", "Always", "Never"] (some "Auto")

/-- `Format`, 137. -/
def format := enumTy ["Pretty", "Terse"] (some "Pretty")

/-- `PlottingBackend`, 144. -/
def plottingBackend := enumTy ["Gnuplot", "Plotters"]

/-- `OutputFormat`, 150. -/
def outputFormat := enumTy ["Criterion", "Test"] (some "Criterion")

/-- `Cli`, 29. -/
def cli := derive' [("Color", color), ("Format", format), ("OutputFormat", outputFormat), ("PlottingBackend", plottingBackend)]
  [D " Skip benchmarks whose names do not contain FILTER." "filter" (vec string),
   docs [" Configure coloring of output. always = always colorize output, never = never colorize", " output, auto = colorize output if output is a tty and compiled for unix."] (F "color" (ty "Color") [on "short", on "long", str "alias" "colour", on "value_enum", on "default_value_t"]),
   D " Print additional statistical information." "verbose" bool [on "short", on "long"],
   D " Print only the benchmark results." "quiet" bool [on "short", on "long", str "conflicts_with" "verbose"],
   D " Disable plut and HTML generation." "noplot" bool [on "short", on "long"],
   D " Save results under a named baseline." "save_baseline" string [on "short", on "long", str "default_value" "base"],
   D " Discard benchmark results." "discard_baseline" bool [on "long", arr "conflicts_with_all" ["save_baseline", "baseline", "baseline_lenient"]],
   docs [" Compare to a named baseline. If any benchmarks do not have the specified baseline this", " command fails."] (F "baseline" (opt string) [on "short", on "long", arr "conflicts_with_all" ["save_baseline", "baseline_lenient"]]),
   F "baseline_lenient" (opt string) [on "long", arr "conflicts_with_all" ["save_baseline", "baseline"]],
   D " List all benchmarks" "list" bool [on "long", arr "conflicts_with_all" ["test", "profile_time"]],
   D " Output formatting" "format" (ty "Format") [on "long", on "value_enum", on "default_value_t"],
   D " List or run ignored benchmarks (currently means skip all benchmarks)" "ignored" bool [on "long"],
   D " Run benchmarks that exactly match the provided filter" "exact" bool [on "long"],
   docs [" Iterate each benchmark for approximately the given number of seconds, doing no analysis and", " without storing the results. Useful for running the benchmarks in a profiler."] (F "profile_time" (opt (ty "f64")) [on "long", arr "conflicts_with_all" ["test", "list"]]),
   D " Load a previous baseline instead of sampling new data." "load_baseline" (opt string) [on "long", str "conflicts_with" "profile_time", str "requires" "baseline"],
   D " Changes the default size of the sample for this run." "sample_size" (ty "usize") [on "long", expr "default_value_t" (.int 100) "100"],
   D " Changes the default warm up time for this run." "warm_up_time" (ty "f64") [on "long", expr "default_value_t" (text "3.0") "3"],
   D " Changes the default measurement time for this run." "measurement_time" (ty "f64") [on "long", expr "default_value_t" (text "5.0") "5"],
   D " Changes the default number of resamples for this run." "nresamples" (app "NonZero" (ty "usize")) [on "long", expr "default_value_t" (.int 100000) "100000"],
   D " Changes the default noise threshold for this run." "noise_threshld" (ty "f64") [on "long", expr "default_value_t" (text "0.01") "0.01"],
   D " Changes the default confidence level for this run." "confidence_level" (ty "f64") [on "long", expr "default_value_t" (text "0.95") "0.95"],
   D " Changes the default significance level for this run." "significance_level" (ty "f64") [on "long", expr "default_value_t" (text "0.05") "0.05"],
   D " Benchmark only until the significance level has been reached" "quick" bool [on "long", str "conflicts_with" "sample_size"],
   docs [" Run the benchmarks once, to verify that they execute successfully, but do not measure or", " report the results."] (F "test" bool [on "long", tru "hide", arr "conflicts_with_all" ["list", "profile_time"]]),
   F "bench" (opt string) [on "long", tru "hide"],
   docs [" Set the plotting backend. By default, Criterion.rs will use the gnuplot backend if gnuplot", " is available, or the plotters backend if it isn't."] (F "plotting_backend" (opt (ty "PlottingBackend")) [on "long"]),
   docs [" Change the CLI output format. By default, Criterion.rs will use its own format. If output", " format is set to 'bencher', Criterion.rs will print output in a format that resembles the", " 'bencher' crate."] (F "output_format" (ty "OutputFormat") [on "long", on "value_enum", on "default_value_t"]),
   D " Ignored, but added for compatibility with libtest." "nocapture" bool [on "long", tru "hide"],
   D " Ignored, but added for compatibility with libtest." "show_output" bool [on "long", tru "hide"],
   D " Ignored, but added for compatibility with libtest." "include_ignored" bool [on "long", tru "hide"],
   F "version" bool [on "long", chr "short" 'V', tru "hide"]]
  [.command (some [text' "name" "Criterion Benchmark",
     text' "after_long_help" "
This executable is a Criterion.rs benchmark.
See https://github.com/bheisler/criterion.rs for more details.

To enable debug output, define the environment variable CRITERION_DEBUG.
Criterion.rs will output more debug information and will save the gnuplot
scripts alongside the generated plots.

To test that the benchmarks work, run `cargo test --benches`

NOTE: If you see an 'unrecognized option' error using any of the options above, see:
https://bheisler.github.io/criterion.rs/book/faq.html
"])]

#guard has cli ["bench", "--quick", "foo", "-sx"]
    [("quick", b true), ("filter", many [text "foo"]), ("save_baseline", one (text "x")), ("sample_size", one (.int 100)),
     ("color", one (.unit (lit "Auto"))), ("bench", o none)]
#guard has cli ["bench", "--colour", "never", "--load-baseline=x", "-b", "y", "-qn"]
    [("color", one (.unit (lit "Never"))), ("load_baseline", o (some (text "x"))), ("baseline", o (some (text "y"))),
     ("save_baseline", one (text "base")), ("quiet", b true), ("noplot", b true), ("verbose", b false)]
#guard err cli (a ["bench", "--quick", "--sample-size", "3"])
    "the argument '--quick' cannot be used with some other arguments"
#guard err cli (a ["bench", "--load-baseline", "x"])
    "the argument '-b, --baseline <BASELINE>' is required because some dependency arguments are provided"

end criterion

namespace deno

/-- `ENV_VARIABLES_HELP`, 9. -/
def envVariablesHelp : String := "ENVIRONMENT VARIABLES:
    DENO_DIR             Set the cache directory
    DENO_INSTALL_ROOT    Set deno install's output directory
                         (defaults to $HOME/.deno/bin)
    DENO_CERT            Load certificate authority from PEM encoded file
    NO_COLOR             Set to disable color
    HTTP_PROXY           Proxy address for HTTP requests
                         (module downloads, fetch)
    HTTPS_PROXY          Proxy address for HTTPS requests
                         (module downloads, fetch)
    NO_PROXY             Comma-separated list of hosts which do not use a proxy
                         (module downloads, fetch)"

/-- `DENO_HELP`, 22. -/
def denoHelp : String := "A secure JavaScript and TypeScript runtime

Docs: https://deno.land/manual
Modules: https://deno.land/std/ https://deno.land/x/
Bugs: https://github.com/denoland/deno/issues

To start the REPL:
  deno

To execute a script:
  deno run https://deno.land/std/examples/welcome.ts

To evaluate code in the shell:
  deno eval \"console.log(30933 + 404)\"
"

/-- `Shell`, 147. -/
def shell := enumTy ["Bash", "Fish", "Powershell", "Zsh"]

/-- `CompletionsSubcommand`, 159. -/
def completionsSubcommand := derive' [("Shell", shell)]
  [F "shell" (ty "Shell")]
  [.doc (some (lit " Generate shell completions")),
   .command (some [text' "long_about" "Output shell completion script to standard output.
  deno completions bash > /usr/local/etc/bash_completion.d/deno.bash
  source /usr/local/etc/bash_completion.d/deno.bash"])]

/-- `LintSubcommand`, 397. -/
def lintSubcommand := derive' []
  [D " List available rules" "rules" bool [on "long"],
   D " Ignore linting particular source files" "ignore" (vec (ty "PathBuf")) [on "long", tru "use_value_delimiter", tru "require_equals"],
   D " Output lint result in JSON format" "json" bool [on "long"],
   F "files" (vec (ty "PathBuf"))]
  [.doc (some (lit " Lint source files")),
   .command (some [text' "long_about" "Lint JavaScript/TypeScript source code.
  deno lint --unstable
  deno lint --unstable myfile1.ts myfile2.js

Print result as JSON:
  deno lint --unstable --json

Read from stdin:
  cat file.ts | deno lint --unstable -
  cat file.ts | deno lint --unstable --json -

List available rules:
  deno lint --unstable --rules

Ignore diagnostics on the next line by preceding it with an ignore comment and
rule name:
  // deno-lint-ignore no-explicit-any

  // deno-lint-ignore require-await no-empty

Names of rules to ignore must be specified after ignore comment.

Ignore linting a file by adding an ignore comment at the top of the file:
  // deno-lint-ignore-file
"])]

/-- `TypesSubcommand`, 525. -/
def typesSubcommand := derive' []
  []
  [.doc (some (lit " Print runtime TypeScript declarations.")),
   .command (some [text' "long_about" "Print runtime TypeScript declarations.
  deno types > lib.deno.d.ts

The declaration file could be saved and used for typing information."])]

/-- `ImportMapArg`, 597. -/
def importMapArg := derive' []
  [D " UNSTABLE: Load import map file" "import_map" (opt string) [on "long", str "alias" "importmap", str "value_name" "FILE"]]

/-- `ReloadArg`, 605. -/
def reloadArg := derive' []
  [docs [" Reload source code cache (recompile TypeScript)", "", " --reload", "   Reload everything", " --reload=https://deno.land/std", "   Reload only standard modules", " --reload=https://deno.land/std/fs/utils.ts,https://deno.land/std/fmt/colors.ts", "   Reloads specific modules"] (F "reload" (opt (vec string)) [on "long", on "short", tru "require_equals", tru "use_value_delimiter", str "value_name" "CACHE_BLOCKLIST"])]

/-- `DocSubcommand`, 181. -/
def docSubcommand := derive' [("ImportMapArg", argsTy importMapArg), ("ReloadArg", argsTy reloadArg)]
  [D " Output documentation in JSON format" "json" bool [on "long"],
   D " Output private documentation" "private" bool [on "long"],
   F "source_file" (opt string),
   D " Dot separated path to symbol" "filter" (opt string) [str "conflicts_with" "json"],
   C "flatten" "import_map" (ty "ImportMapArg"),
   C "flatten" "reload" (ty "ReloadArg")]
  [.doc (some (lit " Show documentation for a module.")),
   .doc (some []),
   .doc (some (lit " Output documentation to standard output:")),
   .doc (some (lit "     deno doc ./path/to/module.ts")),
   .doc (some []),
   .doc (some (lit " Output private documentation to standard output:")),
   .doc (some (lit "     deno doc --private ./path/to/module.ts")),
   .doc (some []),
   .doc (some (lit " Output documentation in JSON format:")),
   .doc (some (lit "     deno doc --json ./path/to/module.ts")),
   .doc (some []),
   .doc (some (lit " Target a specific symbol:")),
   .doc (some (lit "     deno doc ./path/to/module.ts MyClass.someField")),
   .doc (some []),
   .doc (some (lit " Show documentation for runtime built-ins:")),
   .doc (some (lit "     deno doc")),
   .doc (some (lit "     deno doc --builtin Deno.Listener"))]

/-- `CAFileArg`, 625. -/
def cAFileArg := derive' []
  [D " Load certificate authority from PEM encoded file" "cert" (opt string) [on "long", str "value_name" "FILE"]]

/-- `InfoSubcommand`, 279. -/
def infoSubcommand := derive' [("CAFileArg", argsTy cAFileArg), ("ImportMapArg", argsTy importMapArg)]
  [F "file" (opt string),
   D " Skip type checking modules" "no_check" bool [on "long", tru "hide"],
   D " Outputs the information in JSON format" "json" bool [on "long"],
   C "flatten" "import_map" (ty "ImportMapArg"),
   C "flatten" "ca_file" (ty "CAFileArg"),
   docs [" Reload source code cache (recompile TypeScript)", "", " --reload", "   Reload everything", " --reload=https://deno.land/std", "   Reload only standard modules", " --reload=https://deno.land/std/fs/utils.ts,https://deno.land/std/fmt/colors.ts", "   Reloads specific modules"] (F "reload" (opt (vec string)) [on "long", on "short", tru "use_value_delimiter", tru "require_equals", str "value_name" "CACHE_BLOCKLIST", str "requires" "file"])]
  [.doc (some (lit " Show info about cache or info related to source file")),
   .command (some [text' "long_about" "Information about a module or the cache directories.

Get information about a module:
  deno info https://deno.land/std/http/file_server.ts

The following information is shown:

local: Local path of the file.
type: JavaScript, TypeScript, or JSON.
compiled: Local path of compiled source code. (TypeScript only.)
map: Local path of source map. (TypeScript only.)
deps: Dependency tree of the source file.

Without any additional arguments, 'deno info' shows:

DENO_DIR: Directory containing Deno-managed files.
Remote modules cache: Subdirectory containing downloaded remote modules.
TypeScript compiler cache: Subdirectory containing TS compiler output."])]

/-- `UpgradeSubcommand`, 539. -/
def upgradeSubcommand := derive' [("CAFileArg", argsTy cAFileArg)]
  [D " The version to upgrade to" "version" (opt string) [on "long"],
   D " The path to output the updated version to" "output" (opt (ty "PathBuf")) [on "long"],
   D " Perform all checks without replacing old exe" "dry_run" bool [on "long"],
   D " Replace current exe even if not out-of-date" "force" bool [on "long", on "short"],
   D " Upgrade to canary builds" "canary" bool [on "long"],
   C "flatten" "ca_file" (ty "CAFileArg")]
  [.doc (some (lit " Upgrade deno executable to given version")),
   .command (some [text' "long_about" "Upgrade deno executable to the given version.
Defaults to latest.

The version is downloaded from
https://github.com/denoland/deno/releases
and is used to replace the current executable.

If you want to not replace the current Deno executable but instead download an
update to a different location, use the --output flag
  deno upgrade --output $HOME/my_deno"])]

/-- `CompilationArgs`, 565. -/
def compilationArgs := derive' [("CAFileArg", argsTy cAFileArg), ("ImportMapArg", argsTy importMapArg), ("ReloadArg", argsTy reloadArg)]
  [D " Do not resolve remote modules" "no_remote" bool [on "long"],
   D " Load tsconfig.json configuration file" "config" (opt string) [on "long", on "short", str "value_name" "FILE"],
   D " Skip type checking modules" "no_check" bool [on "long"],
   D " Check the specified lock file" "lock" (opt (ty "PathBuf")) [on "long", str "value_name" "FILE"],
   D " Write lock file (use with --lock)" "lock_write" bool [on "long", str "requires" "lock"],
   C "flatten" "import_map" (ty "ImportMapArg"),
   C "flatten" "reload" (ty "ReloadArg"),
   C "flatten" "ca_file" (ty "CAFileArg")]

/-- `CacheSubcommand`, 112. -/
def cacheSubcommand := derive' [("CompilationArgs", argsTy compilationArgs)]
  [F "file" (vec string) [tru "required"],
   C "flatten" "compilation" (ty "CompilationArgs")]
  [.doc (some (lit " Cache the dependencies")),
   .command (some [text' "long_about" "Cache and compile remote dependencies recursively.

Download and compile a module with all of its static dependencies and save them
in the local cache, without running any code:
  deno cache https://deno.land/std/http/file_server.ts

Future runs of this module will trigger no downloads or compilation unless
--reload is specified."])]

/-- `CompileSubcommand`, 134. -/
def compileSubcommand := derive' [("CompilationArgs", argsTy compilationArgs)]
  [F "source_file" string,
   D " Output file (defaults to $PWD/<inferred-name>)" "output" (opt (ty "PathBuf")) [on "long", on "short"],
   C "flatten" "compilation" (ty "CompilationArgs")]
  [.doc (some (lit " Compiles the given script into a self contained executable.")),
   .doc (some []),
   .doc (some (lit "   deno compile --unstable https://deno.land/std/http/file_server.ts")),
   .doc (some (lit "   deno compile --unstable --output /usr/local/bin/color_util https://deno.land/std/examples/colors.ts")),
   .doc (some (lit " The executable name is inferred by default:")),
   .doc (some (lit "   - Attempt to take the file stem of the URL path. The above example would")),
   .doc (some (lit "     become 'file_server'.")),
   .doc (some (lit "   - If the file stem is something generic like 'main', 'mod', 'index' or 'cli',")),
   .doc (some (lit "     and the path has no parent, take the file name of the parent path. Otherwise")),
   .doc (some (lit "     settle with the generic name.")),
   .doc (some (lit "   - If the resulting name has an '@...' suffix, strip it.")),
   .doc (some []),
   .doc (some (lit " Cross compiling binaries for different platforms is not currently possible."))]

/-- `PermissionArgs`, 632. -/
def permissionArgs := derive' []
  [D " Allow file system read access" "allow_read" (opt (vec (ty "PathBuf"))) [on "long", tru "use_value_delimiter", tru "require_equals"],
   D " Allow file system write access" "allow_write" (opt (vec (ty "PathBuf"))) [on "long", tru "use_value_delimiter", tru "require_equals"],
   D " Allow network access" "allow_net" (opt (vec string)) [on "long", tru "use_value_delimiter", tru "require_equals"],
   D " Allow environment access" "allow_env" bool [on "long"],
   D " Allow running subprocesses" "allow_run" bool [on "long"],
   D " Allow loading plugins" "allow_plugin" bool [on "long"],
   D " Allow high resolution time measurement" "allow_hrtime" bool [on "long"],
   D " Allow all permissions" "allow_all" bool [on "long", chr "short" 'A']]

/-- `RuntimeArgs`, 667. -/
def runtimeArgs := derive' [("CompilationArgs", argsTy compilationArgs)]
  [D " activate inspector on host:port (default: 127.0.0.1:9229)" "inspect" (opt (opt string)) [on "long", str "value_name" "HOST:PORT", tru "require_equals"],
   D " activate inspector on host:port and break at start of user script" "inspect_brk" (opt (opt string)) [on "long", str "value_name" "HOST:PORT", tru "require_equals"],
   D " Require that remote dependencies are already cached" "cached_only" bool [on "long"],
   D " Set V8 command line options (for help: --v8-flags=--help)" "v8_flags" (vec string) [on "long", tru "use_value_delimiter", tru "require_equals"],
   D " Seed Math.random()" "seed" (opt (ty "u64")) [on "long", str "value_name" "NUMBER"],
   C "flatten" "compilation" (ty "CompilationArgs")]

/-- `EvalSubcommand`, 212. -/
def evalSubcommand := derive' [("RuntimeArgs", argsTy runtimeArgs)]
  [D " Treat eval input as TypeScript" "ts" bool [on "long", chr "short" 'T'],
   D " print result to stdout" "print" bool [on "long", on "short"],
   D " Code arg" "code_arg" (vec string) [tru "required", str "value_name" "CODE_ARG"],
   C "flatten" "runtime" (ty "RuntimeArgs")]
  [.doc (some (lit " Eval script")),
   .command (some [text' "long_about" "Evaluate JavaScript from the command line.
  deno eval \"console.log('hello world')\"

To evaluate as TypeScript:
  deno eval -T \"const v: string = 'hello'; console.log(v)\"

This command has implicit access to all permissions (--allow-all)."])]

/-- `InstallSubcommand`, 345. -/
def installSubcommand := derive' [("PermissionArgs", argsTy permissionArgs), ("RuntimeArgs", argsTy runtimeArgs)]
  [F "cmd" (vec string) [tru "required", tru "trailing_var_arg"],
   D " Executable file name" "name" (opt string) [on "long", on "short"],
   D " Installation root" "root" (opt (ty "PathBuf")) [on "long"],
   D " Forcefully overwrite existing installation" "force" bool [on "long", on "short"],
   C "flatten" "runtime" (ty "RuntimeArgs"),
   C "flatten" "permissions" (ty "PermissionArgs")]
  [.doc (some (lit " Install script as an executable")),
   .command (some [text' "long_about" "Installs a script as an executable in the installation root's bin directory.
  deno install --allow-net --allow-read https://deno.land/std/http/file_server.ts
  deno install https://deno.land/std/examples/colors.ts

To change the executable name, use -n/--name:
  deno install --allow-net --allow-read -n serve https://deno.land/std/http/file_server.ts

The executable name is inferred by default:
  - Attempt to take the file stem of the URL path. The above example would
    become 'file_server'.
  - If the file stem is something generic like 'main', 'mod', 'index' or 'cli',
    and the path has no parent, take the file name of the parent path. Otherwise
    settle with the generic name.
  - If the resulting name has an '@...' suffix, strip it.

To change the installation root, use --root:
  deno install --allow-net --allow-read --root /usr/local https://deno.land/std/http/file_server.ts

The installation root is determined, in order of precedence:
  - --root option
  - DENO_INSTALL_ROOT environment variable
  - $HOME/.deno

These must be added to the path manually if required."])]

/-- `ReplSubcommand`, 416. -/
def replSubcommand := derive' [("RuntimeArgs", argsTy runtimeArgs)]
  [C "flatten" "runtime" (ty "RuntimeArgs")]
  [.doc (some (lit " Read Eval Print Loop"))]

/-- `RunSubcommand`, 440. -/
def runSubcommand := derive' [("PermissionArgs", argsTy permissionArgs), ("RuntimeArgs", argsTy runtimeArgs)]
  [D " Script arg" "script_arg" (vec string) [tru "required", str "value_name" "SCRIPT_ARG"],
   D " Watch for file changes and restart process automatically" "watch" bool [on "long"],
   C "flatten" "runtime" (ty "RuntimeArgs"),
   C "flatten" "permissions" (ty "PermissionArgs")]
  [.doc (some (lit " Run a program given a filename or url to the module. Use '-' as a filename to read from stdin.")),
   .command (some [text' "long_about" "Run a program given a filename or url to the module.

By default all programs are run in sandbox without access to disk, network or
ability to spawn subprocesses.
  deno run https://deno.land/std/examples/welcome.ts

Grant all permissions:
  deno run -A https://deno.land/std/http/file_server.ts

Grant permission to read from disk and listen to network:
  deno run --allow-read --allow-net https://deno.land/std/http/file_server.ts

Grant permission to read allow-listed files from disk:
  deno run --allow-read=/etc https://deno.land/std/http/file_server.ts

Deno allows specifying the filename '-' to read the file from stdin.
  curl https://deno.land/std/examples/welcome.ts | target/debug/deno run -"])]

/-- `TestSubcommand`, 476. -/
def testSubcommand := derive' [("PermissionArgs", argsTy permissionArgs), ("RuntimeArgs", argsTy runtimeArgs)]
  [D " Cache test modules, but don't run tests" "no_run" bool [on "long"],
   D " Stop on first error" "fail_fast" bool [on "long", str "alias" "failfast"],
   D " Don't return error code if no test files are found" "allow_none" bool [on "long"],
   D " Run tests with this string or pattern in the test name" "filter" (opt string) [on "long", tru "allow_hyphen_values"],
   D " Collect coverage information" "coverage" bool [on "long"],
   D " List of file names to run" "files" (vec string),
   C "flatten" "runtime" (ty "RuntimeArgs"),
   C "flatten" "permissions" (ty "PermissionArgs")]
  [.doc (some (lit " Run tests")),
   .command (some [text' "long_about" "Run tests using Deno's built-in test runner.

Evaluate the given modules, run all tests declared with 'Deno.test()' and
report results to standard output:
  deno test src/fetch_test.ts src/signal_test.ts

Directory arguments are expanded to all contained files matching the glob
{*_,*.,}test.{js,mjs,ts,jsx,tsx}:
  deno test src/"])]

/-- `WatchArg`, 693. -/
def watchArg := derive' []
  [D " Watch for file changes and restart process automatically" "watch" bool [on "long"]]

/-- `BundleSubcommand`, 90. -/
def bundleSubcommand := derive' [("CompilationArgs", argsTy compilationArgs), ("WatchArg", argsTy watchArg)]
  [F "source_file" string,
   F "out_file" (opt (ty "PathBuf")),
   C "flatten" "watch" (ty "WatchArg"),
   C "flatten" "compilation" (ty "CompilationArgs")]
  [.doc (some (lit " Bundle module and dependencies into single file")),
   .command (some [text' "long_about" "Output a single JavaScript file with all dependencies.
  deno bundle https://deno.land/std/examples/colors.ts colors.bundle.js

If no output file is given, the output is written to standard output:
  deno bundle https://deno.land/std/examples/colors.ts"])]

/-- `FmtSubcommand`, 244. -/
def fmtSubcommand := derive' [("WatchArg", argsTy watchArg)]
  [D " Check if the source files are formatted" "check" bool [on "long"],
   D " Ignore formatting particular source files. Use with --unstable" "ignore" (vec (ty "PathBuf")) [on "long", tru "use_value_delimiter", tru "require_equals"],
   F "files" (vec (ty "PathBuf")),
   C "flatten" "watch" (ty "WatchArg")]
  [.doc (some (lit " Format source files")),
   .command (some [text' "long_about" "Auto-format JavaScript/TypeScript source code.
  deno fmt
  deno fmt myfile1.ts myfile2.ts
  deno fmt --check

Format stdin and write to stdout:
  cat file.ts | deno fmt -

Ignore formatting code by preceding it with an ignore comment:
  // deno-fmt-ignore

Ignore formatting a file by adding an ignore comment at the top of the file:
  // deno-fmt-ignore-file"])]

/-- `SubcommandEnum`, 65. -/
def subcommandEnum := subTy [("BundleSubcommand", argsTy bundleSubcommand), ("CacheSubcommand", argsTy cacheSubcommand), ("CompileSubcommand", argsTy compileSubcommand), ("CompletionsSubcommand", argsTy completionsSubcommand), ("DocSubcommand", argsTy docSubcommand), ("EvalSubcommand", argsTy evalSubcommand), ("FmtSubcommand", argsTy fmtSubcommand), ("InfoSubcommand", argsTy infoSubcommand), ("InstallSubcommand", argsTy installSubcommand), ("LintSubcommand", argsTy lintSubcommand), ("ReplSubcommand", argsTy replSubcommand), ("RunSubcommand", argsTy runSubcommand), ("TestSubcommand", argsTy testSubcommand), ("TypesSubcommand", argsTy typesSubcommand), ("UpgradeSubcommand", argsTy upgradeSubcommand)]
  [{ ident := lit "Bundle", fields := .tuple [(ty "BundleSubcommand")] },
   { ident := lit "Cache", fields := .tuple [(ty "CacheSubcommand")] },
   { ident := lit "Compile", fields := .tuple [(ty "CompileSubcommand")] },
   { ident := lit "Completions", fields := .tuple [(ty "CompletionsSubcommand")] },
   { ident := lit "Doc", fields := .tuple [(ty "DocSubcommand")] },
   { ident := lit "Eval", fields := .tuple [(ty "EvalSubcommand")] },
   { ident := lit "Fmt", fields := .tuple [(ty "FmtSubcommand")] },
   { ident := lit "Info", fields := .tuple [(ty "InfoSubcommand")] },
   { ident := lit "Install", fields := .tuple [(ty "InstallSubcommand")] },
   { ident := lit "Lint", fields := .tuple [(ty "LintSubcommand")] },
   { ident := lit "Repl", fields := .tuple [(ty "ReplSubcommand")] },
   { ident := lit "Run", fields := .tuple [(ty "RunSubcommand")] },
   { ident := lit "Test", fields := .tuple [(ty "TestSubcommand")] },
   { ident := lit "Types", fields := .tuple [(ty "TypesSubcommand")] },
   { ident := lit "Upgrade", fields := .tuple [(ty "UpgradeSubcommand")] }]

/-- `Opt`, 44. -/
def cli := derive' [("SubcommandEnum", subcommandEnum)]
  [D " Enable unstable features and APIs" "unstable" bool [on "long", tru "global"],
   D " Set log level" "log_level" (opt string) [on "long", chr "short" 'L', tru "global"],
   docs [" Suppress diagnostic output", "", " By default, subcommands print human-readable diagnostic messages to stderr.", " If the flag is set, restrict these messages to errors."] (F "quiet" bool [on "long", on "short", tru "global"]),
   C "subcommand" "subcommand" (opt (ty "SubcommandEnum"))]
  [.command (some [text' "name" "deno",
     ⟨lit "after_long_help", .eq none (some (lit envVariablesHelp))⟩,
     ⟨lit "long_about", .eq none (some (lit denoHelp))⟩])]

#guard has cli ["deno"] [("unstable", b false), ("log_level", o none), ("quiet", b false), ("subcommand", osub none)]
/- 247, with a global option after the subcommand. -/
#guard has cli ["deno", "fmt", "--check", "--unstable", "-"] [("unstable", b true), ("log_level", o none), ("subcommand", osub (some
    (.variant (lit "Fmt") (st [("check", b true), ("ignore", many []), ("files", many [.path (blit "-")]), ("watch", st [("watch", b false)])]))))]
/- Options of structs flattened twice; delimiters. -/
#guard has cli ["deno", "eval", "-T", "-r=x,y", "code", "--inspect", "-pLdebug"] [("log_level", o (some (text "debug"))), ("subcommand", osub (some
    (.variant (lit "Eval") (st [("ts", b true), ("print", b true), ("code_arg", many [text "code"]), ("runtime", st
      [("inspect", oo (some none)), ("inspect_brk", oo none), ("cached_only", b false), ("v8_flags", many []), ("seed", o none),
       ("compilation", st [("no_remote", b false), ("config", o none), ("no_check", b false), ("lock", o none), ("lock_write", b false),
         ("import_map", st [("import_map", o none)]), ("reload", st [("reload", omany (some [text "x", text "y"]))]), ("ca_file", st [("cert", o none)])])])]))))]
#guard err cli (a ["deno", "cache", "x", "--lock-write"]) "the argument '--lock <FILE>' is required because some dependency arguments are provided"
#guard err cli (a ["deno", "run"]) "the argument '<SCRIPT_ARG>...' is required but not provided"
#guard help cli (a ["deno", "completions", "--help"]) "Output shell completion script to standard output.
  deno completions bash > /usr/local/etc/bash_completion.d/deno.bash
  source /usr/local/etc/bash_completion.d/deno.bash

Usage: deno completions <SHELL>

Arguments:
  <SHELL>

"

end deno


end Palc.Tests
