import Verif.Tests.Setup
/-!
# `tests/parse.rs`, `tests/smoke.rs`

Every call of `check` and `check_err`, in the order of the files.
-/

namespace Palc.Tests

/-- `parse.rs` 27-30. -/
def subSub : List (String × TyInfo Val) := [("Sub", subTy [] [{ ident := lit "Sub" }])]

/-! ## `argv0`, 32-35 -/

namespace argv0

def cli := derive []
  []

example : err cli (a [])
    "missing executable argument (argv[0])" := by decide +kernel

end argv0

/-! ## `short`, 37-65 -/

namespace short

def cli := derive []
  [F "verbose" bool [on "short"],
   F "debug" bool [on "short"],
   F "file" (opt string) [on "short"],
   F "me" bool [chr "short" '我'],
   F "long_me" bool [str "long" "我"]]

example : ok cli (a ["", "-dv我f-"])
    (st [("verbose", b true), ("debug", b true), ("file", o (some (text "-"))), ("me", b true), ("long_me", b false)]) := by decide +kernel

example : ok cli (a ["", "-f=-", "-v"])
    (st [("verbose", b true), ("debug", b false), ("file", o (some (text "-"))), ("me", b false), ("long_me", b false)]) := by decide +kernel

example : ok cli (a ["", "-d", "-f", "-", "-v", "--我"])
    (st [("verbose", b true), ("debug", b true), ("file", o (some (text "-"))), ("me", b false), ("long_me", b true)]) := by decide +kernel

end short

/-! ## `flag`, 67-90 -/

namespace flag

def cli := derive []
  [F "verbose" bool [on "short", on "long"]]

example : ok cli (a ["", "--verbose"]) (st [("verbose", b true)]) := by decide +kernel

example : ok cli (a ["", "-v"]) (st [("verbose", b true)]) := by decide +kernel

example : err cli (a ["", "-vv"])
    "the argument '-v, --verbose' cannot be used multiple times" := by decide +kernel

example : err cli (a ["", "--verbose", "-v"])
    "the argument '-v, --verbose' cannot be used multiple times" := by decide +kernel

example : err cli (a ["", "--verbose=9"])
    "unexpected value \"9\" for '-v, --verbose'" := by decide +kernel

example : err cli (a ["", "-vd"])
    "unexpected argument \"-d\"" := by decide +kernel

example : err cli (a ["", "-v="])
    "unexpected value \"\" for '-v, --verbose'" := by decide +kernel

end flag

/-! ## `require_equals`, 92-125 -/

namespace require_equals

def cli := derive []
  [F "file" (opt string) [on "long", on "short", tru "require_equals"],
   F "verbose" bool [on "short"]]

example : err cli (a ["", "--file", "-"])
    "equal sign is needed when assigning values for '-f, --file=<FILE>'" := by decide +kernel

example : err cli (a ["", "-f", "-"])
    "equal sign is needed when assigning values for '-f, --file=<FILE>'" := by decide +kernel

example : err cli (a ["", "-vf", "-"])
    "equal sign is needed when assigning values for '-f, --file=<FILE>'" := by decide +kernel

example : err cli (a ["", "-fv"])
    "equal sign is needed when assigning values for '-f, --file=<FILE>'" := by decide +kernel

example : ok cli (a ["", "-f="])
    (st [("verbose", b false), ("file", o (some (text "")))]) := by decide +kernel

example : ok cli (a ["", "-f=v"])
    (st [("verbose", b false), ("file", o (some (text "v")))]) := by decide +kernel

example : ok cli (a ["", "-vf=v"])
    (st [("verbose", b true), ("file", o (some (text "v")))]) := by decide +kernel

example : ok cli (a ["", "--file="])
    (st [("verbose", b false), ("file", o (some (text "")))]) := by decide +kernel

example : ok cli (a ["", "--file=v"])
    (st [("verbose", b false), ("file", o (some (text "v")))]) := by decide +kernel

end require_equals

/-! ## `required`, 127-169 -/

namespace required

def cli := derive subSub
  [F "key" string [on "long"],
   F "file" string,
   C "subcommand" "sub" (ty "Sub")]

example : err cli (a ["", "path"])
    "the argument '--key <KEY>' is required but not provided" := by decide +kernel

example : err cli (a ["", "--key", "value"])
    "the argument '<FILE>' is required but not provided" := by decide +kernel

example : err cli (a ["", "--key", "value", "path"])
    "the subcommand is required but not provided" := by decide +kernel

example : err cli (a ["", "path", "sub"])
    "the argument '--key <KEY>' is required but not provided" := by decide +kernel

example : err cli (a ["", "--key", "value", "sub"])
    "the argument '<FILE>' is required but not provided" := by decide +kernel

example : err cli (a ["", "--key", "value", "--key=value"])
    "the argument '--key <KEY>' cannot be used multiple times" := by decide +kernel

example : ok cli (a ["", "path", "--key", "value", "sub"])
    (st [("key", one (text "value")), ("file", one (text "path")), ("sub", sub "Sub" [])]) := by decide +kernel

example : ok cli (a ["", "--key", "value", "path", "sub"])
    (st [("key", one (text "value")), ("file", one (text "path")), ("sub", sub "Sub" [])]) := by decide +kernel

end required

/-! ## `optional`, 171-221 -/

namespace optional

def cli := derive subSub
  [F "flag" bool [on "long"],
   F "key" (opt string) [on "long"],
   F "file" (opt string),
   C "subcommand" "sub" (opt (ty "Sub"))]

example : ok cli (a [""])
    (st [("flag", b false), ("key", o none), ("file", o none), ("sub", osub none)]) := by decide +kernel

example : ok cli (a ["", "--flag"])
    (st [("flag", b true), ("key", o none), ("file", o none), ("sub", osub none)]) := by decide +kernel

example : ok cli (a ["", "--key", "value"])
    (st [("flag", b false), ("key", o (some (text "value"))), ("file", o none), ("sub", osub none)]) := by decide +kernel

example : ok cli (a ["", "path"])
    (st [("flag", b false), ("key", o none), ("file", o (some (text "path"))), ("sub", osub none)]) := by decide +kernel

example : ok cli (a ["", "sub"])
    (st [("flag", b false), ("key", o none), ("file", o none), ("sub", osub (some (sub "Sub" [])))]) := by decide +kernel

example : ok cli (a ["", "--key", "sub", "path"])
    (st [("flag", b false), ("key", o (some (text "sub"))), ("file", o (some (text "path"))), ("sub", osub none)]) := by decide +kernel

example : ok cli (a ["", "path", "sub"])
    (st [("flag", b false), ("key", o none), ("file", o (some (text "path"))), ("sub", osub (some (sub "Sub" [])))]) := by decide +kernel

example : ok cli (a ["", "--flag", "--key", "value", "path", "sub"])
    (st [("flag", b true), ("key", o (some (text "value"))), ("file", o (some (text "path"))), ("sub", osub (some (sub "Sub" [])))]) := by decide +kernel

example : err cli (a ["", "--key", "value", "--key=value"])
    "the argument '--key <KEY>' cannot be used multiple times" := by decide +kernel

example : err cli (a ["", "--flag", "--flag"])
    "the argument '--flag' cannot be used multiple times" := by decide +kernel

end optional

/-! ## `option_option`, 223-247 -/

namespace option_option

def cli := derive []
  [F "foo" (opt string) [on "long"],
   F "bar" (opt (opt string)) [on "long", tru "require_equals"]]

example : ok cli (a [""]) (st [("foo", o none), ("bar", oo none)]) := by decide +kernel

example : ok cli (a ["", "--foo=", "--bar="])
    (st [("foo", o (some (text ""))), ("bar", oo (some (some (text ""))))]) := by decide +kernel

example : ok cli (a ["", "--foo=a", "--bar=b"])
    (st [("foo", o (some (text "a"))), ("bar", oo (some (some (text "b"))))]) := by decide +kernel

example : err cli (a ["", "--foo"])
    "a value is required for '--foo <FOO>' but none was supplied" := by decide +kernel

example : ok cli (a ["", "--bar"]) (st [("foo", o none), ("bar", oo (some none))]) := by decide +kernel

example : err cli (a ["", "--bar", "value"])
    "unexpected argument \"value\"" := by decide +kernel

end option_option

/-! ## `default_values`, 249-269 -/

namespace default_values

def cli := derive []
  [F "opt" (ty "i32") [chr "short" 'O', on "default_value_t"],
   F "debug" string [on "long", str "default_value" "none", str "conflicts_with" "opt"]]

example : ok cli (a [""]) (st [("opt", one (.int 0)), ("debug", one (text "none"))]) := by decide +kernel

example : ok cli (a ["", "-O2"])
    (st [("opt", one (.int 2)), ("debug", one (text "none"))]) := by decide +kernel

example : ok cli (a ["", "--debug=full"])
    (st [("opt", one (.int 0)), ("debug", one (text "full"))]) := by decide +kernel

example : err cli (a ["", "-O2", "--debug="])
    "the argument '--debug <DEBUG>' cannot be used with some other arguments" := by decide +kernel

end default_values

/-! ## `flatten`, 271-321 -/

namespace flatten

def config := derive []
  [F "config" (opt string) [on "long"],
   F "config_file" (opt string) [on "long"],
   F "force" bool [on "short", tru "required"]]

def cli := derive [("Config", argsTy config)]
  [F "verbose" bool [on "long"],
   C "flatten" "config" (ty "Config"),
   F "debug" bool [on "long"]]

example : ok cli (a ["", "--debug", "--verbose", "--config", "a=b", "-f"])
    (st [("debug", b true), ("verbose", b true), ("config", st [("config", o (some (text "a=b"))), ("config_file", o none), ("force", b true)])]) := by decide +kernel

example : ok cli (a ["", "--config-file", "path", "--debug", "--verbose", "-f"])
    (st [("debug", b true), ("verbose", b true), ("config", st [("config_file", o (some (text "path"))), ("config", o none), ("force", b true)])]) := by decide +kernel

example : err cli (a ["", "--config"])
    "a value is required for '--config <CONFIG>' but none was supplied" := by decide +kernel

example : err cli (a ["", "--config", "foo"])
    "the argument '-f' is required but not provided" := by decide +kernel

end flatten

/-! ## `unknown_args`, 323-353 -/

namespace unknown_args

def cli := derive []
  [F "verbose" bool [on "short", on "long"],
   F "file" string]

def cliWithSub := derive subSub
  [F "verbose" bool [on "long"],
   F "file" string,
   C "subcommand" "sub" (ty "Sub")]

example : err cli (a ["", "--debug"])
    "unexpected argument \"--debug\"" := by decide +kernel

example : err cli (a ["", "-d"])
    "unexpected argument \"-d\"" := by decide +kernel

example : err cli (a ["", "-vd"])
    "unexpected argument \"-d\"" := by decide +kernel

example : err cli (a ["", "-v坏"])
    "unexpected argument \"-坏\"" := by decide +kernel

example : err cli (a ["", "path1", "path2"])
    "unexpected argument \"path2\"" := by decide +kernel

example : err cliWithSub (a ["", "path1", "path2"])
    "unrecognized subcommand \"path2\"" := by decide +kernel

example : err cliWithSub (a ["", "sub", "path"])
    "unexpected argument \"path\"" := by decide +kernel

end unknown_args

/-! ## `parse_non_utf8`, 355-394 -/

namespace parse_non_utf8

def cli := derive []
  [F "config" (opt (ty "PathBuf")) [on "short", on "long"],
   F "file" (opt (ty "PathBuf")),
   F "verbose" bool [on "short"]]

example : ok cli [[], [0xFF]]
    (st [("file", o (some (.path [0xFF]))), ("config", o none), ("verbose", b false)]) := by decide +kernel

example : ok cli [[], blit "--config", [0xFF]]
    (st [("config", o (some (.path [0xFF]))), ("file", o none), ("verbose", b false)]) := by decide +kernel

example : ok cli [[], blit "--config=" ++ [0xFF]]
    (st [("config", o (some (.path [0xFF]))), ("file", o none), ("verbose", b false)]) := by decide +kernel

example : ok cli [[], blit "-c" ++ [0xFF]]
    (st [("config", o (some (.path [0xFF]))), ("file", o none), ("verbose", b false)]) := by decide +kernel

example : ok cli [[], blit "-c=" ++ [0xFF]]
    (st [("config", o (some (.path [0xFF]))), ("file", o none), ("verbose", b false)]) := by decide +kernel

example : ok cli [[], blit "-vc" ++ [0xFF]]
    (st [("config", o (some (.path [0xFF]))), ("file", o none), ("verbose", b true)]) := by decide +kernel

example : ok cli [[], blit "-vc=" ++ [0xFF]]
    (st [("config", o (some (.path [0xFF]))), ("file", o none), ("verbose", b true)]) := by decide +kernel

end parse_non_utf8

/-! ## `help_non_utf8`, 396-416 -/

namespace help_non_utf8

def cli := derive []
  [F "input" string [on "long"]]

example : err cli [[], blit "--input", [97, 0xFF]]
    "invalid value \"a\\xFF\" for '--input <INPUT>': invalid utf-8 sequence of 1 bytes from index 1" := by decide +kernel

end help_non_utf8

/-! ## `help_control_char`, 418-435 -/

namespace help_control_char

def cli := derive []
  [F "input" (ty "i32") [on "long"]]

example : err cli (a ["", "--input", "\x1B[31mcolorful\x1B[m"])
    "invalid value \"\\u{1b}[31mcolorful\\u{1b}[m\" for '--input <INPUT>': invalid digit found in string" := by decide +kernel

end help_control_char

/-! ## `global`, 437-492 -/

namespace global

def sub2 := subTy []
  [{ ident := lit "Empty" },
   { ident := lit "Deep", fields := .named [F "verbose" bool [on "short"]] }]

def cli := derive [("Sub2", sub2)]
  [F "verbose" bool [on "short"],
   F "debug" (opt (ty "u8")) [on "short", on "long", tru "global"],
   C "subcommand" "sub" (ty "Sub2")]

example : ok cli (a ["", "empty"])
    (st [("verbose", b false), ("debug", o none), ("sub", sub "Empty" [])]) := by decide +kernel

example : ok cli (a ["", "-v", "empty"])
    (st [("verbose", b true), ("debug", o none), ("sub", sub "Empty" [])]) := by decide +kernel

example : err cli (a ["", "empty", "-v"])
    "unexpected argument \"-v\"" := by decide +kernel

example : ok cli (a ["", "-v", "deep"])
    (st [("verbose", b true), ("debug", o none), ("sub", sub "Deep" [("verbose", b false)])]) := by decide +kernel

example : ok cli (a ["", "deep", "-v"])
    (st [("verbose", b false), ("debug", o none), ("sub", sub "Deep" [("verbose", b true)])]) := by decide +kernel

example : ok cli (a ["", "-v", "deep", "-v"])
    (st [("verbose", b true), ("debug", o none), ("sub", sub "Deep" [("verbose", b true)])]) := by decide +kernel

example : ok cli (a ["", "-d2", "empty"])
    (st [("verbose", b false), ("debug", o (some (.int 2))), ("sub", sub "Empty" [])]) := by decide +kernel

example : ok cli (a ["", "-d", "2", "empty"])
    (st [("verbose", b false), ("debug", o (some (.int 2))), ("sub", sub "Empty" [])]) := by decide +kernel

example : ok cli (a ["", "-d2", "deep"])
    (st [("verbose", b false), ("debug", o (some (.int 2))), ("sub", sub "Deep" [("verbose", b false)])]) := by decide +kernel

example : ok cli (a ["", "-d", "2", "deep"])
    (st [("verbose", b false), ("debug", o (some (.int 2))), ("sub", sub "Deep" [("verbose", b false)])]) := by decide +kernel

example : err cli (a ["", "-d2", "deep", "-d0"])
    "the argument '-d, --debug <DEBUG>' cannot be used multiple times" := by decide +kernel

end global

/-! ## `hyphen_named`, 494-528 -/

namespace hyphen_named

def cli := derive []
  [F "no" (opt string) [on "long"],
   F "yes" (opt string) [on "long", tru "allow_hyphen_values"],
   F "number" (opt (ty "i32")) [on "long", tru "allow_negative_numbers"],
   F "one" bool [chr "short" '1'],
   F "flag" bool [on "short"]]

example : err cli (a ["", "--no", "-1"])
    "a value is required for '--no <NO>' but none was supplied" := by decide +kernel

example : err cli (a ["", "--no", "-f"])
    "a value is required for '--no <NO>' but none was supplied" := by decide +kernel

example : err cli (a ["", "--number", "-f"])
    "a value is required for '--number <NUMBER>' but none was supplied" := by decide +kernel

example : ok cli (a ["", "--number", "-1"])
    (st [("no", o none), ("yes", o none), ("number", o (some (.int (-1)))), ("one", b false), ("flag", b false)]) := by decide +kernel

example : ok cli (a ["", "--yes", "-1"])
    (st [("no", o none), ("yes", o (some (text "-1"))), ("number", o none), ("one", b false), ("flag", b false)]) := by decide +kernel

example : ok cli (a ["", "--yes", "-f"])
    (st [("no", o none), ("yes", o (some (text "-f"))), ("number", o none), ("one", b false), ("flag", b false)]) := by decide +kernel

end hyphen_named

/-! ## `trailing_args`, 530-563 -/

namespace trailing_args

def no := derive []
  [F "debug" (ty "i8") [on "short", on "default_value_t"],
   F "any" (vec string) [tru "trailing_var_arg"]]

def yes := derive []
  [F "debug" (ty "i8") [on "short", on "default_value_t", tru "allow_hyphen_values"],
   F "any" (vec string) [tru "trailing_var_arg"]]

example : ok no (a ["", "-d", "1", "a", "-d", "-1"])
    (st [("debug", one (.int 1)), ("any", many [text "a", text "-d", text "-1"])]) := by decide +kernel

example : err no (a ["", "-d", "-1"])
    "a value is required for '-d <DEBUG>' but none was supplied" := by decide +kernel

example : err no (a ["", "-x"])
    "unexpected argument \"-x\"" := by decide +kernel

example : ok yes (a ["", "-d", "-1"]) (st [("any", many []), ("debug", one (.int (-1)))]) := by decide +kernel

end trailing_args

/-! ## `value_delimiter`, 565-577 -/

namespace value_delimiter

def cli := derive []
  [F "features" (vec string) [chr "short" 'F', on "long", tru "use_value_delimiter"]]

example : ok cli (a ["", "--features", "a,b", "-F", "c", "-F=d,e", "-Ff", "--features="])
    (st [("features", many (["a", "b", "c", "d", "e", "f", ""].map text))]) := by decide +kernel

end value_delimiter

/-! ## `constraint_required`, 579-617 -/

namespace constraint_required

def cli := derive []
  [F "key" (vec string) [on "long", tru "required"],
   F "files" (vec string) [tru "required"],
   F "force" bool [on "short", tru "required"],
   F "level" (opt (ty "u8")) [on "short", tru "required"]]

example : err cli (a [""])
    "the argument '--key <KEY>' is required but not provided" := by decide +kernel

example : err cli (a ["", "--key=foo", "-f", "-l2"])
    "the argument '<FILES>...' is required but not provided" := by decide +kernel

example : err cli (a ["", "--key=foo", "path", "-l2"])
    "the argument '-f' is required but not provided" := by decide +kernel

example : err cli (a ["", "--key=foo", "path", "-f"])
    "the argument '-l <LEVEL>' is required but not provided" := by decide +kernel

example : ok cli (a ["", "--key=foo", "path", "-fl2"])
    (st [("key", many [text "foo"]), ("files", many [text "path"]), ("force", b true), ("level", o (some (.int 2)))]) := by decide +kernel

end constraint_required

/-! ## `constraint_exclusive`, 619-675 -/

namespace constraint_exclusive

def cli := derive [("Cmd", subTy [] [{ ident := lit "Foo" }])]
  [F "start" (opt string) [on "long", tru "exclusive"],
   F "stop" bool [on "long", tru "exclusive"],
   F "key" (opt string) [on "long"],
   C "subcommand" "cmd" (opt (ty "Cmd"))]

example : err cli (a ["", "--start=foo", "--key=value"])
    "the argument '--start <START>' cannot be used with one or more of the other specified arguments" := by decide +kernel

example : err cli (a ["", "--start=foo", "--stop", "--key=value"])
    "the argument '--start <START>' cannot be used with one or more of the other specified arguments" := by decide +kernel

example : err cli (a ["", "--stop", "--key=value"])
    "the argument '--stop' cannot be used with one or more of the other specified arguments" := by decide +kernel

example : err cli (a ["", "--stop", "foo"])
    "the argument '--stop' cannot be used with one or more of the other specified arguments" := by decide +kernel

example : ok cli (a [""])
    (st [("start", o none), ("stop", b false), ("key", o none), ("cmd", osub none)]) := by decide +kernel

example : ok cli (a ["", "--key=value", "foo"])
    (st [("start", o none), ("stop", b false), ("key", o (some (text "value"))), ("cmd", osub (some (sub "Foo" [])))]) := by decide +kernel

example : ok cli (a ["", "--start=foo"])
    (st [("start", o (some (text "foo"))), ("stop", b false), ("key", o none), ("cmd", osub none)]) := by decide +kernel

example : ok cli (a ["", "--stop"])
    (st [("start", o none), ("stop", b true), ("key", o none), ("cmd", osub none)]) := by decide +kernel

end constraint_exclusive

/-! ## `constraint_require`, 677-719 -/

namespace constraint_require

def cli := derive []
  [F "from" (opt string) [on "long"],
   F "to" (opt string) [on "long", str "requires" "from"],
   F "direct" bool [on "long", str "requires" "from", str "requires" "to"]]

example : err cli (a ["", "--direct"])
    "the argument '--from <FROM>' is required because some dependency arguments are provided" := by decide +kernel

example : err cli (a ["", "--to=out"])
    "the argument '--from <FROM>' is required because some dependency arguments are provided" := by decide +kernel

example : err cli (a ["", "--direct", "--from=in"])
    "the argument '--to <TO>' is required because some dependency arguments are provided" := by decide +kernel

example : ok cli (a [""]) (st [("from", o none), ("to", o none), ("direct", b false)]) := by decide +kernel

example : ok cli (a ["", "--from=in"])
    (st [("from", o (some (text "in"))), ("to", o none), ("direct", b false)]) := by decide +kernel

example : ok cli (a ["", "--from=in", "--to=out"])
    (st [("from", o (some (text "in"))), ("to", o (some (text "out"))), ("direct", b false)]) := by decide +kernel

example : ok cli (a ["", "--to=out", "--direct", "--from=in"])
    (st [("from", o (some (text "in"))), ("to", o (some (text "out"))), ("direct", b true)]) := by decide +kernel

end constraint_require

/-! ## `constraint_conflict`, 720-758 -/

namespace constraint_conflict

def cli := derive []
  [F "config" (opt string) [on "long"],
   F "config_file" (opt string) [on "long", str "conflicts_with" "config"],
   F "no_config" bool [on "long", arr "conflicts_with_all" ["config", "config_file"]]]

example : err cli (a ["", "--config=foo", "--config-file=path"])
    "the argument '--config-file <CONFIG_FILE>' cannot be used with some other arguments" := by decide +kernel

example : err cli (a ["", "--no-config", "--config=foo"])
    "the argument '--no-config' cannot be used with some other arguments" := by decide +kernel

example : err cli (a ["", "--config-file=path", "--no-config"])
    "the argument '--no-config' cannot be used with some other arguments" := by decide +kernel

example : ok cli (a [""])
    (st [("config", o none), ("config_file", o none), ("no_config", b false)]) := by decide +kernel

example : ok cli (a ["", "--config=foo"])
    (st [("config", o (some (text "foo"))), ("config_file", o none), ("no_config", b false)]) := by decide +kernel

example : ok cli (a ["", "--config-file=path"])
    (st [("config", o none), ("config_file", o (some (text "path"))), ("no_config", b false)]) := by decide +kernel

example : ok cli (a ["", "--no-config"])
    (st [("config", o none), ("config_file", o none), ("no_config", b true)]) := by decide +kernel

end constraint_conflict

/-! ## `empty_subcommand`, 760-774 -/

namespace empty_subcommand

def cli := derive [("Subcmd", subTy [] [])]
  [C "subcommand" "cmd" (opt (ty "Subcmd"))]

example : ok cli (a [""]) (st [("cmd", osub none)]) := by decide +kernel

example : err cli (a ["", ""])
    "unrecognized subcommand \"\"" := by decide +kernel

end empty_subcommand

/-! ## `value_enum`, 776-801 -/

namespace value_enum

def cli := derive [("Color", enumTy ["Auto", "Always", "Never"] (some "Auto"))]
  [F "color" (ty "Color") [on "long", on "default_value_t"]]

example : ok cli (a [""]) (st [("color", one (.unit (lit "Auto")))]) := by decide +kernel

example : ok cli (a ["", "--color=always"]) (st [("color", one (.unit (lit "Always")))]) := by decide +kernel

example : ok cli (a ["", "--color", "never"]) (st [("color", one (.unit (lit "Never")))]) := by decide +kernel

example : err cli (a ["", "--color"])
    "a value is required for '--color <COLOR>' but none was supplied" := by decide +kernel

example : err cli (a ["", "--color=always", "--color=always"])
    "the argument '--color <COLOR>' cannot be used multiple times" := by decide +kernel

example : err cli (a ["", "--color=all"])
    "invalid value \"all\" for '--color <COLOR>'\n  [possible values: always, auto, never]" := by decide +kernel

end value_enum

/-! ## `smoke`, `tests/smoke.rs` -/

namespace smoke

def config := derive []
  [F "config_file" (opt (ty "PathBuf")) [on "long"],
   F "config" (opt string) [on "long"]]
  [.doc (some (lit " Configure something."))]

def commands := subTy [("Config", argsTy config)]
  [{ ident := lit "Test", attrs := [.doc (some (lit " Do something complex"))],
     fields := .named [F "list" bool [on "short", on "long"], F "files" (opt (vec (ty "PathBuf")))] },
   { ident := lit "Transparent", fields := .tuple [ty "Config"] },
   { ident := lit "Unit", attrs := [.doc (some (lit " Do something simple"))] }]

def cli := derive
  [("Config", argsTy config), ("Commands", commands), ("Color", enumTy ["Auto", "Never", "Always"])]
  [F "name" (opt string),
   C "flatten" "config" (ty "Config"),
   F "debug" bool [chr "short" 'v', tru "global"],
   F "color" (ty "Color") [on "long", tru "require_equals"],
   C "subcommand" "command" (opt (ty "Commands"))]
  [.doc (some (lit " My great App."))]

example : ok cli
    (a ["foo", "--color=always", "--config", "foo", "bar", "test", "-l", "-v", "hello", "world"])
    (st [("color", one (.unit (lit "Always"))), ("name", o (some (text "bar"))),
      ("config", st [("config_file", o none), ("config", o (some (text "foo")))]), ("debug", b true),
      ("command", osub (some (sub "Test" [("list", b true),
        ("files", omany (some [.path (blit "hello"), .path (blit "world")]))])))]) := by decide +kernel

end smoke

end Palc.Tests
