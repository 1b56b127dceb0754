import Verif.Tests.ValueEnum
/-!
# `tests/ui/*.rs`: programs that do not compile

The errors are compared as lists; "previously defined here" belongs to the error before it.  The model reports errors of rustc together
with those of the macro.  `parser-manual-impl.rs` is about an `impl` block and has no counterpart.
-/

namespace Palc.Tests

/-- The compile errors. -/
def errors {α : Type} : Expansion α → Option (List SrcError)
  | .errors es => some es
  | _ => none

def i32 : TyExpr := ty "i32"

/-! ## args-default-value.rs -/

/-- 5-16: accepted. -/
example : (accepted (derive [("Enum", enumTy ["Foo"] (some "Foo"))]
    [F "default_string" (ty "PathBuf") [str "default_value" "/"],
     F "default_i32" i32 [on "default_value_t"],
     F "value_enum" (ty "Enum") [on "default_value_t"]])).isSome := by decide +kernel

/-- 25-27: no default that can be shown.  (An expression that cannot be shown, 21-23, has no counterpart in the model.) -/
example : errors (derive [] [F "default_trait" (ty "PathBuf") [on "default_value_t"]]) = some [.derive .defaultType] := by
  decide +kernel

/-- 29-31: an expression of another type. -/
example : errors (derive [] [F "wrong_type" i32 [⟨lit "default_value_t", .eq none (some (.bool true, []))⟩]])
    = some [.derive .defaultType] := by decide +kernel

/-! ## args-duplicated-names.rs -/

example : errors (derive []
    [F "hello" i32 [on "short"], F "hell" i32 [on "short"], F "long1" i32 [on "long"], F "long2" i32 [str "long" "long1"]])
    = some [.derive .duplicatedName, .derive .duplicatedName] := by decide +kernel

/-! ## args-flatten-non-args.rs, args-subcommand-non-subcommand.rs -/

example : errors (derive [("Deep", {})] [C "flatten" "deep" (ty "Deep")]) = some [.notArgs] := by decide +kernel
example : errors (derive [("Subcmd", subTy [] [])] [C "flatten" "deep" (ty "Subcmd")]) = some [.notArgs] := by decide +kernel
example : errors (derive [("Deep", {})] [C "subcommand" "deep" (ty "Deep")]) = some [.notSubcommand] := by decide +kernel
example : errors (derive [("Subargs", argsTy (derive [] []))] [C "subcommand" "cmd" (ty "Subargs")]) = some [.notSubcommand] := by
  decide +kernel

/-! ## args-flatten-positional.rs, args-flatten-subcommand.rs -/

example : errors (derive [("Inner", argsTy (derive [] [F "arg" string]))] [C "flatten" "inner" (ty "Inner")])
    = some [.derive .flattenPositional] := by decide +kernel
example : errors (derive
    [("Inner", argsTy (derive [("Subcmd", subTy [] [])] [C "subcommand" "subcmd" (ty "Subcmd")]))]
    [C "flatten" "inner" (ty "Inner")])
    = some [.derive .flattenSubcommand] := by decide +kernel

/-! ## args-invalid-ignore_case.rs -/

def upperTy : TyInfo Val :=
  match enum [val "rename_all" "UPPER"] [variant "Hello"] with
  | .ok e => { val := { valueEnum := some e } }
  | _ => {}

example : errors (derive [("LowerCase", enumTy ["Hello"]), ("UpperCase", upperTy)]
    [F "lower" (ty "LowerCase") [on "long", on "value_enum", tru "ignore_case"],
     F "upper" (ty "UpperCase") [on "long", on "value_enum", tru "ignore_case"]])
    = some [.derive .ignoreCaseNotLower] := by decide +kernel

/-! ## args-invalid-names.rs -/

example : errors (derive []
    [F "long_empty" i32 [str "long" ""],
     F "long_control" i32 [str "long" "\x00"],
     F "long_dash" i32 [str "long" "-foo"],
     F "long_eq" i32 [str "long" "a=b"],
     F "short_dash" i32 [chr "short" '-'],
     F "short_eq" bool [chr "short" '='],
     F "short_control" bool [chr "short" '\x1e']])
    = some [.derive .longName, .derive .longName, .derive .longName, .derive .longName,
        .derive .shortName, .derive .shortName, .derive .shortName] := by decide +kernel

/-! ## args-type-unparsable.rs -/

example : errors (derive [("MyType", {})]
    [F "positional" (ty "MyType"), F "arg" (ty "MyType") [on "long"],
     F "vec" (vec (ty "MyType")), F "vec_arg" (vec (ty "MyType")) [on "long"]])
    = some [.derive .noParser, .derive .noParser, .derive .noParser, .derive .noParser] := by decide +kernel
example : errors (derive [("MyType", {})]
    [F "option_vec" (opt (vec (ty "MyType"))), F "option_vec_arg" (opt (vec (ty "MyType"))) [on "long"]])
    = some [.derive .noParser, .derive .noParser] := by decide +kernel

/-! ## args-unsupported-data.rs, parser-unsupported-data.rs, subcommand-unsupported-data.rs -/

example : errors (expandArgs cx (env []) { data := .structOther }) = some [.unsupportedData] := by decide +kernel
example : errors (expandArgs cx (env []) { data := .union }) = some [.unsupportedData] := by decide +kernel
example : errors (expandArgs cx (env []) { data := .enum [] }) = some [.unsupportedData] := by decide +kernel
example : errors (expandSubcommand cx (env []) { data := .structOther }) = some [.unsupportedData] := by decide +kernel
example : errors (expandSubcommand cx (env []) { data := .structNamed [F "a" (.other (lit "()"))] }) = some [.unsupportedData] := by
  decide +kernel
example : errors (expandSubcommand cx (env []) { data := .union }) = some [.unsupportedData] := by decide +kernel

/-! ## no-generic.rs -/

example : errors (expandArgs cx (env []) { generics := true, data := .structNamed [F "a" (ty "T")] }) = some [.generics] := by
  decide +kernel
example : errors (expandSubcommand cx (env [])
    { generics := true, data := .enum [{ ident := lit "A", fields := .tuple [ty "T"] }] }) = some [.generics] := by decide +kernel

/-! ## value_enum-unsupported-data.rs -/

example : errors (expandValueEnum cx [] none) = some [.unsupportedData] := by decide +kernel

end Palc.Tests
