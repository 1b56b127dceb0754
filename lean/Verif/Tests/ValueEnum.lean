import Verif.Tests.Setup
/-!
# `tests/value_enum.rs`
-/

namespace Palc.Tests

/-- `#[value(name = "s")]`. -/
def val (p v : String) : Attr Unit := .value (some [⟨lit p, .eq (some (.str (lit v))) none⟩])

/-- A unit variant. -/
def variant (i : String) (attrs : List (Attr Unit) := []) : EnumVariant Val :=
  { ident := lit i, value := .unit (lit i), attrs := attrs }

/-- `T::parse_value(s)`. -/
def parsesTo (e : Expansion (EnumDef Val)) (s : String) (expect : Option String) : Bool :=
  match e with
  | .ok e => decide (e.parseValue (lit s) = expect.map (fun v => .unit (lit v)))
  | _ => false

/-- `empty`, 25-28. -/
example : parsesTo (enum [] []) "" none := by decide +kernel

/-- `single`, 30-34. -/
example : parsesTo (enum [] [variant "SingleVariant"]) "single-variant" (some "SingleVariant") := by decide +kernel
example : parsesTo (enum [] [variant "SingleVariant"]) "Single-variant" none := by decide +kernel

/-- `Override`, 13-21. -/
def overridden := enum [val "rename_all" "camelCase"]
  [variant "A" [val "name" ""], variant "DefaultVariant", variant "ExplicitVariant" [val "name" "the value"]]

/-- `rename_all`, 36-41. -/
example : parsesTo overridden "" (some "A") := by decide +kernel
example : parsesTo overridden "defaultVariant" (some "DefaultVariant") := by decide +kernel
example : parsesTo overridden "the value" (some "ExplicitVariant") := by decide +kernel

/-- `test_renames!`, 43-69. -/
def renames (convert v expect : String) : Bool :=
  parsesTo (enum [val "rename_all" convert] [variant v]) expect (some v)

example : renames "camelCase" "RenameCamel" "renameCamel" := by decide +kernel
example : renames "PascalCase" "RenamePascal" "RenamePascal" := by decide +kernel
example : renames "SCREAMING_SNAKE_CASE" "RenameScream" "RENAME_SCREAM" := by decide +kernel
example : renames "snake_case" "RenameSnake" "rename_snake" := by decide +kernel
example : renames "lower" "RenameLower" "renamelower" := by decide +kernel
example : renames "UPPER" "RenameUpper" "RENAMEUPPER" := by decide +kernel
example : renames "verbatim" "RenameXMLHttp_Request" "RenameXMLHttp_Request" := by decide +kernel

/-- `ignore_case`, 71-84. -/
example : ok (derive [("Enum", enumTy ["HelloWorld"])] [F "key" (ty "Enum") [on "long", tru "ignore_case"]])
    (a ["", "--key", "hElLo-WoRlD"]) (st [("key", one (.unit (lit "HelloWorld")))]) := by decide +kernel

end Palc.Tests
