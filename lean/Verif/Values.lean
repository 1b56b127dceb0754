import Verif.Error
import Verif.Util
/-!
# Value parsers (`src/values.rs`)
-/

namespace Palc

/-- What `derive(ValueEnum)` generates (`derive/src/derive_value_enum.rs` 101-123): the match arms
of `parse_value`/`display_value` and the two constants. -/
structure EnumDef (V : Type) where
  arms : List (Str × V)
  possibleInputsNul : Str
  noUpperCase : Bool

/-- Generated `parse_value`, `derive_value_enum.rs` 109-114: first matching arm. -/
def EnumDef.parseValue {V : Type} (d : EnumDef V) (s : Str) : Option V :=
  d.arms.findSome? (fun (n, v) => if n = s then some v else none)

/-- Generated `display_value`, `derive_value_enum.rs` 116-121: first matching arm (`none` would be
a non-exhaustive match, which rustc rejects). -/
def EnumDef.displayValue {V : Type} [DecidableEq V] (d : EnumDef V) (v : V) : Option Str :=
  d.arms.findSome? (fun (n, w) => if w = v then some n else none)

/-- The three parser classes inferred by palc, `src/values.rs` 128-240.  Source errors of user
parsers are identified with their `Display` text. -/
inductive ValueParser (V : Type)
  | valueEnum (d : EnumDef V)
  | tryFromOsStr (f : Bytes → Except Str V)
  | fromStr (f : Str → Except Str V)

/-- `impl Display for PossibleValues`, `src/values.rs` 162-176. -/
def possibleValues (s : Str) : Str :=
  lit "[possible values: " ++ (List.intercalate (lit ", ") (splitTerminator nul s)) ++ lit "]"

/-- `ValueParser::parse`, `src/values.rs` 142-157 (`ValueEnumParser`), 198-206
(`TryFromOsStrParser`), 229-239 (`FromStrParser`). -/
def ValueParser.parse {V : Type} : ValueParser V → Bytes → Except Error V
  | .valueEnum d, v =>
    let bad := (Error.withInput .invalidValue v).withContext (possibleValues d.possibleInputsNul)
    match fromUtf8 v with
    | some s =>
      match d.parseValue s with
      | some value => .ok value
      | none => .error bad
    | none => .error (bad.withSource .utf8)
  | .tryFromOsStr f, v =>
    match f v with
    | .ok value => .ok value
    | .error err => .error ((Error.withInput .invalidValue v).withSource (.user err))
  | .fromStr f, v =>
    match fromUtf8 v with
    | some s =>
      match f s with
      | .ok value => .ok value
      | .error err => .error ((Error.withInput .invalidValue v).withSource (.user err))
    | none => .error ((Error.withInput .invalidValue v).withSource .utf8)

end Palc
