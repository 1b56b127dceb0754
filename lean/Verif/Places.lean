import Verif.Values
/-!
# Argument places (`src/runtime.rs` 301-463)
-/

namespace Palc

variable {V : Type}

/-- The implementors of `Parsable`: `FlagPlace`, `VecPlace`, `VecDelimitedPlace`, `SetValuePlace`,
`SetOptionalValuePlace` (`src/runtime.rs` 343, 373, 394, 419, 446). -/
inductive Place (V : Type)
  | flag (v : Option Bool)
  | vec (v : Option (List V)) (p : ValueParser V)
  | vecDelim (v : Option (List V)) (delim : Char) (p : ValueParser V)
  | set (v : Option V) (p : ValueParser V)
  | setOpt (v : Option (Option V)) (p : ValueParser V)

/-- The value of a `default_value_t` expression, by the `Parsable::Output` type it must have. -/
inductive DefaultOut (V : Type)
  | bool (b : Bool)
  | one (v : V)
  | opt (v : Option V)
  | many (vs : List V)

namespace Place

/-- The loop `for frag in .. { v.push(P::parse(frag)?) }`, `src/runtime.rs` 401-403. -/
def pushAll (p : ValueParser V) : List V → List Bytes → Except Error (List V)
  | v, [] => .ok v
  | v, frag :: frags =>
    match p.parse frag with
    | .ok x => pushAll p (v ++ [x]) frags
    | .error e => .error e

/-- `Parsable::parse_from`: `src/runtime.rs` 349-358 (flag), 378-382 (vec), 399-405 (delimited),
423-429 (set), 450-456 (optional value).  After an error the place is never read again, so no
updated place is returned in that case. -/
def parseFrom : Place V → Option Bytes → Except Error (Place V)
  | flag s, value =>
    match value with
    | some v => .error (Error.withInput .unexpectedInlineValue v)
    | none => if s.isSome then .error (Error.new .duplicatedNamedArgument) else .ok (flag (some true))
  | vec s p, value =>
    match p.parse (value.getD []) with
    | .ok x => .ok (vec (some (s.getD [] ++ [x])) p)
    | .error e => .error e
  | vecDelim s d p, value =>
    match pushAll p (s.getD []) (splitOn d (value.getD [])) with
    | .ok xs => .ok (vecDelim (some xs) d p)
    | .error e => .error e
  | set s p, value =>
    if s.isSome then .error (Error.new .duplicatedNamedArgument)
    else match p.parse (value.getD []) with
      | .ok x => .ok (set (some x) p)
      | .error e => .error e
  | setOpt s p, value =>
    if s.isSome then .error (Error.new .duplicatedNamedArgument)
    else match value with
      | some v =>
        match p.parse v with
        | .ok x => .ok (setOpt (some (some x)) p)
        | .error e => .error e
      | none => .ok (setOpt (some none) p)

/-- `Parsable::is_set` (and `.0.is_some()` in generated code). -/
def isSet : Place V → Bool
  | flag s => s.isSome
  | vec s _ => s.isSome
  | vecDelim s _ _ => s.isSome
  | set s _ => s.isSome
  | setOpt s _ => s.isSome

/-- `Parsable::set_default`, `src/runtime.rs` 363-367, 386-390, 409-413, 433-437, 460-462 (the last
one is unconditional).  A default of the wrong type is a rustc error, represented by a panic. -/
def setDefault : Place V → DefaultOut V → R (Place V)
  | flag s, .bool b => .ok (flag (if s.isSome then s else some b))
  | vec s p, .many vs => .ok (vec (if s.isSome then s else some vs) p)
  | vecDelim s d p, .many vs => .ok (vecDelim (if s.isSome then s else some vs) d p)
  | set s p, .one v => .ok (set (if s.isSome then s else some v) p)
  | setOpt _ p, .opt v => .ok (setOpt (some v) p)
  | _, _ => panicR

/-- `Parsable::set_default_parse`, `src/runtime.rs` 322-335; an invalid default panics (`expect`). -/
def setDefaultParse (pl : Place V) (default : Str) : R (Place V) :=
  if pl.isSet then .ok pl
  else match pl.parseFrom (some (enc default)) with
    | .ok pl' => .ok pl'
    | .error _ => panicR

end Place
end Palc
