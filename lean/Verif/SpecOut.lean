import Verif.Spec
/-!
# Looking up fields in a parsed value

`outAt stack out a` is the entry (field name and value) of the field at address `a` in the value produced for the
entered commands `stack`.
-/

namespace Palc.Spec

variable {V : Type}

mutual
/-- The entries of the own fields of struct number `s` of a command, given the value of the command. -/
def structAt : ArgsDef V → Nat → Out V → Option (List (Str × Out V))
  | .mk core flats _, s, o =>
    match o with
    | .struct fs =>
      match s with
      | 0 => some (fs.take core.fields.length)
      | s + 1 => flatAt flats s (fs.drop core.fields.length)
    | _ => none
def flatAt : Flats V → Nat → List (Str × Out V) → Option (List (Str × Out V))
  | .nil, _, _ => none
  | .cons _ d rest, s, os =>
    match os with
    | [] => none
    | (_, o) :: os => if s < (structs d).length then structAt d s o else flatAt rest (s - (structs d).length) os
end

/-- The selected variant and its payload, in the value of a command with a subcommand field (the last field). -/
def subAt : Out V → Option (Str × Out V)
  | .struct fs =>
    match fs.getLast? with
    | some (_, .optSub (some (.variant i o))) => some (i, o)
    | some (_, .variant i o) => some (i, o)
    | _ => none
  | _ => none

/-- The value of the innermost command, in the value of the root command. -/
def commandAt : List (Entry V) → Out V → Option (Out V)
  | [], _ => none
  | [_], o => some o
  | _ :: outer, o =>
    match commandAt outer o with
    | some o =>
      match subAt o with
      | some (_, o) => some o
      | none => none
    | none => none

/-- The entry of the field at an address. -/
def outAt : List (Entry V) → Out V → Addr → Option (Str × Out V)
  | [], _, _ => none
  | (i, d) :: outer, o, a =>
    if a.level = outer.length then
      match commandAt ((i, d) :: outer) o with
      | some o =>
        match structAt d a.struct o with
        | some fs => fs[a.field]?
        | none => none
      | none => none
    else outAt outer o a

end Palc.Spec
