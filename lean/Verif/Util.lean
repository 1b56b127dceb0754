import Verif.Bytes
/-!
# `src/util.rs`
-/

namespace Palc

/-- `split_once(s, b)` for an ASCII byte, `src/util.rs` 75-79: `str::split_once(char)`. -/
def splitOnceC (c : Char) : Str → Option (Str × Str)
  | [] => none
  | x :: xs =>
    if x = c then some ([], xs)
    else match splitOnceC c xs with
      | some (l, r) => some (x :: l, r)
      | none => none

/-- Iteration of `split_terminator`, `src/util.rs` 81-88. Each step removes at least one character,
so `fuel = length` suffices. -/
def splitTermGo (c : Char) : Nat → Str → List Str
  | 0, _ => []
  | fuel + 1, s =>
    match splitOnceC c s with
    | some (l, r) => l :: splitTermGo c fuel r
    | none => []

/-- `split_terminator(s, b)`, `src/util.rs` 81-88. -/
def splitTerminator (c : Char) (s : Str) : List Str := splitTermGo c (s.length + 1) s

/-- NUL. -/
def nul : Char := Char.ofNat 0

/-- A list of names packed into one NUL-terminated string, e.g. `derive_args.rs` 870-871,
`derive_subcommand.rs` 137, `derive_value_enum.rs` 95-96: `flat_map(|v| [v, "\0"]).collect()`. -/
def packNul (xs : List Str) : Str := xs.flatMap (fun x => x ++ [nul])

/-- `const_concat_len`, `src/util.rs` 46-55 (accumulator loop over indices as a fold). -/
def constConcatLen (strs : List Bytes) : Nat := strs.foldl (fun ret s => ret + s.length) 0

/-- Loop of `const_concat_impl`, `src/util.rs` 57-71: `done` is the part of the buffer before `out`,
`out` the rest; `split_at_mut` panics (`none`) when the string does not fit. -/
def constConcatGo : Bytes → Bytes → List Bytes → Option Bytes
  | done, out, [] => some (done ++ out)
  | done, out, s :: ss =>
    if s.length ≤ out.length then constConcatGo (done ++ s) (out.drop s.length) ss else none

/-- `const_concat_impl::<LEN>`, `src/util.rs` 57-71. -/
def constConcatImpl (len : Nat) (strs : List Bytes) : Option Bytes :=
  constConcatGo [] (List.replicate len 0xFF) strs

/-- `__const_concat!`, `src/util.rs` 21-44 (the general arm): `none` stands for the compile-time
panic of `const_concat_impl` or the `unreachable!` arm. -/
def constConcat (strs : List Str) : Option Str :=
  let bs := strs.map enc
  match constConcatImpl (constConcatLen bs) bs with
  | some out => fromUtf8 out
  | none => none

end Palc
