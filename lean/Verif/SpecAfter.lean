import Verif.SpecErr
import Verif.Lemmas.Kinds
/-!
# What a parse does after a prefix of its arguments

Vocabulary for statements that tie what is on the command line to what `tryParseFrom` does.
-/

namespace Palc

open Spec

variable {V : Type}

/-- The result `out` is what the occurrences `evs` of the entered commands `stack` are worth: every argument of every
entered command has the value its own occurrences give it, and every command has selected the command entered in it. -/
structure Explains (stack : List (Entry V)) (evs : List Event) (out : Out V) : Prop where
  values : ∀ (a : Addr) (f : FieldInfo V), fieldAt stack a = some f →
    ∃ w, fieldOut f (occs evs a) = some w ∧ outAt stack out a = some (f.ident, .field w)
  entered : ∀ (inner : List (Entry V)) (i : CmdId) (e : ArgsDef V) (x : Entry V) (outer : List (Entry V)),
    stack = inner ++ (i, e) :: x :: outer →
    ∃ o o', commandAt (x :: outer) out = some o ∧ subAt o = some (i.ident, o')

/-- After the arguments `pre` the parser has seen the occurrences `evs` and goes on from context `κ`: whatever arguments
follow, its result and its errors are those of continuing from there. -/
structure After (cx : Cx V) (d : ArgsDef V) (argv0 : Bytes) (pre : List Bytes) (evs : List Event) (κ : Ctx V) : Prop where
  reads : Reads cx (start argv0 d) pre evs κ
  /-- A result comes from the occurrences so far and those of a reading of the rest. -/
  ok : ∀ (ts : List Bytes) (out : Out V), tryParseFrom d (argv0 :: pre ++ ts) = .ok out →
    ∃ E κ', Reads cx κ ts E κ' ∧ Explains κ'.stack (evs ++ E) out
  /-- If the rest can be read, the parser fails because of values or constraints only. -/
  error : ∀ (ts : List Bytes) (E : List Event) (κ' : Ctx V) (e : Error), Reads cx κ ts E κ' →
    tryParseFrom d (argv0 :: pre ++ ts) = .error (.error e) → e.kind.ofValue = true ∨ e.kind.ofConstraint = true
  /-- If the rest cannot be read, the parser fails: with the error about that if the values are acceptable. -/
  halts : ∀ (ts : List Bytes) (E : List Event) (κ' : Ctx V) (e : Error), Halts cx κ ts E κ' e →
    ∃ e', tryParseFrom d (argv0 :: pre ++ ts) = .error (.error e') ∧ (e' = e ∨ e'.kind.ofValue = true)
      ∧ (Acceptable κ'.stack (evs ++ E) → e' = e)

end Palc
