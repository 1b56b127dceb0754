import Verif.Lemmas.Emit
import Verif.Props.NoPanic
/-!
# The emitted code (C69)
-/

namespace Palc

open Spec Emit

variable {V : Type} {cx : Cx V} {d : ArgsDef V}

/-- C69: the code emitted for every definition accepted by the macros, in which no field has a name used by emitted code,
behaves as the model of the generated functions. -/
theorem C69_refines (hd : DerivedArgs cx d) (hn : NoReserved d) (argv : List Bytes) :
    emittedTryParseFrom d argv = tryParseFrom d argv :=
  emitted_eq (derived_scoped hd hn) argv

/-- C69: in particular it always has a behaviour: no variable is unknown or has a wrong type, no `break` leaves its function,
no `unwrap` fails, no sum overflows and `unreachable_nounwind` is not reached. -/
theorem C69_never_stuck (hd : DerivedArgs cx d) (hn : NoReserved d)
    (hdef : ∀ f s, ArgOf d f → f.src.defaultValue = some s → ValidDefault f s) (argv : List Bytes) :
    emittedTryParseFrom d argv ≠ .error .panic := by
  rw [C69_refines hd hn]
  exact C24_no_panic hd hdef argv

mutual
/-- `NoReserved` can be decided. -/
def decNoReserved : (d : ArgsDef V) → Decidable (NoReserved d)
  | .mk core flats sub =>
    have := decNoReservedFlats flats
    have := decNoReservedSub sub
    decidable_of_iff ((∀ x ∈ stateIdents core flats sub, x ∉ reserved) ∧ NoReservedFlats flats ∧ NoReservedSub sub)
      (by rw [NoReserved])
def decNoReservedFlats : (fl : Flats V) → Decidable (NoReservedFlats fl)
  | .nil => .isTrue (by rw [NoReservedFlats]; trivial)
  | .cons _ d rest =>
    have := decNoReserved d
    have := decNoReservedFlats rest
    decidable_of_iff (NoReserved d ∧ NoReservedFlats rest) (by rw [NoReservedFlats])
def decNoReservedSub : (sub : SubField V) → Decidable (NoReservedSub sub)
  | .none => .isTrue (by rw [NoReservedSub]; trivial)
  | .some _ _ vs =>
    have := decNoReservedVariants vs
    decidable_of_iff (NoReservedVariants vs) (by rw [NoReservedSub])
def decNoReservedVariants : (vs : Variants V) → Decidable (NoReservedVariants vs)
  | .nil => .isTrue (by rw [NoReservedVariants]; trivial)
  | .cons v rest =>
    have := decNoReservedVariant v
    have := decNoReservedVariants rest
    decidable_of_iff (NoReservedVariant v ∧ NoReservedVariants rest) (by rw [NoReservedVariants])
def decNoReservedVariant : (v : Variant V) → Decidable (NoReservedVariant v)
  | .unit _ _ _ => .isTrue (by rw [NoReservedVariant]; trivial)
  | .args _ _ d =>
    have := decNoReserved d
    decidable_of_iff (NoReserved d) (by rw [NoReservedVariant])
end

instance (d : ArgsDef V) : Decidable (NoReserved d) := decNoReserved d

theorem Sample.cli_noReserved : NoReserved Sample.cli := by decide +kernel

/-- The emitted code of the sample, with flattened structs and subcommands. -/
example (args : List String) : emittedTryParseFrom Sample.cli (args.map blit) = Sample.parse args :=
  C69_refines Sample.cli_derived Sample.cli_noReserved _

/-- The checks are executed: run directly, without the theorem. -/
example : (Sample.failure (emittedTryParseFrom Sample.cli ([("app" : String), "-v"].map blit)))
    = Sample.failure (Sample.parse ["app", "-v"]) := by decide +kernel

namespace Sample

/-- A struct with a field called as the parameter of the emitted function. -/
def outDecls : List (FieldDecl Val) := [.arg (lit "__out") (.option string) { long := some (.explicit (lit "out")) }]
/-- A struct with a field called as the variable for the number of arguments. -/
def totalDecls : List (FieldDecl Val) :=
  [.arg (lit "__total_args") .bool { long := some (.explicit (lit "total")), exclusive := true }]

end Sample

/-- C69: the condition on names is needed: the macros accept such fields, but the code emitted for them is wrong (rustc
rejects it). -/
theorem C69_reserved_breaks :
    (deriveArgs Sample.cx none Sample.outDecls = .ok (Sample.get (deriveArgs Sample.cx none Sample.outDecls))
      ∧ Sample.failure (tryParseFrom (Sample.get (deriveArgs Sample.cx none Sample.outDecls)) [blit "app"]) = none
      ∧ Sample.failure (emittedTryParseFrom (Sample.get (deriveArgs Sample.cx none Sample.outDecls)) [blit "app"]) = some .panic)
    ∧ (deriveArgs Sample.cx none Sample.totalDecls = .ok (Sample.get (deriveArgs Sample.cx none Sample.totalDecls))
      ∧ Sample.failure (tryParseFrom (Sample.get (deriveArgs Sample.cx none Sample.totalDecls)) [blit "app"]) = none
      ∧ Sample.failure (emittedTryParseFrom (Sample.get (deriveArgs Sample.cx none Sample.totalDecls)) [blit "app"]) = some .panic) := by
  refine ⟨⟨Sample.get_ok (by decide), ?_, ?_⟩, ⟨Sample.get_ok (by decide), ?_, ?_⟩⟩ <;> decide +kernel

end Palc
