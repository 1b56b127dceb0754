import Verif.Spec
import Verif.SpecInline
/-!
# Which command has which arguments?

Used to say that a command line only uses arguments of an earlier version (C68).
-/

namespace Palc.Spec

variable {V : Type}

/-- `e` is the command of `d` that is entered by the subcommands with these names. -/
inductive CommandAt : ArgsDef V → List Str → ArgsDef V → Prop
  | here {d} : CommandAt d [] d
  | sub {d v ns e} (hv : Selected d v) (h : CommandAt (variantDef v) ns e) : CommandAt d (v.name :: ns) e

/-- The names of the subcommands entered to get to level `l`. -/
def entered (st : List (Entry V)) (l : Nat) : List Str := ((st.reverse.drop 1).take l).map (·.1.name)

/-- The command of `d` with these names has (in its `s`-th struct) a field `ident`. -/
def Has (d : ArgsDef V) (ns : List Str) (s : Nat) (ident : Str) : Prop :=
  ∃ e k f, CommandAt d ns e ∧ argAt e (s, k) = some f ∧ f.ident = ident

end Palc.Spec
