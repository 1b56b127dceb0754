import Verif.SpecErr
/-!
# Occurrences with other values

Vocabulary for "only the value is different".
-/

namespace Palc.Spec

variable {V : Type}

/-- `v` is an acceptable value of argument `f`. -/
def ValidValue (f : FieldInfo V) (v : Bytes) : Prop := given f [some v] ≠ none

/-- The same occurrence, or one of the same argument with another value; both values are acceptable. -/
inductive Revalued (st : List (Entry V)) : Event → Event → Prop
  | same (e : Event) : Revalued st e e
  | value {a : Addr} {f : FieldInfo V} {v v' : Bytes} (hf : fieldAt st a = some f) (hv : ValidValue f v) (hv' : ValidValue f v') :
      Revalued st (a, some v) (a, some v')

/-- The same occurrences up to (acceptable) values. -/
inductive AllRevalued (st : List (Entry V)) : List Event → List Event → Prop
  | nil : AllRevalued st [] []
  | cons {e e' : Event} {evs evs' : List Event} (h : Revalued st e e') (t : AllRevalued st evs evs') :
      AllRevalued st (e :: evs) (e' :: evs')

end Palc.Spec
