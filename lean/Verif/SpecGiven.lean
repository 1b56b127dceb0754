import Verif.SpecRelax
/-!
# Structs with other defaults

What the defaults of arguments are relevant for (C97).
-/

namespace Palc.Spec

variable {V : Type}

/-- The attributes `m'` are those of `m`, except that arguments with an identifier in `S` may have any other default, or none. -/
structure OtherDefaultArg (S : Str → Prop) (i : Str) (m m' : ArgMeta V) : Prop where
  same : m' = { m with defaultValue := m'.defaultValue, defaultValueT := m'.defaultValueT }
  only : S i ∨ (m'.defaultValue = m.defaultValue ∧ m'.defaultValueT = m.defaultValueT)

/-- `d'` is derived from the same struct as `d`, except for the defaults of arguments with identifiers in `S`. -/
abbrev OtherDefaults (cx : Cx V) (S : Str → Prop) : ArgsDef V → ArgsDef V → Prop := Changed (OtherDefaultArg S) cx

end Palc.Spec
