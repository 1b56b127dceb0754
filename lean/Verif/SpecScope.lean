import Verif.SpecMoreNames
/-!
# Structs some of whose options have become global

Which options may be made global (`#[arg(global = true)]`) without breaking the users of a command line (C96).
-/

namespace Palc.Spec

variable {V : Type}

/-- The attributes `m'` are those of `m`, but the argument may have become global.  If it has, its names are not among the `Reserved`
ones, as those of all arguments are which were global before. -/
structure MadeGlobalArg (cx : Cx V) (Reserved : Name → Prop) (i : Str) (m m' : ArgMeta V) : Prop where
  same : m' = { m with global := m'.global }
  kept : m.global = true → m'.global = true ∧ ∀ n ∈ optionNames cx i m, Reserved n
  apart : m.global = false → m'.global = true → ∀ n ∈ optionNames cx i m, ¬ Reserved n

/-- `d'` is derived from the same struct as `d`, where some more options are global, which have no name in common with those that were
global. -/
def MadeGlobal (cx : Cx V) (d d' : ArgsDef V) : Prop := ∃ Reserved : Name → Prop, Changed (MadeGlobalArg cx Reserved) cx d d'

end Palc.Spec
