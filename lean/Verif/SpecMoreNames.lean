import Verif.SpecRelax
import Verif.Spec
/-!
# Structs whose arguments have more names

What may be changed in the names of declared arguments without breaking the users of a command line (C95).
-/

namespace Palc.Spec

variable {V : Type}

/-- The option names that the attributes `m` give to the argument `i`: the long names (with aliases), the short names (with aliases). -/
def optionNames (cx : Cx V) (i : Str) (m : ArgMeta V) : List Name :=
  (m.alias ++ (match m.long with
    | some .inherit => [cx.kebab i]
    | some (.explicit s) => [s]
    | none => [])).map .long
  ++ (m.shortAlias ++ (match m.short with
    | some .inherit => i.take 1
    | some (.explicit c) => [c]
    | none => [])).map .short

/-- The attributes `m'` give the argument `i` all the names that `m` gives it, and perhaps others; these are new in that they are not
among the `Old` ones, as all names given before are.  Which of its names is the one shown (`long`, `short`) and which are aliases is
arbitrary.  Besides, attributes may be relaxed as for C74. -/
structure MoreNamesArg (cx : Cx V) (Old : Name → Prop) (i : Str) (m m' : ArgMeta V) : Prop extends RelaxedButNames m m' where
  global : m'.global = m.global
  defaultValue : m'.defaultValue = m.defaultValue
  defaultValueT : m'.defaultValueT = m.defaultValueT
  inUse : ∀ n ∈ optionNames cx i m, Old n
  kept : ∀ n ∈ optionNames cx i m, n ∈ optionNames cx i m'
  fresh : ∀ n ∈ optionNames cx i m', n ∈ optionNames cx i m ∨ ¬ Old n

/-- `d'` is derived from the same struct as `d`, some arguments having additional names, which are new to the whole program. -/
def MoreNames (cx : Cx V) (d d' : ArgsDef V) : Prop := ∃ Old : Name → Prop, Changed (MoreNamesArg cx Old) cx d d'

end Palc.Spec
