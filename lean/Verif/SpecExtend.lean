import Verif.SpecInline
/-!
# Definitions extended by further arguments and subcommands

When is a definition `d'` an extension of `d`: the same arguments and subcommands, and more that nobody has to use?
Used to say that extending a command line interface does not break its users (C66).
-/

namespace Palc.Spec

variable {V : Type}

/-- `f` can be left out: it is not required, and there is a value for it. -/
structure Omissible (f : FieldInfo V) : Prop where
  optional : isRequired f = false
  value : fieldOut f [] ≠ none

/-- The command `d'` declares all arguments of `d`; `φ` maps positions in `d` to positions in `d'`.  The names `G` are taken by
global arguments of enclosing commands. -/
structure KeepsArgs (cx : Cx V) (G : Name → Prop) (d d' : ArgsDef V) (φ : Pos → Pos) : Prop where
  to : ∀ p f, argAt d p = some f → ∃ f', argAt d' (φ p) = some f' ∧ withoutIndex f' = withoutIndex f
  inj : ∀ p q f g, argAt d p = some f → argAt d q = some g → φ p = φ q → p = q
  struct : ∀ p f, argAt d p = some f → (φ p).1 = p.1
  /-- If several arguments have the same name, their order is kept. -/
  order : ∀ p q f g n, argAt d p = some f → argAt d q = some g → declares cx f n = true → declares cx g n = true →
    Earlier p q → Earlier (φ p) (φ q)
  /-- Further arguments can be left out, and take away no name. -/
  added : ∀ q f', argAt d' q = some f' → (∃ p f, argAt d p = some f ∧ φ p = q) ∨
    (Omissible f' ∧ ∀ n, declares cx f' n = true → ¬ G n ∧ ∀ p f, argAt d p = some f → declares cx f n = false)
  /-- The positional arguments come first, in the same order; `--` is followed by the same. -/
  target : ∀ k x, posTarget d k = some x → ∃ y, posTarget d' k = some y ∧ withoutIndex y.1 = withoutIndex x.1 ∧ φ (0, x.2) = (0, y.2)
  last : ∀ x, lastArg d = some x → ∃ y, lastArg d' = some y ∧ withoutIndex y.1 = withoutIndex x.1 ∧ φ (0, x.2) = (0, y.2)
  noLast : lastArg d = none → lastArg d' = none

/-- `d'` extends `d`.  Subcommands may have been added too, if their names are not in `T` (the arguments of interest). -/
inductive Extends (cx : Cx V) (T : Bytes → Prop) : (Name → Prop) → ArgsDef V → ArgsDef V → (Pos → Pos) → Prop
  | mk {G d d' φ} (args : KeepsArgs cx G d d' φ) (required : subRequired d' = true → subRequired d = true)
      (C : Variant V → Variant V) (Φ : Variant V → Pos → Pos)
      (kept : ∀ v, Selected d v → Selected d' (C v) ∧ (C v).name = v.name ∧ variantIdent (C v) = variantIdent v)
      (added : ∀ v' ∈ subVariants d', T (enc v'.name) → ∃ v ∈ subVariants d, v.name = v'.name)
      (subs : ∀ v, Selected d v → Extends cx T
        (fun n => G n ∨ ∃ p f, argAt d p = some f ∧ f.src.global = true ∧ declares cx f n = true) (variantDef v) (variantDef (C v)) (Φ v)) :
      Extends cx T G d d' φ

end Palc.Spec
