import Verif.SpecErr
/-!
# Definitions declaring the same arguments in different places

When are two definitions the same up to where in a command (in which struct, at which position) each argument is
declared?  Used to say that `command(flatten)` is the same as writing the arguments in place (C16).
-/

namespace Palc.Spec

variable {V : Type}

/-- An argument without the indexes of itself and of the arguments it refers to (these depend on what else is declared). -/
def withoutIndex (f : FieldInfo V) : FieldInfo V := { f with attrs := 0#32, dependenciesIdx := none, conflictsIdx := none }

/-- Position of an argument within a command: struct (in the order of `structs`) and field. -/
abbrev Pos := Nat × Nat

/-- The argument at a position. -/
def argAt (d : ArgsDef V) (p : Pos) : Option (FieldInfo V) :=
  match (structs d)[p.1]? with
  | some c => c.fields[p.2]?
  | none => none

/-- Order of declaration: the struct itself before its flattened structs. -/
def Earlier (p q : Pos) : Prop := p.1 < q.1 ∨ (p.1 = q.1 ∧ p.2 < q.2)

/-- The positional arguments of a command with their indexes. -/
def positionals (d : ArgsDef V) : List (FieldInfo V × Nat) := (coreOf d).fields.zipIdx.filter (fun x => !isOption x.1)

/-- The commands `d` and `d'` declare the same arguments: `φ` maps positions in `d` to positions in `d'`, `ψ` back. -/
structure SameArgs (cx : Cx V) (d d' : ArgsDef V) (φ ψ : Pos → Pos) : Prop where
  to : ∀ p f, argAt d p = some f → ∃ f', argAt d' (φ p) = some f' ∧ withoutIndex f' = withoutIndex f
  back : ∀ p f, argAt d' p = some f → ∃ f', argAt d (ψ p) = some f' ∧ withoutIndex f' = withoutIndex f
  left : ∀ p f, argAt d p = some f → ψ (φ p) = p
  right : ∀ p f, argAt d' p = some f → φ (ψ p) = p
  /-- If several arguments have the same name, their order is kept. -/
  order : ∀ p q f g n, argAt d p = some f → argAt d q = some g → declares cx f n = true → declares cx g n = true →
    Earlier p q → Earlier (φ p) (φ q)
  /-- The positional arguments are the same, in the same order. -/
  main : ∀ x ∈ positionals d, (φ (0, x.2)).1 = 0
  positionals : (positionals d').map (fun x => (withoutIndex x.1, x.2))
    = (positionals d).map (fun x => (withoutIndex x.1, (φ (0, x.2)).2))

/-- Constraints of `d` are constraints of `d'`: arguments of one struct stay together, so that `requires` and
`conflicts_with` refer to the same arguments, and an `exclusive` argument excludes the same ones. -/
structure SameConstraints (d : ArgsDef V) (φ : Pos → Pos) : Prop where
  together : ∀ p q f g, argAt d p = some f → argAt d q = some g → p.1 = q.1 → (φ p).1 = (φ q).1
  exclusive : ∀ p f, argAt d p = some f → f.src.exclusive = true →
    (∀ q g, argAt d q = some g → (φ p).1 = (φ q).1 → p.1 = q.1) ∧ ((φ p).1 = 0 ↔ p.1 = 0)

/-- Same arguments and same constraints. -/
def SameCommand (cx : Cx V) (d d' : ArgsDef V) (φ ψ : Pos → Pos) : Prop := SameArgs cx d d' φ ψ ∧ SameConstraints d φ

/-- Two commands declare the same arguments (in the sense of `R`) and the same subcommands, which again are the same. -/
inductive Same (R : ArgsDef V → ArgsDef V → (Pos → Pos) → (Pos → Pos) → Prop) :
    ArgsDef V → ArgsDef V → (Pos → Pos) → (Pos → Pos) → Prop
  | mk {d d' φ ψ} (args : R d d' φ ψ) (required : subRequired d = subRequired d')
      (names : (subVariants d).map Variant.name = (subVariants d').map Variant.name)
      (idents : (subVariants d).map variantIdent = (subVariants d').map variantIdent)
      (Φ Ψ : Nat → Pos → Pos)
      (subs : ∀ (i : Nat) (v v' : Variant V), (subVariants d)[i]? = some v → (subVariants d')[i]? = some v' →
        Same R (variantDef v) (variantDef v') (Φ i) (Ψ i)) :
      Same R d d' φ ψ

/-- Position of an argument in the other definition, when commands have been entered; `μ` gives the map for each level. -/
def moved (μ : Nat → Pos → Pos) (a : Addr) : Addr := ⟨a.level, (μ a.level (a.struct, a.field)).1, (μ a.level (a.struct, a.field)).2⟩

/-- An occurrence, in the other definition. -/
def movedEvent (μ : Nat → Pos → Pos) (e : Event) : Event := (moved μ e.1, e.2)

/-- The same commands have been entered. -/
inductive SameStack (R : ArgsDef V → ArgsDef V → (Pos → Pos) → (Pos → Pos) → Prop) (μ ν : Nat → Pos → Pos) :
    List (Entry V) → List (Entry V) → Prop
  | nil : SameStack R μ ν [] []
  | cons {i d d' st st'} (h : SameStack R μ ν st st') (hd : Same R d d' (μ st.length) (ν st.length)) :
      SameStack R μ ν ((i, d) :: st) ((i, d') :: st')

end Palc.Spec
