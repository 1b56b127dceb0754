import Verif.SpecWrite
import Verif.SpecHelp
/-!
# Following the usage line

What is to be typed according to the usage line of a help text (`usageLine`), with given values in place of `<NAME>`.
-/

namespace Palc.Spec

variable {V : Type}

/-- The name by which the usage line calls an option: the long one if there is one. -/
def usageName (cx : Cx V) (f : FieldInfo V) : Option Name :=
  match f.src.long with
  | some .inherit => some (.long (cx.kebab f.ident))
  | some (.explicit s) => some (.long s)
  | none => match f.src.short with
    | some .inherit => f.ident.head?.map .short
    | some (.explicit c) => some (.short c)
    | none => none

/-- What is typed for an option with the values `vs`: `--name=VALUE` if it needs the '=', otherwise `--name VALUE`; a flag, or an
option whose value can be left out, is given by its name. -/
def typedOption (cx : Cx V) (f : FieldInfo V) (vs : List Bytes) : List Bytes :=
  match usageName cx f with
  | none => []
  | some n =>
    if takesValue f then vs.flatMap (fun v => if f.src.requireEquals then [optToken n (some v)] else [optToken n none, v])
    else [optToken n none]

/-- The occurrences that these are meant to be. -/
def typedOccs (f : FieldInfo V) (vs : List Bytes) : List (Option Bytes) :=
  if takesValue f || !isOption f then vs.map some else [none]

/-- The options of a command (own and flattened) in its usage line. -/
def usageOptions (level : Nat) (e : ArgsDef V) : List (Addr × FieldInfo V) :=
  (fieldsAt level e).filter (fun x => isOption x.2 && isRequired x.2 && !x.2.src.hide)

/-- The single positional arguments in the usage line. -/
def usageSingles (e : ArgsDef V) : List (FieldInfo V × Nat) := (singles e).filter (fun x => isRequired x.1 && !x.1.src.hide)

/-- The positional list in the usage line. -/
def usageMany (e : ArgsDef V) : List (FieldInfo V × Nat) := (varArg e).toList.filter (fun x => !x.1.src.hide)

/-- The list after `--` in the usage line. -/
def usageLast (e : ArgsDef V) : List (FieldInfo V × Nat) := (lastArg e).toList.filter (fun x => !x.1.src.hide)

/-- What is typed for the options, with `val` for the values of the arguments. -/
def typedOptions (cx : Cx V) (level : Nat) (e : ArgsDef V) (val : Addr → List Bytes) : List Bytes :=
  (usageOptions level e).flatMap (fun x => typedOption cx x.2 (val x.1))

/-- What is typed for the positional arguments: the values in order. -/
def typedArgs (level : Nat) (e : ArgsDef V) (val : Addr → List Bytes) : List Bytes :=
  (usageSingles e ++ usageMany e).flatMap (fun x => val ⟨level, 0, x.2⟩)

/-- What is typed for the last list: `--` and the values, nothing if there are none. -/
def typedLast (level : Nat) (e : ArgsDef V) (val : Addr → List Bytes) : List Bytes :=
  (usageLast e).flatMap (fun x => if val ⟨level, 0, x.2⟩ = [] then [] else [dash, dash] :: val ⟨level, 0, x.2⟩)

/-- What is typed after the name of the command. -/
def usageArgs (cx : Cx V) (level : Nat) (e : ArgsDef V) (val : Addr → List Bytes) : List Bytes :=
  typedOptions cx level e val ++ typedArgs level e val ++ typedLast level e val

/-- The arguments in the usage line with their occurrences. -/
def usageItems (level : Nat) (e : ArgsDef V) (val : Addr → List Bytes) : List (Addr × List (Option Bytes)) :=
  (usageOptions level e).map (fun x => (x.1, typedOccs x.2 (val x.1)))
    ++ (usageSingles e ++ usageMany e ++ usageLast e).map (fun x => (⟨level, 0, x.2⟩, (val ⟨level, 0, x.2⟩).map some))

/-- All occurrences in order. -/
def usageEvents (level : Nat) (e : ArgsDef V) (val : Addr → List Bytes) : List Event :=
  (usageItems level e val).flatMap (fun x => x.2.map (fun o => (x.1, o)))

/-- The usage line of `e` can be typed with the values `val`. -/
structure Typable (cx : Cx V) (level : Nat) (e : ArgsDef V) (val : Addr → List Bytes) : Prop where
  /-- The name of an option is not also the name of another argument of the command. -/
  unique : ∀ x ∈ usageOptions level e, ∃ n, usageName cx x.2 = some n ∧ ∀ y ∈ fieldsAt level e, declares cx y.2 n = true → y.1 = x.1
  /-- Values typed after the name of an option can be arguments of their own. -/
  option : ∀ x ∈ usageOptions level e, x.2.src.requireEquals = false → ∀ v ∈ val x.1, Standalone x.2 v
  /-- One value for a single positional argument. -/
  single : ∀ x ∈ usageSingles e, (val ⟨level, 0, x.2⟩).length = 1
  /-- Values of positional arguments are neither options nor subcommands. -/
  plain : ∀ x ∈ usageSingles e ++ usageMany e, ∀ v ∈ val ⟨level, 0, x.2⟩, Plain v ∧ ∀ w ∈ subVariants e, enc w.name ≠ v
  /-- Required positional arguments come before those not shown in the usage line: optional ones. -/
  order : usageSingles e <+: singles e
  /-- If the list is given there are no such arguments. -/
  many : ∀ x ∈ usageMany e, val ⟨level, 0, x.2⟩ ≠ [] → usageSingles e = singles e
  /-- No single argument is declared with `trailing_var_arg`. -/
  trailing : ∀ x ∈ usageSingles e, x.1.src.trailingVarArg = false
  /-- Nothing follows a list with `trailing_var_arg`. -/
  last : ∀ x ∈ usageMany e, x.1.src.trailingVarArg = true → val ⟨level, 0, x.2⟩ ≠ [] → ∀ y ∈ usageLast e, val ⟨level, 0, y.2⟩ = []

/-- Is the argument in the usage line? -/
def Listed (f : FieldInfo V) : Prop := f.src.hide = false ∧ (isRequired f = true ∨ isOption f = false ∧ isMulti f = true)

/-- The arguments in the usage line can be given together, and nothing more is needed. -/
structure Sufficient (level : Nat) (e : ArgsDef V) (val : Addr → List Bytes) : Prop where
  /-- Nothing required is hidden, and required arguments get values. -/
  required : ∀ x ∈ fieldsAt level e, isRequired x.2 = true → x.2.src.hide = false ∧ val x.1 ≠ []
  /-- The values are values of the arguments. -/
  values : ∀ x ∈ fieldsAt level e, Listed x.2 → given x.2 (typedOccs x.2 (val x.1)) ≠ none
  /-- Only required arguments are required by others in the usage line. -/
  requires : ∀ c ∈ structs e, ∀ f ∈ c.fields, Listed f → ∀ g ∈ c.fields, g.ident ∈ f.src.requires → isRequired g = true
  /-- They do not conflict. -/
  conflicts : ∀ c ∈ structs e, ∀ f ∈ c.fields, Listed f → ∀ g ∈ c.fields, Listed g → g.ident ∉ f.src.conflictsWith
  /-- None is exclusive. -/
  exclusive : ∀ c ∈ structs e, ∀ f ∈ c.fields, Listed f → f.src.exclusive = false
  /-- No subcommand is required. -/
  subcommand : subRequired e = false

/-- What the usage line shows in place of the value. -/
def placeholder (cx : Cx V) (f : FieldInfo V) : Str :=
  if isOption f then lit "<" ++ valueName cx f ++ lit ">" else positionalLabel cx f

end Palc.Spec
