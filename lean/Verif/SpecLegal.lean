import Verif.WF
import Verif.Lemmas.Levels
/-!
# Which structs are legal

The rules for the fields of a struct with `derive(Args)` or `derive(Parser)`, as a user has to know them.
-/

namespace Palc

open Spec

variable {V : Type}

/-- The names an argument declaration asks for. -/
def requestedNames (cx : Cx V) : FieldDecl V → List Name
  | .arg i _ m =>
    if m.long.isNone && m.short.isNone then []
    else (m.alias ++ (match m.long with
          | some .inherit => [cx.kebab i]
          | some (.explicit s) => [s]
          | none => [])).map .long
      ++ (m.shortAlias ++ (match m.short with
          | some .inherit => i.take 1
          | some (.explicit c) => [c]
          | none => [])).map .short
  | _ => []

namespace Spec

/-- Does the type collect any number of values (`Vec<T>`, `Option<Vec<T>>`)? -/
def Repeats : Ty V → Bool
  | .vec _ => true
  | .option (.vec _) => true
  | _ => false

/-- Does an occurrence carry a value?  Not for `bool`; for `Option<Option<T>>` it is optional. -/
def NeedsValue : Ty V → Bool
  | .bool => false
  | .option (.option _) => false
  | _ => true

/-- The type of one value. -/
def valueType : Ty V → Ty V
  | .option (.option t) => t
  | .option (.vec t) => t
  | .option t => t
  | .vec t => t
  | t => t

/-- The kind of a field type: `bool` is a flag; `Option<Option<T>>` and `Option<Vec<T>>` are taken as a whole; else
`Option<T>` is optional, `Vec<T>` collects values and everything else is one value. -/
inductive KindOf : Ty V → MagicKind → Prop
  | flag : KindOf .bool .bool
  | optOpt {t} : KindOf (.option (.option t)) .optionOption
  | optVec {t} : KindOf (.option (.vec t)) .optionVec
  | opt {t} (h1 : ∀ u, t ≠ .option u) (h2 : ∀ u, t ≠ .vec u) : KindOf (.option t) .option
  | vec {t} : KindOf (.vec t) .vec
  | one {v} : KindOf (.other v) .value

/-- How one value of a type is parsed: by `ValueEnum` if it is implemented, else by `TryFrom<&OsStr>`, else by `FromStr`. -/
inductive ParsesWith (cx : Cx V) : Ty V → ValueParser V → Prop
  | bool : ParsesWith cx .bool (.fromStr cx.boolFromStr)
  | valueEnum {v e} (h : v.valueEnum = some e) : ParsesWith cx (.other v) (.valueEnum e)
  | osStr {v f} (h1 : v.valueEnum = none) (h2 : v.tryFromOsStr = some f) : ParsesWith cx (.other v) (.tryFromOsStr f)
  | str {v f} (h1 : v.valueEnum = none) (h2 : v.tryFromOsStr = none) (h3 : v.fromStr = some f) :
      ParsesWith cx (.other v) (.fromStr f)

/-- Types of which values can be parsed. -/
def Parsable : Ty V → Prop
  | .bool => True
  | .other v => v.valueEnum.isSome = true ∨ v.tryFromOsStr.isSome = true ∨ v.fromStr.isSome = true
  | _ => False

/-- Is a default value of the right type: a flag, one value, an optional value, or several? -/
def DefaultFits : Ty V → DefaultOut V → Prop
  | .bool, .bool _ => True
  | .option (.option _), .opt _ => True
  | .option (.vec _), .many _ => True
  | .option (.vec _), .one _ => False
  | .option (.option _), .one _ => False
  | .option _, .one _ => True
  | .vec _, .many _ => True
  | .other _, .one _ => True
  | _, _ => False

/-- Can `Default::default()` be used?  It gives a single value. -/
def HasDefault (cx : Cx V) : Ty V → Prop
  | .bool => True
  | .other v => v.default.isSome = true
  | .option (.other v) => v.default.isSome = true
  | .option .bool => ∃ v, cx.boolFromStr (lit "false") = .ok v
  | _ => False

/-- The default of a field: `default_value` is text to be parsed, `default_value_t = expr` a value, `default_value_t` alone
the `Default` of the type of one value. -/
inductive DefaultIs (cx : Cx V) (ty : Ty V) (m : ArgMeta V) : Option (DefaultValue V) → Prop
  | none (h1 : m.defaultValue = none) (h2 : m.defaultValueT.isNone = true) : DefaultIs cx ty m none
  | text {s} (h1 : m.defaultValue = some s) (h2 : m.defaultValueT.isNone = true) : DefaultIs cx ty m (some (.parseStr s))
  | expr {v shown} (h1 : m.defaultValue = none) (h2 : m.defaultValueT = some (.explicit (v, shown))) :
      DefaultIs cx ty m (some (.valueExpr v shown))
  | flag (h1 : m.defaultValue = none) (h2 : m.defaultValueT = some .inherit) (h3 : ty = .bool) :
      DefaultIs cx ty m (some (.valueExpr (.bool false) (lit "false")))
  | optBool {v} (h1 : m.defaultValue = none) (h2 : m.defaultValueT = some .inherit) (h3 : ty = .option .bool)
      (h4 : cx.boolFromStr (lit "false") = .ok v) : DefaultIs cx ty m (some (.valueExpr (.one v) (lit "false")))
  | impl {w v shown} (h1 : m.defaultValue = none) (h2 : m.defaultValueT = some .inherit)
      (h3 : ty = .other w ∨ ty = .option (.other w)) (h4 : w.default = some (v, shown)) :
      DefaultIs cx ty m (some (.valueExpr (.one v) shown))

/-- The name shown for the value in the help text. -/
def shownName (cx : Cx V) (ident : Str) (m : ArgMeta V) : Str :=
  match m.valueName with
  | some s => s
  | none => cx.shoutySnake ident

/-- Characters that would break the generated tables. -/
def Control (c : Char) : Prop := c.toNat < 32 ∨ c.toNat = 127

/-- Is the argument an option? -/
def Named (m : ArgMeta V) : Prop := m.long.isSome = true ∨ m.short.isSome = true

/-- Rules for one argument. -/
structure LegalArg (cx : Cx V) (ident : Str) (ty : Ty V) (m : ArgMeta V) : Prop where
  parsable : Parsable (valueType ty)
  valueName : ∀ c ∈ shownName cx ident m, ¬ Control c
  -- defaults
  oneDefault : m.defaultValue = none ∨ m.defaultValueT.isNone = true
  defaultFits : ∀ v shown, m.defaultValueT = some (.explicit (v, shown)) → DefaultFits ty v
  defaultImpl : m.defaultValueT = some .inherit → HasDefault cx ty
  notRequired : m.defaultValue.isSome = true ∨ m.defaultValueT.isSome = true → m.required = false
  -- values
  delimiter : m.valueDelimiter.isSome = true → Repeats ty = true
  oneHyphen : m.allowHyphenValues = false ∨ m.allowNegativeNumbers = false
  hyphen : m.allowHyphenValues = true ∨ m.allowNegativeNumbers = true → NeedsValue ty = true ∧ m.requireEquals = false
  optionalValue : ∀ t, ty = .option (.option t) → m.requireEquals = true
  ignoreCase : m.ignoreCase = true → ty ≠ .bool ∧ ∃ v e, valueType ty = .other v ∧ v.valueEnum = some e ∧ e.noUpperCase = true
  -- options
  longs : ∀ s, Name.long s ∈ requestedNames cx (.arg ident ty m) → s ≠ [] ∧ s.head? ≠ some '-' ∧ '=' ∉ s ∧ ∀ c ∈ s, ¬ Control c
  shorts : ∀ c, Name.short c ∈ requestedNames cx (.arg ident ty m) → c ≠ '-' ∧ c ≠ '=' ∧ ¬ Control c
  named : Named m → m.last = false ∧ m.trailingVarArg = false
  -- positional arguments
  positional : ¬ Named m → m.requireEquals = false ∧ m.global = false ∧ m.ignoreCase = false
    ∧ m.allowHyphenValues = false ∧ m.allowNegativeNumbers = false
  last : ¬ Named m → m.last = true → Repeats ty = true

/-- Positional arguments with a single value, before `--`. -/
def isSinglePos : FieldDecl V → Bool
  | .arg _ ty m => m.long.isNone && m.short.isNone && !m.last && !Repeats ty
  | _ => false

/-- Positional arguments with many values, before `--`. -/
def isManyPos : FieldDecl V → Bool
  | .arg _ ty m => m.long.isNone && m.short.isNone && !m.last && Repeats ty
  | _ => false

/-- Positional arguments after `--`. -/
def isLastPos : FieldDecl V → Bool
  | .arg _ _ m => m.long.isNone && m.short.isNone && m.last
  | _ => false

def isSubDecl : FieldDecl V → Bool
  | .subcommand _ _ _ => true
  | _ => false

/-- The flattened fields. -/
def flattenFields (ds : List (FieldDecl V)) : List (Str × ArgsDef V) :=
  ds.filterMap (fun x => match x with
    | .flatten i d => some (i, d)
    | _ => none)

/-- Rules for the fields of a struct. -/
structure Legal (cx : Cx V) (ds : List (FieldDecl V)) : Prop where
  size : ds.length ≤ 254
  idents : (ds.map FieldDecl.ident).Nodup
  args : ∀ i ty m, FieldDecl.arg i ty m ∈ ds → LegalArg cx i ty m
  names : (ds.flatMap (requestedNames cx)).Nodup
  oneSub : (ds.filter isSubDecl).length ≤ 1
  oneMany : (ds.filter isManyPos).length ≤ 1
  oneLast : (ds.filter isLastPos).length ≤ 1
  -- no positional argument with a single value after one with many
  order : ∀ pre x mid y post, ds = pre ++ x :: mid ++ y :: post → isManyPos x = true → isSinglePos y = false
  -- references to other arguments
  refs : ∀ i ty m, FieldDecl.arg i ty m ∈ ds → ∀ r, r ∈ m.requires ∨ r ∈ m.conflictsWith →
    ∃ ty' m', FieldDecl.arg r ty' m' ∈ ds
  -- flattened structs have options only
  flat : ∀ i d, FieldDecl.flatten i d ∈ ds → (∀ f ∈ (coreOf d).fields, isOption f = true) ∧ subOf d = .none
  exclusive : ∀ i d, FieldDecl.flatten i d ∈ ds → ∀ j ty m, FieldDecl.arg j ty m ∈ ds → m.exclusive = false

end Spec

end Palc
