import Verif.Derive
/-!
# Structs with changed attributes

What may be changed in the attributes of declared arguments without breaking the users of a command line (C74), and without any
difference for them (C78).
-/

namespace Palc.Spec

variable {V : Type}

/-- The attributes `m'` are those of `m`, some of them relaxed: the argument need not be given any more, excludes, requires or conflicts
with fewer others, need not have its value after '=' or may have values starting with '-'.  Its names, and how its values
are made, are the same.  What is shown in help texts is arbitrary. -/
structure RelaxedArg (m m' : ArgMeta V) : Prop where
  long : m'.long = m.long
  short : m'.short = m.short
  alias : m'.alias = m.alias
  shortAlias : m'.shortAlias = m.shortAlias
  global : m'.global = m.global
  ignoreCase : m'.ignoreCase = m.ignoreCase
  trailingVarArg : m'.trailingVarArg = m.trailingVarArg
  last : m'.last = m.last
  defaultValue : m'.defaultValue = m.defaultValue
  defaultValueT : m'.defaultValueT = m.defaultValueT
  valueDelimiter : m'.valueDelimiter = m.valueDelimiter
  required : m'.required = true → m.required = true
  requireEquals : m'.requireEquals = true → m.requireEquals = true
  hyphen : m.allowHyphenValues = true → m'.allowHyphenValues = true
  negative : m.allowNegativeNumbers = true → m'.allowNegativeNumbers = true ∨ m'.allowHyphenValues = true
  exclusive : m'.exclusive = true → m.exclusive = true
  requires : ∀ x ∈ m'.requires, x ∈ m.requires
  conflictsWith : ∀ x ∈ m'.conflictsWith, x ∈ m.conflictsWith

/-- The same, with arbitrary names, scope and default: an argument with names still has some. -/
structure RelaxedButNames (m m' : ArgMeta V) : Prop where
  named : (m'.long.isSome || m'.short.isSome) = (m.long.isSome || m.short.isSome)
  ignoreCase : m'.ignoreCase = m.ignoreCase
  trailingVarArg : m'.trailingVarArg = m.trailingVarArg
  last : m'.last = m.last
  valueDelimiter : m'.valueDelimiter = m.valueDelimiter
  required : m'.required = true → m.required = true
  requireEquals : m'.requireEquals = true → m.requireEquals = true
  hyphen : m.allowHyphenValues = true → m'.allowHyphenValues = true
  negative : m.allowNegativeNumbers = true → m'.allowNegativeNumbers = true ∨ m'.allowHyphenValues = true
  exclusive : m'.exclusive = true → m.exclusive = true
  requires : ∀ x ∈ m'.requires, x ∈ m.requires
  conflictsWith : ∀ x ∈ m'.conflictsWith, x ∈ m.conflictsWith

mutual
/-- `d'` is derived from the same struct as `d`, with the attributes of arguments changed by `M` (of the argument's identifier
and its attributes before and after), also of flattened structs and of
subcommands.  The attributes of commands (`#[command(..)]`, documentation) are arbitrary. -/
inductive Changed (M : Str → ArgMeta V → ArgMeta V → Prop) (cx : Cx V) : ArgsDef V → ArgsDef V → Prop
  | mk {cm cm' : Option CommandMeta} {ds ds' : List (FieldDecl V)} {d d' : ArgsDef V} (fields : ChangedDecls M cx ds ds')
      (hd : deriveArgs cx cm ds = .ok d) (hd' : deriveArgs cx cm' ds' = .ok d') : Changed M cx d d'
/-- The same for the declared fields. -/
inductive ChangedDecls (M : Str → ArgMeta V → ArgMeta V → Prop) (cx : Cx V) : List (FieldDecl V) → List (FieldDecl V) → Prop
  | nil : ChangedDecls M cx [] []
  | arg {i : Str} {ty : Ty V} {m m' : ArgMeta V} {ds ds' : List (FieldDecl V)} (ha : M i m m') (h : ChangedDecls M cx ds ds') :
      ChangedDecls M cx (.arg i ty m :: ds) (.arg i ty m' :: ds')
  | flatten {i : Str} {d d' : ArgsDef V} {ds ds' : List (FieldDecl V)} (he : Changed M cx d d') (h : ChangedDecls M cx ds ds') :
      ChangedDecls M cx (.flatten i d :: ds) (.flatten i d' :: ds')
  | subcommand {i : Str} {o : Bool} {vs vs' : Variants V} {ds ds' : List (FieldDecl V)} (hv : ChangedVariants M cx vs vs')
      (h : ChangedDecls M cx ds ds') : ChangedDecls M cx (.subcommand i o vs :: ds) (.subcommand i o vs' :: ds')
/-- The same for subcommands. -/
inductive ChangedVariants (M : Str → ArgMeta V → ArgMeta V → Prop) (cx : Cx V) : Variants V → Variants V → Prop
  | nil : ChangedVariants M cx .nil .nil
  | unit {i n : Str} {cm cm' : Option CommandMeta} {vs vs' : Variants V} (h : ChangedVariants M cx vs vs') :
      ChangedVariants M cx (.cons (.unit i n cm) vs) (.cons (.unit i n cm') vs')
  | args {i n : Str} {d d' : ArgsDef V} {vs vs' : Variants V} (hd : Changed M cx d d') (h : ChangedVariants M cx vs vs') :
      ChangedVariants M cx (.cons (.args i n d) vs) (.cons (.args i n d') vs')
end

/-- `d'` is derived from the same struct as `d`, with relaxed attributes of some arguments. -/
abbrev Relaxed (cx : Cx V) : ArgsDef V → ArgsDef V → Prop := Changed (fun _ => RelaxedArg) cx

end Palc.Spec
