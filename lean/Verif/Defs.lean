import Verif.Runtime
/-!
# Definitions handled by the derive macros

The data structures of `derive/src/derive_args.rs` and `derive/src/common.rs` that describe an
argument struct, and trees of such definitions (a struct with its flattened structs and its
subcommand enum).
-/

namespace Palc

variable {V : Type}

/-- `enum Override<T>`, `derive/src/common.rs` 484-487. -/
inductive Override (α : Type)
  | inherit
  | explicit (a : α)

/-- `enum MagicKind`, `derive/src/derive_args.rs` 197-205. -/
inductive MagicKind
  | bool | value | option | optionOption | vec | optionVec
  deriving DecidableEq, Repr

/-- `MagicKind::require_value`, `derive_args.rs` 229-234. -/
def MagicKind.requireValue : MagicKind → Bool
  | .value | .option | .vec | .optionVec => true
  | .bool | .optionOption => false

/-- `MagicKind::accepts_multiple_values`, `derive_args.rs` 236-241. -/
def MagicKind.acceptsMultipleValues : MagicKind → Bool
  | .vec | .optionVec => true
  | .bool | .value | .option | .optionOption => false

/-- `struct ArgMeta`, `derive/src/common.rs` 122-166: the parsed `arg(..)` attributes of a field.
`default_value_t = e` is represented by the value of `e` and its `Display` text.  `value_enum`, `help`
and `long_help` are accepted but not used anywhere. -/
structure ArgMeta (V : Type) where
  doc : Str := []
  long : Option (Override Str) := none
  short : Option (Override Char) := none
  alias : List Str := []
  shortAlias : List Char := []
  valueName : Option Str := none
  requireEquals : Bool := false
  global : Bool := false
  allowHyphenValues : Bool := false
  allowNegativeNumbers : Bool := false
  ignoreCase : Bool := false
  trailingVarArg : Bool := false
  last : Bool := false
  defaultValue : Option Str := none
  defaultValueT : Option (Override (DefaultOut V × Str)) := none
  valueDelimiter : Option Char := none
  valueEnum : Bool := false
  help : Option Str := none
  longHelp : Option Str := none
  hide : Bool := false
  required : Bool := false
  exclusive : Bool := false
  requires : List Str := []
  conflictsWith : List Str := []

/-- `ArgMeta::is_named`, `derive/src/common.rs` 169-171. -/
def ArgMeta.isNamed (m : ArgMeta V) : Bool := m.long.isSome || m.short.isSome

/-- `enum DefaultValue`, `derive_args.rs` 192-195, with the `Display` text of an expression default
as shown in help (1060-1089). -/
inductive DefaultValue (V : Type)
  | parseStr (s : Str)
  | valueExpr (v : DefaultOut V) (shown : Str)

/-- `struct FieldInfo`, `derive_args.rs` 118-149. `parser` stands for `value_ty` (the parser inferred
for it); `src` is a ghost copy of the attributes the field was declared with, used only to state
properties. -/
structure FieldInfo (V : Type) where
  ident : Str
  kind : MagicKind
  parser : ValueParser V
  valueDelimiter : Option Char
  encNames : List Str
  attrs : ArgAttrs
  required : Bool
  defaultValue : Option (DefaultValue V)
  exclusive : Bool
  dependencies : List Str
  conflicts : List Str
  dependenciesIdx : Option (List Nat) := none
  conflictsIdx : Option (List Nat) := none
  description : Str
  doc : Str
  hide : Bool
  src : ArgMeta V

/-- `struct CommandMeta`, `derive/src/common.rs` 262-271. `version`, `longAbout` and `afterLongHelp` are the
values of the expressions (`Inherit` for `longAbout` evaluates to `env!("CARGO_PKG_DESCRIPTION")`).  `name`
and `version` are accepted but not used anywhere. -/
structure CommandMeta where
  doc : Str := []
  name : Option Str := none
  version : Option (Override Str) := none
  longAbout : Option Str := none
  afterLongHelp : Option Str := none

/-- The non-recursive part of `struct ArgsParse`, `derive_args.rs` 86-106. -/
structure Core (V : Type) where
  fields : List (FieldInfo V)
  namedCnt : Nat
  cmdMeta : Option CommandMeta

mutual
/-- `struct ArgsParse`, `derive_args.rs` 86-106, with the definitions of the flattened and subcommand
types in place of their names. -/
inductive ArgsDef (V : Type)
  | mk (core : Core V) (flats : Flats V) (sub : SubField V)
/-- `flatten_fields`, `derive_args.rs` 101, 252-255. -/
inductive Flats (V : Type)
  | nil
  | cons (ident : Str) (d : ArgsDef V) (rest : Flats V)
/-- `subcommand`, `derive_args.rs` 103, 245-249. -/
inductive SubField (V : Type)
  | none
  | some (ident : Str) (optional : Bool) (vs : Variants V)
/-- `SubcommandImpl::variants`, `derive/src/derive_subcommand.rs` 45-49. -/
inductive Variants (V : Type)
  | nil
  | cons (v : Variant V) (rest : Variants V)
/-- `struct Variant`, `derive_subcommand.rs` 51-62: `name` is `arg_str`; newtype and struct variants
both carry an argument struct. -/
inductive Variant (V : Type)
  | unit (ident name : Str) (cmeta : Option CommandMeta)
  | args (ident name : Str) (d : ArgsDef V)
end

/-- Insertion into a list sorted by `key` (after elements with an equal key). -/
def insertByKey {α : Type} (key : α → Bytes) (x : α) : List α → List α
  | [] => [x]
  | y :: ys => if cmpBytes (key x) (key y) = .lt then x :: y :: ys else y :: insertByKey key x ys

/-- `slice::sort_by_key` / `sort_by` (std, stable), by key bytes. Implemented as insertion sort: a
stable sort is determined by its result. -/
def sortByKey {α : Type} (key : α → Bytes) (xs : List α) : List α :=
  xs.foldl (fun acc x => insertByKey key x acc) []

namespace Core

/-- Named part of `direct_fields`, `derive_args.rs` 872-873. -/
def named (c : Core V) : List (FieldInfo V) := c.fields.take c.namedCnt
/-- Positional part of `direct_fields`, `derive_args.rs` 872-873. -/
def positional (c : Core V) : List (FieldInfo V) := c.fields.drop c.namedCnt

/-- `named_map`, `derive_args.rs` 875-881. -/
def namedMap (c : Core V) : List (Str × ArgAttrs) :=
  sortByKey (fun e => enc e.1) (c.named.flatMap (fun f => f.encNames.map (fun s => (s, f.attrs))))

/-- `descs`, `derive_args.rs` 870-871. -/
def descs (c : Core V) : Str := packNul (c.fields.map (·.description))

/-- `has_optional_named`, `derive_args.rs` 892. -/
def hasOptionalNamed (c : Core V) : Bool := c.named.any (fun f => !f.required && !f.hide)

end Core

/-- `maybe_push_usage_for`, `derive_args.rs` 1094-1103. -/
def usageFor (f : FieldInfo V) : Str :=
  ' ' :: (match f.description with
    | '-' :: c :: ',' :: _ => if c ≠ '-' ∧ c.toNat < 128 then f.description.drop 4 else f.description
    | _ => f.description)

/-- `maybe_push_help_for`, `derive_args.rs` 1045-1092. -/
def helpFor (f : FieldInfo V) : Str :=
  lit "  " ++ (match f.description with
      | '-' :: '-' :: _ => lit "    "
      | _ => [])
    ++ f.description ++ ['\n']
    ++ (if f.doc = [] then [] else lit "          " ++ f.doc ++ ['\n'])
    ++ (match f.defaultValue with
        | some (.parseStr s) => lit "          [default: " ++ s ++ lit "]\n"
        | some (.valueExpr _ shown) => lit "          [default: " ++ shown ++ lit "]\n"
        | none => [])
    ++ ['\n']

/-- The usage of one visible field, `derive_args.rs` 942-956. -/
def fieldUsage (f : FieldInfo V) : Str :=
  let isLast := f.attrs.contains ArgAttrs.LAST
  (if isLast then (if f.required then lit " --" else lit " [--") else [])
    ++ (if f.required || f.attrs.contains ArgAttrs.VAR_ARG || isLast then usageFor f else [])
    ++ (if isLast && !f.required then [']'] else [])

/-- The loop `derive_args.rs` 932-957 for a list of fields. -/
def usageOf (fs : List (FieldInfo V)) : Str :=
  (fs.filter (fun f => !f.hide)).flatMap fieldUsage

/-- The loop `derive_args.rs` 932-957 for a list of fields. -/
def helpOf (fs : List (FieldInfo V)) : Str :=
  (fs.filter (fun f => !f.hide)).flatMap helpFor

/-- About text, `derive_args.rs` 985-990. -/
def aboutOf : Option CommandMeta → Str
  | some m => match m.longAbout with
    | some e => e
    | none => m.doc
  | none => []

/-- After-help text, `derive_args.rs` 992-994. -/
def afterOf : Option CommandMeta → Str
  | some m => m.afterLongHelp.getD []
  | none => []

/-- `HelpDisplay::to_tokens`, `derive_args.rs` 918-1022: the generated formatter, given the helps of
the flattened types.  An omitted arm prints nothing, like an empty template. -/
def helpDisplay (core : Option (Core V)) (cmeta : Option CommandMeta) (flats : List HelpFn) : HelpFn
  | 0 => (match core with
          | some c => usageOf c.named
          | none => []) ++ flats.flatMap (fun h => h 0)
  | 1 => (match core with
          | some c => usageOf c.positional
          | none => []) ++ flats.flatMap (fun h => h 1)
  | 2 => (match core with
          | some c => helpOf c.named
          | none => []) ++ flats.flatMap (fun h => h 2)
  | 3 => (match core with
          | some c => helpOf c.positional
          | none => []) ++ flats.flatMap (fun h => h 3)
  | 4 => aboutOf cmeta
  | 5 => afterOf cmeta
  | _ => []

/-- The `RawArgsInfo` of a unit variant, `derive_subcommand.rs` 80-86. -/
def unitInfo (cmeta : Option CommandMeta) : ArgsInfo :=
  ArgsInfo.new [] [] [] none false false (helpDisplay (V := Unit) none cmeta []) []

/-- `Variant::arg_str`. -/
def Variant.name : Variant V → Str
  | .unit _ n _ => n
  | .args _ n _ => n

/-- Names of the variants in order. -/
def Variants.names : Variants V → List Str
  | .nil => []
  | .cons v rest => v.name :: rest.names

/-- `subcmd_opt`, `derive_args.rs` 885-890. -/
def SubField.isOptional : SubField V → Bool
  | .none => false
  | .some _ opt _ => opt

/-- `map_from`/`map_to` of the generated `RawSubcommandInfo`, `derive_subcommand.rs` 123-124, 134-135:
pairs (name, index) sorted by name.  `sort_unstable_by` leaves the order of equal names
unspecified; the model uses the stable one. -/
def subcmdMap (names : List Str) : List (Str × Nat) :=
  sortByKey (fun e => enc e.1) (names.zipIdx)

mutual
/-- `RawArgsInfo::to_tokens`, `derive_args.rs` 865-910. -/
def ArgsDef.info : ArgsDef V → ArgsInfo
  | .mk core flats sub =>
    ArgsInfo.new core.descs core.namedMap (core.positional.map (·.attrs)) sub.info
      sub.isOptional core.hasOptionalNamed
      (helpDisplay (some core) core.cmdMeta (flats.infos.map (·.help))) flats.infos
/-- Infos of the flattened types, `derive_args.rs` 894, 906. -/
def Flats.infos : Flats V → List ArgsInfo
  | .nil => []
  | .cons _ d rest => d.info :: rest.infos
/-- `subcmd_info`, `derive_args.rs` 885-890; `RawSubcommandInfo::new` in
`derive_subcommand.rs` 134-139, 170-174. -/
def SubField.info : SubField V → Option SubcmdInfo
  | .none => .none
  | .some _ _ vs =>
    .some { names := packNul vs.names, map := subcmdMap vs.names, variantHelps := vs.helps }
/-- `variant_infos`, `derive_subcommand.rs` 139 (their helps only). -/
def Variants.helps : Variants V → List HelpFn
  | .nil => []
  | .cons v rest => v.info.help :: rest.helps
/-- `args_info` of a variant, `derive_subcommand.rs` 79-118. -/
def Variant.info : Variant V → ArgsInfo
  | .unit _ _ cmeta => unitInfo cmeta
  | .args _ _ d => d.info
end

end Palc
