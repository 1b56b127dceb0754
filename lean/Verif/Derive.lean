import Verif.Codegen
/-!
# Compile-time part of the derive macros

`derive/src/derive_args.rs` 257-640 (checks and field tables) with the constant assertions of
663-690, `derive/src/derive_subcommand.rs` 64-128, `derive/src/derive_value_enum.rs` 36-73 and the
doc-comment handling of `derive/src/common.rs` 542-579.
-/

namespace Palc

variable {V : Type}

/-- A value type as far as rustc matters: its impls of the three traits that give a value parser
(`src/values.rs` 128, 180-183, 211-214) and of `Default` (value and display text). -/
structure ValTy (V : Type) where
  valueEnum : Option (EnumDef V) := none
  tryFromOsStr : Option (Bytes → Except Str V) := none
  fromStr : Option (Str → Except Str V) := none
  default : Option (V × Str) := none

/-- The impls of `InferValueParser<T>` for `PhantomData<T>` behind `n` references, `src/values.rs` 124-251: level 3
is `ValueEnum`, level 2 `TryFrom<&OsStr>`, level 1 `FromStr`; level 0, for all types, is `FallbackValueParser`, which is no parser (its
`AssertInferOk` makes it a compile error, `src/values.rs` 19-36, 117-122). -/
def ValTy.implAt (v : ValTy V) : Nat → Option (Option (ValueParser V))
  | 0 => some none
  | 1 => v.fromStr.map (fun f => some (.fromStr f))
  | 2 => v.tryFromOsStr.map (fun f => some (.tryFromOsStr f))
  | 3 => v.valueEnum.map (fun e => some (.valueEnum e))
  | _ => none

/-- Method lookup of rustc on `PhantomData<T>` behind `n` references: the receiver as it is, with a reference added, and then the same
with one reference taken away. -/
def ValTy.lookup (v : ValTy V) : Nat → Option (Option (ValueParser V))
  | 0 => (v.implAt 0).or (v.implAt 1)
  | n + 1 => ((v.implAt (n + 1)).or (v.implAt (n + 2))).or (v.lookup n)

/-- Inference of the value parser: the emitted call is `(&&&PhantomData::<T>).__palc_infer_value_parser()`, `src/values.rs` 105-122,
`derive_args.rs` 154-159.  `none` is a compile error. -/
def ValTy.parser (v : ValTy V) : Option (ValueParser V) := (v.lookup 3).join

/-- A field type as far as palc looks at it: `bool`, `Option<_>`, `Vec<_>` or anything else. -/
inductive Ty (V : Type)
  | bool
  | option (t : Ty V)
  | vec (t : Ty V)
  | other (v : ValTy V)

/-- `MagicKind::classify`, `derive_args.rs` 208-227. -/
def classify : Ty V → MagicKind × Ty V
  | .bool => (.bool, .bool)
  | .option (.option t) => (.optionOption, t)
  | .option (.vec t) => (.optionVec, t)
  | .option t => (.option, t)
  | .vec t => (.vec, t)
  | .other v => (.value, .other v)

/-- Parameters standing for `heck` and for `FromStr for bool`. -/
structure Cx (V : Type) where
  kebab : Str → Str
  shoutySnake : Str → Str
  boolFromStr : Str → Except Str V

/-- Reasons for a derive (or rustc, for the last group) to reject a definition. -/
inductive DeriveError
  | tooManyFields | duplicatedSubcommand | defaultConflict | requiredWithDefault
  | delimiterNotVec | hyphenConflict | hyphenIncompatible | valueNameControl
  | optOptNeedsEquals | lastOnNamed | longName | shortName | duplicatedName
  | positionalNamedAttr | positionalHyphen | lastNotVec | duplicatedLast | duplicatedVarArg
  | positionalAfterVarArg | fieldNotFound | exclusiveFlatten
  -- const assertions (663-690) and rustc errors
  | flattenPositional | flattenSubcommand | ignoreCaseNotLower | noParser | defaultType
  | duplicatedIdent
  -- derive(ValueEnum)
  | valueControl | duplicatedValue
  deriving DecidableEq, Repr

/-- Value parser inference for `value_ty` (rustc; `src/values.rs` 105-251): no parser for `Option`
and `Vec`. -/
def inferParser (cx : Cx V) : Ty V → Option (ValueParser V)
  | .bool => some (.fromStr cx.boolFromStr)
  | .option _ => none
  | .vec _ => none
  | .other v => v.parser

/-- `<#value_ty as Default>::default()` with its display text (rustc).  `false` as the value of an argument
other than a flag (`Option<bool>`) is what "false" parses to. -/
def defaultOf (cx : Cx V) (kind : MagicKind) : Ty V → Option (DefaultOut V × Str)
  | .bool =>
    if kind = .bool then some (.bool false, lit "false")
    else match cx.boolFromStr (lit "false") with
      | .ok v => some (.one v, lit "false")
      | .error _ => none
  | .other v => match v.default with
    | some (d, shown) => some (.one d, shown)
    | none => none
  | _ => none

/-- Does the default expression have the type expected by `Parsable::set_default` (rustc)? -/
def defaultTypeOk : MagicKind → DefaultOut V → Bool
  | .bool, .bool _ => true
  | .value, .one _ => true
  | .option, .one _ => true
  | .optionOption, .opt _ => true
  | .vec, .many _ => true
  | .optionVec, .many _ => true
  | _, _ => false

/-- `encode_long_name`, `derive_args.rs` 257-270. -/
def encodeLongName (s : Str) : List DeriveError × Str :=
  let errs :=
    if s = [] then [DeriveError.longName]
    else if s.head? = some '-' then [.longName]
    else if s.any (fun c => c = '=' || isAsciiControl c) then [.longName]
    else []
  (errs, '-' :: '-' :: s)

/-- `encode_short_name`, `derive_args.rs` 272-278. -/
def encodeShortName (c : Char) : List DeriveError × Str :=
  (if c = '-' ∨ c = '=' ∨ isAsciiControl c then [DeriveError.shortName] else [], [c])

/-- A field of the struct: an argument, or `command(subcommand)` / `command(flatten)` with the
definition of the type it refers to (`Option<_>` stripped, `derive_args.rs` 315-318). -/
inductive FieldDecl (V : Type)
  | arg (ident : Str) (ty : Ty V) (m : ArgMeta V)
  | subcommand (ident : Str) (optional : Bool) (vs : Variants V)
  | flatten (ident : Str) (d : ArgsDef V)

/-- Identifier of a field. -/
def FieldDecl.ident : FieldDecl V → Str
  | .arg i _ _ => i
  | .subcommand i _ _ => i
  | .flatten i _ => i

/-- Default value of a field, `derive_args.rs` 335-351 (the first component are the errors; a missing
`Default` impl or a wrong type is a rustc error). -/
def fieldDefault (cx : Cx V) (kind : MagicKind) (valueTy : Ty V) (m : ArgMeta V) :
    List DeriveError × Option (DefaultValue V) :=
  match m.defaultValueT, m.defaultValue with
  | some .inherit, none =>
    match defaultOf cx kind valueTy with
    | some (v, shown) => (if defaultTypeOk kind v then [] else [.defaultType], some (.valueExpr v shown))
    | none => ([.defaultType], none)
  | some (.explicit (v, shown)), none =>
    (if defaultTypeOk kind v then [] else [.defaultType], some (.valueExpr v shown))
  | none, some s => ([], some (.parseStr s))
  | none, none => ([], none)
  | some _, some _ => ([.defaultConflict], none)

/-- `accept_hyphen`, `derive_args.rs` 371-384. -/
def acceptHyphen (m : ArgMeta V) : List DeriveError × ArgAttrs :=
  match m.allowHyphenValues, m.allowNegativeNumbers with
  | true, false => ([], ArgAttrs.ACCEPT_HYPHEN_ANY)
  | false, true => ([], ArgAttrs.ACCEPT_HYPHEN_NUM)
  | false, false => ([], 0#32)
  | true, true => ([.hyphenConflict], 0#32)

/-- Primary long name, `derive_args.rs` 428-434. -/
def primaryLong (cx : Cx V) (ident : Str) (m : ArgMeta V) : Option Str :=
  match m.long with
  | some .inherit => some (cx.kebab ident)
  | some (.explicit s) => some s
  | none => none

/-- Primary short name, `derive_args.rs` 441-448 (an identifier is never empty; an empty one gives no
name in the model). -/
def primaryShort (ident : Str) (m : ArgMeta V) : Option Char :=
  match m.short with
  | some .inherit => ident.head?
  | some (.explicit c) => some c
  | none => none

/-- Description of a named argument, `derive_args.rs` 457-476. -/
def namedDesc (kind : MagicKind) (m : ArgMeta V) (short : Option Char) (long : Option Str)
    (valueName : Str) : Str :=
  let buf := match short, long with
    | some s, some l => '-' :: s :: ',' :: ' ' :: '-' :: '-' :: l
    | none, some l => '-' :: '-' :: l
    | some s, none => ['-', s]
    | none, none => []
  if kind = .optionOption then buf ++ lit "[=<" ++ valueName ++ lit ">]"
  else if kind.requireValue then
    buf ++ [if m.requireEquals then '=' else ' '] ++ '<' :: valueName ++ ['>']
  else buf

/-- Description of a positional argument, `derive_args.rs` 519-523. -/
def positionalDesc (kind : MagicKind) (required : Bool) (valueName : Str) : Str :=
  (if required then '<' :: valueName ++ ['>'] else '[' :: valueName ++ [']'])
    ++ (if kind.acceptsMultipleValues then lit "..." else [])

/-- Is the field required (shown and checked as such)? `derive_args.rs` 352-363. -/
def fieldRequired (kind : MagicKind) (m : ArgMeta V) (dv : Option (DefaultValue V)) : Bool :=
  if dv.isNone then m.required || decide (kind = .value) else false

/-- Value name for help, `derive_args.rs` 393-396. -/
def valueNameOf (cx : Cx V) (ident : Str) (m : ArgMeta V) : Str :=
  match m.valueName with
  | some s => s
  | none => cx.shoutySnake ident

/-- Attributes common to named and positional arguments, `derive_args.rs` 409-413. -/
def baseAttrs (kind : MagicKind) (m : ArgMeta V) : ArgAttrs :=
  let attrs := ArgAttrs.union 0#32 (acceptHyphen m).2
  let attrs := ArgAttrs.set attrs ArgAttrs.REQUIRE_VALUE kind.requireValue
  let attrs := ArgAttrs.set attrs ArgAttrs.REQUIRE_EQ m.requireEquals
  let attrs := ArgAttrs.set attrs ArgAttrs.GLOBAL m.global
  ArgAttrs.set attrs ArgAttrs.MAKE_LOWERCASE m.ignoreCase

/-- Attributes of a positional argument, `derive_args.rs` 525-528. -/
def positionalAttrs (kind : MagicKind) (m : ArgMeta V) : ArgAttrs :=
  let attrs := baseAttrs kind m
  let attrs := ArgAttrs.set attrs ArgAttrs.VAR_ARG kind.acceptsMultipleValues
  let attrs := ArgAttrs.set attrs ArgAttrs.LAST m.last
  ArgAttrs.set attrs ArgAttrs.GREEDY (m.trailingVarArg || m.last)

/-- Value parser of the field (rustc).  Flags do not use one (`derive_args.rs` 158). -/
def fieldParser (cx : Cx V) (kind : MagicKind) (valueTy : Ty V) : Option (ValueParser V) :=
  if kind = .bool then some (.fromStr cx.boolFromStr) else inferParser cx valueTy

/-- Errors common to named and positional arguments, `derive_args.rs` 333-407, followed by the
`ignore_case` assertion (677-686) and parser inference (rustc). -/
def commonErrors (cx : Cx V) (ident : Str) (kind : MagicKind) (valueTy : Ty V) (m : ArgMeta V) :
    List DeriveError :=
  (fieldDefault cx kind valueTy m).1
    ++ (if (fieldDefault cx kind valueTy m).2.isSome && m.required then [.requiredWithDefault] else [])
    ++ (if m.valueDelimiter.isSome && !kind.acceptsMultipleValues then [.delimiterNotVec] else [])
    ++ (acceptHyphen m).1
    ++ (if (acceptHyphen m).2 != 0#32 && (!kind.requireValue || m.requireEquals)
        then [.hyphenIncompatible] else [])
    ++ (if (valueNameOf cx ident m).any isAsciiControl then [.valueNameControl] else [])
    ++ (if decide (kind = .optionOption) && !m.requireEquals then [.optOptNeedsEquals] else [])
    ++ (if m.ignoreCase then
          match fieldParser cx kind valueTy with
          | some (.valueEnum d) => if d.noUpperCase then [] else [.ignoreCaseNotLower]
          | _ => [.ignoreCaseNotLower]
        else [])
    ++ (if (fieldParser cx kind valueTy).isNone then [.noParser] else [])

/-- Encoded long names with the errors of `encode_long_name`, `derive_args.rs` 428-439. -/
def longEncs (cx : Cx V) (ident : Str) (m : ArgMeta V) : List (List DeriveError × Str) :=
  (m.alias ++ (primaryLong cx ident m).toList).map encodeLongName

/-- Encoded short names with the errors of `encode_short_name`, `derive_args.rs` 441-453. -/
def shortEncs (ident : Str) (m : ArgMeta V) : List (List DeriveError × Str) :=
  (m.shortAlias ++ (primaryShort ident m).toList).map encodeShortName

/-- Errors and `FieldInfo` of one argument field, `derive_args.rs` 333-547, without the index. -/
def argField (cx : Cx V) (ident : Str) (ty : Ty V) (m : ArgMeta V) : List DeriveError × FieldInfo V :=
  let kind := (classify ty).1
  let valueTy := (classify ty).2
  let defaultValue := (fieldDefault cx kind valueTy m).2
  let required := fieldRequired kind m defaultValue
  let parser := (fieldParser cx kind valueTy).getD (.fromStr cx.boolFromStr)
  let longs := longEncs cx ident m
  let shorts := shortEncs ident m
  if m.isNamed then
    (commonErrors cx ident kind valueTy m
        ++ (if m.last || m.trailingVarArg then [.lastOnNamed] else [])
        ++ longs.flatMap (·.1) ++ shorts.flatMap (·.1),
      { ident, kind, parser, valueDelimiter := m.valueDelimiter,
        encNames := longs.map (·.2) ++ shorts.map (·.2), attrs := baseAttrs kind m, required,
        defaultValue, exclusive := m.exclusive, dependencies := m.requires,
        conflicts := m.conflictsWith,
        description := namedDesc kind m (primaryShort ident m) (primaryLong cx ident m)
          (valueNameOf cx ident m),
        doc := m.doc, hide := m.hide, src := m })
  else
    (commonErrors cx ident kind valueTy m
        ++ (if m.requireEquals || m.global || m.ignoreCase then [.positionalNamedAttr] else [])
        ++ (if (acceptHyphen m).2 != 0#32 then [.positionalHyphen] else [])
        ++ (if m.last && !kind.acceptsMultipleValues then [.lastNotVec] else []),
      { ident, kind, parser, valueDelimiter := m.valueDelimiter, encNames := [],
        attrs := positionalAttrs kind m, required,
        defaultValue, exclusive := m.exclusive, dependencies := m.requires,
        conflicts := m.conflictsWith,
        description := positionalDesc kind required (valueNameOf cx ident m),
        doc := m.doc, hide := m.hide, src := m })

/-- Local variables of `expand_args_parse`, `derive_args.rs` 291-305, and the errors emitted so far. -/
structure DState (V : Type) where
  named : List (FieldInfo V) := []
  positional : List (FieldInfo V) := []
  varArg : Option (FieldInfo V) := none
  last : Option (FieldInfo V) := none
  sub : SubField V := .none
  flats : List (Str × ArgsDef V) := []
  seen : List Str := []
  errors : List DeriveError := []

/-- `check_dup_name`, `derive_args.rs` 299-305, for a list of names. -/
def checkDup : List Str → List Str → List DeriveError × List Str
  | seen, [] => ([], seen)
  | seen, n :: ns =>
    let (errs, seen') := checkDup (n :: seen) ns
    (if n ∈ seen then (DeriveError.duplicatedName :: errs, seen') else (errs, seen'))

/-- Is there a subcommand (`__HAS_SUBCOMMAND`, `derive_args.rs` 64, 69)? -/
def ArgsDef.hasSub : ArgsDef V → Bool
  | .mk _ _ .none => false
  | .mk _ _ (.some _ _ _) => true

/-- One iteration of the loop over fields, `derive_args.rs` 307-579, with the assertions on flattened
types (663-676). -/
def deriveStep (cx : Cx V) (s : DState V) : FieldDecl V → DState V
  | .subcommand ident optional vs =>
    match s.sub with
    | .some _ _ _ => { s with errors := s.errors ++ [.duplicatedSubcommand] }
    | .none => { s with sub := .some ident optional vs }
  | .flatten ident d =>
    { s with
      flats := s.flats ++ [(ident, d)]
      errors := s.errors ++ (if d.info.positionalLen = 0 then [] else [.flattenPositional])
        ++ (if d.hasSub then [.flattenSubcommand] else []) }
  | .arg ident ty m =>
    let (errs, f) := argField cx ident ty m
    let s := { s with errors := s.errors ++ errs }
    if m.isNamed then
      if m.last || m.trailingVarArg then s
      else
        let (dup, seen) := checkDup s.seen f.encNames
        { s with named := s.named ++ [f], seen, errors := s.errors ++ dup }
    else if m.last then
      { s with last := some f
               errors := s.errors ++ (if s.last.isSome then [.duplicatedLast] else []) }
    else if f.kind.acceptsMultipleValues then
      { s with varArg := some f
               errors := s.errors ++ (if s.varArg.isSome then [.duplicatedVarArg] else []) }
    else if s.varArg.isSome then { s with errors := s.errors ++ [.positionalAfterVarArg] }
    else { s with positional := s.positional ++ [f] }

/-- Assign field indexes, `derive_args.rs` 590-593. -/
def assignIndexes (fs : List (FieldInfo V)) : List (FieldInfo V) :=
  fs.zipIdx.map (fun (f, i) => { f with attrs := ArgAttrs.set f.attrs (ArgAttrs.index i) true })

/-- `ident_idx_map.get`, `derive_args.rs` 596-599 (identifiers are unique, rustc). -/
def lookupIdx (fs : List (FieldInfo V)) (ident : Str) : Option Nat :=
  (fs.find? (fun f => f.ident = ident)).map (·.attrs.getIndex)

/-- The mapping inside `resolve_field_refs`: `none` as soon as one is not found. -/
def resolveAll (fs : List (FieldInfo V)) : List Str → Option (List Nat)
  | [] => some []
  | i :: is =>
    match lookupIdx fs i with
    | some n => (resolveAll fs is).map (n :: ·)
    | none => none

/-- `resolve_field_refs`, `derive_args.rs` 600-617. -/
def resolveRefs (fs : List (FieldInfo V)) (idents : List Str) : List DeriveError × Option (List Nat) :=
  if idents = [] then ([], none)
  else match resolveAll fs idents with
    | some ns => ([], some ns)
    | none => ([.fieldNotFound], none)

/-- `derive_args.rs` 618-621. -/
def resolveField (fs : List (FieldInfo V)) (f : FieldInfo V) : List DeriveError × FieldInfo V :=
  let (e1, deps) := resolveRefs fs f.dependencies
  let (e2, confs) := resolveRefs fs f.conflicts
  (e1 ++ e2, { f with dependenciesIdx := deps, conflictsIdx := confs })

/-- Convert the collected flattened fields. -/
def Flats.ofList : List (Str × ArgsDef V) → Flats V
  | [] => .nil
  | (i, d) :: rest => .cons i d (Flats.ofList rest)

/-- Are the identifiers pairwise distinct (rustc)? -/
def identsDistinct : List Str → Bool
  | [] => true
  | i :: is => !is.contains i && identsDistinct is

/-- `expand_args_parse`, `derive_args.rs` 280-640, accepted only when no error was emitted
(`catch_errors`, `derive/src/error.rs`). -/
def deriveArgs (cx : Cx V) (cmeta : Option CommandMeta) (decls : List (FieldDecl V)) :
    Except (List DeriveError) (ArgsDef V) :=
  if decls.length > 254 then .error [.tooManyFields]
  else
    let s := decls.foldl (deriveStep cx) {}
    let direct := assignIndexes (s.named ++ s.positional ++ s.varArg.toList ++ s.last.toList)
    let resolved := direct.map (resolveField direct)
    let errs := s.errors ++ resolved.flatMap (·.1)
      ++ (if !s.flats.isEmpty && direct.any (·.exclusive) then [.exclusiveFlatten] else [])
      ++ (if identsDistinct (decls.map (·.ident)) then [] else [.duplicatedIdent])
    if errs = [] then
      .ok (.mk { fields := resolved.map (·.2), namedCnt := s.named.length, cmdMeta := cmeta }
        (Flats.ofList s.flats) s.sub)
    else .error errs

/-- A variant of a `derive(Subcommand)` enum: unit, or carrying an argument struct (newtype and struct
variants). -/
inductive VariantDecl (V : Type)
  | unit (ident : Str) (cmeta : Option CommandMeta)
  | args (ident : Str) (d : ArgsDef V)

/-- `expand_for_enum`, `derive_subcommand.rs` 64-128: the name of a variant is its identifier in
kebab case; there is no check on the names (`FIXME: Duplication check`, 125).  The checks of
each variant (69-123) come before, in `expandSubcommand`. -/
def deriveSub (cx : Cx V) : List (VariantDecl V) → Variants V
  | [] => .nil
  | .unit ident cmeta :: rest => .cons (.unit ident (cx.kebab ident) cmeta) (deriveSub cx rest)
  | .args ident d :: rest => .cons (.args ident (cx.kebab ident) d) (deriveSub cx rest)

mutual
/-- Definition trees in which every struct was accepted by `derive(Args)`/`derive(Parser)` and every
subcommand enum by `derive(Subcommand)`. -/
inductive DerivedArgs (cx : Cx V) : ArgsDef V → Prop
  | mk {d : ArgsDef V} (cmeta : Option CommandMeta) (decls : List (FieldDecl V))
      (hflat : ∀ i d', FieldDecl.flatten i d' ∈ decls → DerivedArgs cx d')
      (hsub : ∀ i o vs, FieldDecl.subcommand i o vs ∈ decls → DerivedVariants cx vs)
      (h : deriveArgs cx cmeta decls = .ok d) : DerivedArgs cx d
inductive DerivedVariants (cx : Cx V) : Variants V → Prop
  | mk {vs : Variants V} (vdecls : List (VariantDecl V))
      (hargs : ∀ i d, VariantDecl.args i d ∈ vdecls → DerivedArgs cx d)
      (h : vs = deriveSub cx vdecls) : DerivedVariants cx vs
end

/-- `derive(ValueEnum)`: `expand_for_enum` and `to_tokens`, `derive_value_enum.rs` 36-123, from the
list of (parse name, variant); the names are made from the identifiers by `expandValueEnum`. -/
def deriveValueEnum (variants : List (Str × V)) : Except (List DeriveError) (EnumDef V) :=
  let errs := variants.flatMap (fun v => if v.1.any isAsciiControl then [DeriveError.valueControl] else [])
  let ok := variants.filter (fun v => !v.1.any isAsciiControl)
  let sorted := sortByKey (fun e => enc e.1) ok
  let dup := (sorted.zip (sorted.drop 1)).any (fun w => decide (w.1.1 = w.2.1))
  if errs = [] ∧ dup = false then
    .ok { arms := sorted
          possibleInputsNul := packNul (sorted.map (·.1))
          noUpperCase := sorted.all (fun v => (enc v.1).all (fun b => !decide (65 ≤ b.toNat ∧ b.toNat ≤ 90))) }
  else .error (errs ++ if dup then [.duplicatedValue] else [])

/-- `u8::is_ascii_whitespace`. -/
def isAsciiWs (c : Char) : Bool :=
  c = ' ' || c = '\t' || c = '\n' || c = Char.ofNat 12 || c = '\r'

/-- `str::trim_ascii_end`. -/
def trimAsciiEnd (s : Str) : Str := (s.reverse.dropWhile isAsciiWs).reverse
/-- `str::trim_ascii`. -/
def trimAscii (s : Str) : Str := trimAsciiEnd (s.dropWhile isAsciiWs)

/-- `Doc::extend_from_attr`, `derive/src/common.rs` 557-578, for a literal doc attribute. -/
def docExtend (doc : Str) (line : Str) : Str :=
  let s := trimAscii line
  if s = [] then
    if doc.getLast? ≠ some '\n' then doc ++ ['\n'] else doc
  else
    (if doc ≠ [] ∧ doc.getLast? ≠ some '\n' then doc ++ [' '] else doc) ++ s

/-- Doc comments of an item: `extend_from_attr` for each line then `post_process`,
`common.rs` 90-106, 275-289, 551-555. -/
def docOf (lines : List Str) : Str := trimAsciiEnd (lines.foldl docExtend [])

end Palc
