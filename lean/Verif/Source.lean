import Verif.Derive
/-!
# From source text to the derive macros

Attribute parsing (`derive/src/common.rs`), the entry points of the four derive macros
(`derive_args.rs` 21-82, `derive_parser.rs`, `derive_subcommand.rs`, `derive_value_enum.rs`) and the
recognition of field types.  The token level is that of `syn`: an attribute is a list of items, an item
is a path with what follows it.
-/

namespace Palc

variable {V E α : Type}

/-- A literal token. -/
inductive TokLit
  | str (s : Str)
  | char (c : Char)
  | bool (b : Bool)
  deriving DecidableEq

/-- What follows the path of an item: nothing, a parenthesised group, `= expr` or `= [..]`.  `l` is the
literal if the expression is one of the literals palc looks for; `e` is the value of the expression
(rustc), `none` if it is not an expression. -/
inductive MetaVal (E : Type)
  | bare
  | list
  | eq (l : Option TokLit) (e : Option E)
  | arr (ls : List (Option TokLit)) (e : Option E)
  deriving DecidableEq

/-- One item of `#[arg(..)]`, `#[command(..)]` or `#[value(..)]`. -/
structure Item (E : Type) where
  path : Str
  val : MetaVal E
  deriving DecidableEq

/-- Compile errors, other than those of `DeriveError`. -/
inductive SrcError
  -- `syn` errors
  | syntax
  -- `derive/src/common.rs`
  | duplicatedAttr | onlyTrue | unknownAttr | duplicatedCommand | commandConflictsArg
  | unsupportedAttr | argNotAllowed | docNotLiteral
  -- entry points
  | generics | unsupportedData | tupleArity | attrsOnNewtype | nonUnitVariant
  -- rustc: a type without the needed impl
  | notArgs | notSubcommand
  | derive (e : DeriveError)
  deriving DecidableEq, Repr

/-- `parse::<LitStr>()` (`syn`). -/
def asStr : Option TokLit → Option Str
  | some (.str s) => some s
  | _ => none

/-- `parse::<LitChar>()` (`syn`). -/
def asChar : Option TokLit → Option Char
  | some (.char c) => some c
  | _ => none

/-- `parse::<LitBool>()` (`syn`). -/
def asBool : Option TokLit → Option Bool
  | some (.bool b) => some b
  | _ => none

/-- `impl Parse for FieldIdent`, `common.rs` 503-507, given which strings `syn` takes for identifiers.  (`LitStr::parse`
also allows blanks and comments around the identifier; here such strings are no identifiers.) -/
def asIdent (isIdent : Str → Bool) : Option TokLit → Option Str
  | some (.str s) => if isIdent s then some s else none
  | _ => none

/-- `meta.value()?.parse::<T>()?` for a literal (`syn`). -/
def valueLit (f : Option TokLit → Option α) : MetaVal E → Except SrcError α
  | .eq l _ =>
    match f l with
    | some a => .ok a
    | none => .error .syntax
  | _ => .error .syntax

/-- `meta.value()?.parse::<syn::Expr>()?` (`syn`). -/
def valueExpr : MetaVal E → Except SrcError E
  | .eq _ (some e) => .ok e
  | .arr _ (some e) => .ok e
  | _ => .error .syntax

/-- `inner.parse_terminated(T::parse, Token![,])?`, `common.rs` 476. -/
def parseAll (f : Option TokLit → Option α) : List (Option TokLit) → Option (List α)
  | [] => some []
  | l :: ls =>
    match f l with
    | some a => (parseAll f ls).map (a :: ·)
    | none => none

/-- `meta.value()?.parse::<OneOrArray<T>>()?`, `common.rs` 471-482. -/
def valueMany (f : Option TokLit → Option α) : MetaVal E → Except SrcError (List α)
  | .eq l _ =>
    match f l with
    | some a => .ok [a]
    | none => .error .syntax
  | .arr ls _ =>
    match parseAll f ls with
    | some as => .ok as
    | none => .error .syntax
  | _ => .error .syntax

/-- `impl Parse for Override<T>`, `common.rs` 489-498, for literals. A parenthesised group is left
over. -/
def overrideLit (f : Option TokLit → Option α) : MetaVal E → Except SrcError (Override α)
  | .bare => .ok .inherit
  | .list => .ok .inherit
  | .eq l _ =>
    match f l with
    | some a => .ok (.explicit a)
    | none => .error .syntax
  | .arr _ _ => .error .syntax

/-- `impl Parse for Override<VerbatimExpr>`, `common.rs` 489-498, 517-521. -/
def overrideExpr : MetaVal E → Except SrcError (Override E)
  | .bare => .ok .inherit
  | .list => .ok .inherit
  | .eq _ (some e) => .ok (.explicit e)
  | .arr _ (some e) => .ok (.explicit e)
  | _ => .error .syntax

/-- Is something left of the item after `Override<_>` was parsed? -/
def MetaVal.isList : MetaVal E → Bool
  | .list => true
  | _ => false

/-- Is something left of the item if nothing after the path is parsed? -/
def MetaVal.isBare : MetaVal E → Bool
  | .bare => true
  | _ => false

/-- `OptionExt::set_once`, `common.rs` 53-61. -/
def setOnce (o : Option α) (a : α) : Option α × List SrcError :=
  match o with
  | none => (some a, [])
  | some b => (some b, [.duplicatedAttr])

/-- `BoolExt::parse_true`, `common.rs` 66-78. -/
def parseTrue (b : Bool) (v : MetaVal E) : Except SrcError (Bool × List SrcError) :=
  match valueLit asBool v with
  | .error e => .error e
  | .ok lit =>
    if !lit then .ok (b, [.onlyTrue])
    else if b then .ok (b, [.duplicatedAttr])
    else .ok (true, [])

/-- Result of a `parse_update`: the new record, the errors emitted, and whether tokens are left over
before the next ','. -/
abbrev Upd (M : Type) := Except SrcError (M × List SrcError × Bool)

/-- A branch `self.field.set_once(span, ..)`, given the outcome of parsing the value. -/
def setBranch {M : Type} (r : Except SrcError α) (old : Option α) (put : Option α → M) (left : Bool) :
    Upd M :=
  match r with
  | .error e => .error e
  | .ok a => .ok (put (setOnce old a).1, (setOnce old a).2, left)

/-- A branch `self.field.parse_true(meta)?`. -/
def trueBranch {M : Type} (v : MetaVal E) (old : Bool) (put : Bool → M) : Upd M :=
  match parseTrue old v with
  | .error e => .error e
  | .ok (b, errs) => .ok (put b, errs, false)

/-- A branch `self.field.extend(..)` or `.push(..)`. -/
def extendBranch {M : Type} (r : Except SrcError (List α)) (put : List α → M) : Upd M :=
  match r with
  | .error e => .error e
  | .ok as => .ok (put as, [], false)

/-- `ArgMeta::parse_update`, `common.rs` 173-240. -/
def ArgMeta.parseUpdate (isIdent : Str → Bool) (m : ArgMeta V) (it : Item (DefaultOut V × Str)) :
    Upd (ArgMeta V) :=
  let p := it.path
  let v := it.val
  if p = lit "long" then
    setBranch (overrideLit asStr v) m.long (fun x => { m with long := x }) v.isList
  else if p = lit "short" then
    setBranch (overrideLit asChar v) m.short (fun x => { m with short := x }) v.isList
  else if p = lit "alias" ∨ p = lit "aliases" then
    extendBranch (valueMany asStr v) (fun xs => { m with alias := m.alias ++ xs })
  else if p = lit "short_alias" ∨ p = lit "short_aliases" then
    extendBranch (valueMany asChar v) (fun xs => { m with shortAlias := m.shortAlias ++ xs })
  else if p = lit "value_name" then
    setBranch (valueLit asStr v) m.valueName (fun x => { m with valueName := x }) false
  else if p = lit "require_equals" then
    trueBranch v m.requireEquals (fun b => { m with requireEquals := b })
  else if p = lit "global" then
    trueBranch v m.global (fun b => { m with global := b })
  else if p = lit "allow_hyphen_values" then
    trueBranch v m.allowHyphenValues (fun b => { m with allowHyphenValues := b })
  else if p = lit "allow_negative_numbers" then
    trueBranch v m.allowNegativeNumbers (fun b => { m with allowNegativeNumbers := b })
  else if p = lit "trailing_var_arg" then
    trueBranch v m.trailingVarArg (fun b => { m with trailingVarArg := b })
  else if p = lit "last" then
    trueBranch v m.last (fun b => { m with last := b })
  else if p = lit "default_value" then
    setBranch (valueLit asStr v) m.defaultValue (fun x => { m with defaultValue := x }) false
  else if p = lit "default_value_t" ∨ p = lit "default_values_t" then
    setBranch (overrideExpr v) m.defaultValueT (fun x => { m with defaultValueT := x }) v.isList
  else if p = lit "use_value_delimiter" then
    match valueLit asBool v with
    | .error e => .error e
    | .ok b =>
      .ok ({ m with valueDelimiter := (setOnce m.valueDelimiter ',').1 },
        (if !b then [.onlyTrue] else []) ++ (setOnce m.valueDelimiter ',').2, false)
  else if p = lit "value_delimiter" then
    setBranch (valueLit asChar v) m.valueDelimiter (fun x => { m with valueDelimiter := x }) false
  else if p = lit "value_enum" then
    .ok ({ m with valueEnum := true }, if m.valueEnum then [.duplicatedAttr] else [], !v.isBare)
  else if p = lit "ignore_case" then
    trueBranch v m.ignoreCase (fun b => { m with ignoreCase := b })
  else if p = lit "help" then
    setBranch (valueLit asStr v) m.help (fun x => { m with help := x }) false
  else if p = lit "long_help" then
    setBranch (valueLit asStr v) m.longHelp (fun x => { m with longHelp := x }) false
  else if p = lit "hide" then
    trueBranch v m.hide (fun b => { m with hide := b })
  else if p = lit "required" then
    trueBranch v m.required (fun b => { m with required := b })
  else if p = lit "exclusive" then
    trueBranch v m.exclusive (fun b => { m with exclusive := b })
  else if p = lit "requires" then
    match valueLit (asIdent isIdent) v with
    | .error e => .error e
    | .ok i => .ok ({ m with requires := m.requires ++ [i] }, [], false)
  else if p = lit "conflicts_with" then
    match valueLit (asIdent isIdent) v with
    | .error e => .error e
    | .ok i => .ok ({ m with conflictsWith := m.conflictsWith ++ [i] }, [], false)
  else if p = lit "conflicts_with_all" then
    extendBranch (valueMany (asIdent isIdent) v)
      (fun xs => { m with conflictsWith := m.conflictsWith ++ xs })
  else .ok (m, [.unknownAttr], !v.isBare)

/-- `attr.parse_nested_meta(|meta| this.parse_update(&meta))` inside `try_syn` (`syn`;
`derive/src/error.rs` 29-39): the first `syn` error ends the attribute. -/
def parseNested {M : Type} (upd : M → Item E → Upd M) : M → List (Item E) → M × List SrcError
  | m, [] => (m, [])
  | m, it :: rest =>
    match upd m it with
    | .error e => (m, [e])
    | .ok (m', errs, true) => (m', errs ++ [.syntax])
    | .ok (m', errs, false) =>
      let (m'', errs') := parseNested upd m' rest
      (m'', errs ++ errs')

/-- An attribute.  `none`: not of the form `#[doc = "literal"]` resp. `#[path(items)]`.  Everything else,
such as `#[doc(hidden)]` or `#[cfg(..)]`, is `other`. -/
inductive Attr (E : Type)
  | doc (text : Option Str)
  | arg (items : Option (List (Item E)))
  | command (items : Option (List (Item E)))
  | value (items : Option (List (Item E)))
  | other

/-- `enum ArgsCommandMeta`, `common.rs` 244-247. -/
inductive ArgsCommand
  | subcommand
  | flatten
  deriving DecidableEq

/-- `impl Parse for ArgsCommandMeta`, `common.rs` 249-260: exactly one identifier. -/
def parseArgsCommand : Option (List (Item E)) → Except SrcError ArgsCommand
  | some [⟨p, .bare⟩] =>
    if p = lit "subcommand" then .ok .subcommand
    else if p = lit "flatten" then .ok .flatten
    else .error .syntax
  | _ => .error .syntax

/-- Local variables of `ArgOrCommand::parse_attrs`, `common.rs` 87-90, and the errors emitted. -/
structure FieldAttrs (V : Type) where
  doc : Str := []
  arg : Option (ArgMeta V) := none
  command : Option ArgsCommand := none
  errors : List SrcError := []

/-- One iteration of the loop in `ArgOrCommand::parse_attrs`, `common.rs` 90-104. -/
def fieldAttrStep (isIdent : Str → Bool) (s : FieldAttrs V) : Attr (DefaultOut V × Str) → FieldAttrs V
  | .doc (some t) => { s with doc := docExtend s.doc t }
  | .doc none => { s with errors := s.errors ++ [.docNotLiteral] }
  | .arg none => { s with arg := some (s.arg.getD {}), errors := s.errors ++ [.syntax] }
  | .arg (some items) =>
    let (m, errs) := parseNested (ArgMeta.parseUpdate isIdent) (s.arg.getD {}) items
    { s with arg := some m, errors := s.errors ++ errs }
  | .command items =>
    match parseArgsCommand items with
    | .error e => { s with errors := s.errors ++ [e] }
    | .ok c =>
      { s with command := some c
               errors := s.errors ++ (if s.command.isSome then [.duplicatedCommand] else []) }
  | .value _ => s
  | .other => s

/-- `enum ArgOrCommand`, `common.rs` 80-83. -/
inductive ArgOrCommand (V : Type)
  | arg (m : ArgMeta V)
  | command (c : ArgsCommand)

/-- `ArgOrCommand::parse_attrs`, `common.rs` 85-118. -/
def parseFieldAttrs (isIdent : Str → Bool) (attrs : List (Attr (DefaultOut V × Str))) :
    ArgOrCommand V × List SrcError :=
  let s := attrs.foldl (fieldAttrStep isIdent) {}
  match s.command with
  | some c => (.command c, s.errors ++ (if s.arg.isSome then [.commandConflictsArg] else []))
  | none => (.arg { (s.arg.getD {}) with doc := trimAsciiEnd s.doc }, s.errors)

/-- `CommandMeta::parse_update`, `common.rs` 293-342; `pkg` is `env!("CARGO_PKG_DESCRIPTION")`, the value of
an inherited `long_about` (`derive_args.rs` 985-990). -/
def CommandMeta.parseUpdate (pkg : Str) (m : CommandMeta) (it : Item Str) : Upd CommandMeta :=
  let p := it.path
  let v := it.val
  if p = lit "name" then
    setBranch (valueLit asStr v) m.name (fun x => { m with name := x }) false
  else if p = lit "version" then
    setBranch (overrideExpr v) m.version (fun x => { m with version := x }) v.isList
  else if p = lit "long_about" then
    setBranch ((overrideExpr v).map (fun
        | .inherit => pkg
        | .explicit e => e)) m.longAbout (fun x => { m with longAbout := x }) v.isList
  else if p = lit "after_long_help" then
    setBranch (valueExpr v) m.afterLongHelp (fun x => { m with afterLongHelp := x }) false
  else if p = lit "author" ∨ p = lit "about" ∨ p = lit "after_help" then
    match overrideExpr v with
    | .error e => .error e
    | .ok _ => .ok (m, [.unsupportedAttr], v.isList)
  else if p = lit "term_width" ∨ p = lit "max_term_width" then
    match valueExpr v with
    | .error e => .error e
    | .ok _ => .ok (m, [.unsupportedAttr], false)
  else .ok (m, [.unknownAttr], !v.isBare)

/-- Local variables of `CommandMeta::parse_attrs_opt`, `common.rs` 275-277. -/
structure CommandAttrs where
  doc : Str := []
  this : Option CommandMeta := none
  errors : List SrcError := []

/-- One iteration of the loop in `CommandMeta::parse_attrs_opt`, `common.rs` 277-285. -/
def commandAttrStep (pkg : Str) (s : CommandAttrs) : Attr Str → CommandAttrs
  | .doc (some t) => { s with doc := docExtend s.doc t }
  | .doc none => { s with errors := s.errors ++ [.docNotLiteral] }
  | .command none => { s with this := some (s.this.getD {}), errors := s.errors ++ [.syntax] }
  | .command (some items) =>
    let (m, errs) := parseNested (CommandMeta.parseUpdate pkg) (s.this.getD {}) items
    { s with this := some m, errors := s.errors ++ errs }
  | .arg _ => { s with errors := s.errors ++ [.argNotAllowed] }
  | .value _ => s
  | .other => s

/-- `CommandMeta::parse_attrs_opt`, `common.rs` 274-291. -/
def parseCommandAttrs (pkg : Str) (attrs : List (Attr Str)) : Option CommandMeta × List SrcError :=
  let s := attrs.foldl (commandAttrStep pkg) {}
  let doc := trimAsciiEnd s.doc
  (if doc = [] then s.this else some { (s.this.getD {}) with doc := doc }, s.errors)

mutual
/-- A type expression: a path (with or without `<T as ..>::` and leading `::`), or anything else. -/
inductive TyExpr
  | path (qself leadingColon : Bool) (segs : List (Str × GenArgs))
  | other (text : Str)
/-- `syn::PathArguments`. -/
inductive GenArgs
  | none
  | angle (args : List GenArg)
  | paren
/-- `syn::GenericArgument`. -/
inductive GenArg
  | ty (t : TyExpr)
  | other
end

/-- `strip_ty_ctor`, `common.rs` 22-37. -/
def stripTyCtor (t : TyExpr) (ctor : Str) : Option TyExpr :=
  match t with
  | .path false false [(i, .angle [.ty a])] => if i = ctor then some a else none
  | _ => none

/-- `path.is_ident(TY_BOOL)` for a type path without qualified self, `derive_args.rs` 209-212. -/
def isBoolTy : TyExpr → Bool
  | .path false false [(i, .none)] => decide (i = lit "bool")
  | _ => false

/-- `MagicKind::classify`, `derive_args.rs` 208-227, on type expressions. -/
def classifyExpr (t : TyExpr) : MagicKind × TyExpr :=
  if isBoolTy t then (.bool, t)
  else match stripTyCtor t (lit "Option") with
    | some t1 =>
      match stripTyCtor t1 (lit "Option") with
      | some t2 => (.optionOption, t2)
      | none =>
        match stripTyCtor t1 (lit "Vec") with
        | some t2 => (.optionVec, t2)
        | none => (.option, t1)
    | none =>
      match stripTyCtor t (lit "Vec") with
      | some t1 => (.vec, t1)
      | none => (.value, t)

/-- What rustc knows about a type: impls of the value traits, of `Args` and of `Subcommand`. -/
structure TyInfo (V : Type) where
  val : ValTy V := {}
  args : Option (ArgsDef V) := none
  sub : Option (Variants V) := none

/-- The type a type expression stands for: `bool`, `Option<_>` and `Vec<_>` (neither of which has a value
parser) and types of the environment. -/
def elabTy (env : TyExpr → TyInfo V) : TyExpr → Ty V
  | .path false false [(i, .none)] =>
    if i = lit "bool" then .bool else .other (env (.path false false [(i, .none)])).val
  | .path false false [(i, .angle [.ty a])] =>
    if i = lit "Option" then .option (elabTy env a)
    else if i = lit "Vec" then .vec (elabTy env a)
    else .other (env (.path false false [(i, .angle [.ty a])])).val
  | t => .other (env t).val

/-- A named field. -/
structure SrcField (V : Type) where
  ident : Str
  ty : TyExpr
  attrs : List (Attr (DefaultOut V × Str)) := []

/-- Parameters of the front end: `heck`, identifiers of `syn`, `CARGO_PKG_DESCRIPTION`. -/
structure SrcCx (V : Type) extends Cx V where
  isIdent : Str → Bool
  pkgDescription : Str
  lowerCamel : Str → Str
  pascal : Str → Str
  snake : Str → Str
  toLowercase : Str → Str
  toUppercase : Str → Str

/-- The first part of the loop over fields, `derive_args.rs` 307-333, with rustc's check that flattened
and subcommand types implement `Args` and `Subcommand`. -/
def elabField (cx : SrcCx V) (env : TyExpr → TyInfo V) (f : SrcField V) :
    List SrcError × Option (FieldDecl V) :=
  match parseFieldAttrs cx.isIdent f.attrs with
  | (.arg m, errs) => (errs, some (.arg f.ident (elabTy env f.ty) m))
  | (.command .subcommand, errs) =>
    let (optional, ty) := match stripTyCtor f.ty (lit "Option") with
      | some t => (true, t)
      | none => (false, f.ty)
    match (env ty).sub with
    | some vs => (errs, some (.subcommand f.ident optional vs))
    | none => (errs ++ [.notSubcommand], none)
  | (.command .flatten, errs) =>
    match (env f.ty).args with
    | some d => (errs, some (.flatten f.ident d))
    | none => (errs ++ [.notArgs], none)

/-- Outcome of a macro (followed by rustc): code, compile errors, or a panic of the macro. -/
inductive Expansion (α : Type)
  | ok (a : α)
  | errors (es : List SrcError)
  | panic

/-- Errors of `deriveArgs` as errors of the macro. -/
def Expansion.ofDerive : Except (List DeriveError) α → Expansion α
  | .ok a => .ok a
  | .error es => .errors (es.map .derive)

/-- Errors of `deriveArgs`, if any. -/
def deriveErrs : Except (List DeriveError) α → List SrcError
  | .ok _ => []
  | .error es => es.map .derive

/-- `expand_args_parse`, `derive_args.rs` 280-640, on the fields as written.  Errors are collected (`emit_error!`,
`derive/src/error.rs` 42-46); a field with mistakes in its attributes is processed with what could be read of them.  The
errors found while reading attributes are listed before the others here.  (Errors of rustc are listed as well, although
rustc does not get that far if the macro emits errors.) -/
def deriveFields (cx : SrcCx V) (env : TyExpr → TyInfo V) (cmeta : Option CommandMeta)
    (fields : List (SrcField V)) : Expansion (ArgsDef V) :=
  if fields.length > 254 then .errors [.derive .tooManyFields]
  else
    let rs := fields.map (elabField cx env)
    let errs := rs.flatMap (·.1)
    if errs = [] then .ofDerive (deriveArgs cx.toCx cmeta (rs.filterMap (·.2)))
    else .errors (errs ++ deriveErrs (deriveArgs cx.toCx cmeta (rs.filterMap (·.2))))

/-- Fields of a `derive(Subcommand)` variant. -/
inductive VariantFields (V : Type)
  | unit
  | tuple (tys : List TyExpr)
  | named (fields : List (SrcField V))

/-- A variant of an enum with `derive(Subcommand)`. -/
structure SrcVariant (V : Type) where
  ident : Str
  attrs : List (Attr Str) := []
  fields : VariantFields V := .unit

/-- What a derive macro is applied to. -/
inductive Data (V : Type)
  | structNamed (fields : List (SrcField V))
  | structOther
  | enum (variants : List (SrcVariant V))
  | union

/-- `syn::DeriveInput`; `generics`: there are type parameters or `where` predicates. -/
structure Input (V : Type) where
  generics : Bool := false
  attrs : List (Attr Str) := []
  data : Data V

/-- `derive(Args)`: `derive_args.rs` 21-82.  `derive(Parser)` accepts the same inputs and generates the same
`Args` impl: `derive_parser.rs` 10-52. -/
def expandArgs (cx : SrcCx V) (env : TyExpr → TyInfo V) (input : Input V) : Expansion (ArgsDef V) :=
  if input.generics then .errors [.generics]
  else match input.data with
    | .structNamed fields =>
      let (cmeta, errs) := parseCommandAttrs cx.pkgDescription input.attrs
      match deriveFields cx env cmeta fields with
      | .ok d => if errs = [] then .ok d else .errors errs
      | .errors es => .errors (errs ++ es)
      | .panic => .panic
    | _ => .errors [.unsupportedData]

/-- What is made of one variant, `derive_subcommand.rs` 72-119: `none` for `return None`; the variant is
missing if there were errors. -/
def expandVariant (cx : SrcCx V) (env : TyExpr → TyInfo V) (v : SrcVariant V) :
    List SrcError × Option (Option (VariantDecl V)) :=
  let (cmeta, errs) := parseCommandAttrs cx.pkgDescription v.attrs
  match v.fields with
  | .unit => (errs, some (some (.unit v.ident cmeta)))
  | .tuple [ty] =>
    let errs := errs ++ (if cmeta.isSome then [.attrsOnNewtype] else [])
    match (env ty).args with
    | some d => (errs, some (some (.args v.ident d)))
    | none => (errs ++ [.notArgs], some none)
  | .tuple _ => (errs ++ [.tupleArity], none)
  | .named fields =>
    if fields.length > 254 then (errs ++ [.derive .tooManyFields], none)
    else match deriveFields cx env cmeta fields with
      | .ok d => (errs, some (some (.args v.ident d)))
      | .errors es => (errs ++ es, some none)
      | .panic => (errs, some none)

/-- `name_map` before sorting, `derive_subcommand.rs` 66, 76: the index of every variant is pushed, also of
those that are left out afterwards. -/
def nameMapIdxs (variants : List (SrcVariant V)) : List Nat := List.range variants.length

/-- `derive(Subcommand)`: `derive_subcommand.rs` 9-26, 64-137.  `variants[i]` for every `i` in `name_map` (134,
and in the comparator of the sort, 123-124) panics if `i` is out of bounds. -/
def expandSubcommand (cx : SrcCx V) (env : TyExpr → TyInfo V) (input : Input V) : Expansion (Variants V) :=
  if input.generics then .errors [.generics]
  else match input.data with
    | .enum variants =>
      let rs := variants.map (expandVariant cx env)
      let kept := rs.filterMap (·.2)
      let errs := rs.flatMap (·.1)
      if (nameMapIdxs variants).any (fun i => kept[i]?.isNone) then .panic
      else if errs = [] then .ok (deriveSub cx.toCx (kept.filterMap id))
      else .errors errs
    | _ => .errors [.unsupportedData]

/-- `enum Rename`, `common.rs` 396-406. -/
inductive Rename
  | camelCase | kebabCase | pascalCase | screamingSnakeCase | snakeCase | lower | upper | verbatim
  deriving DecidableEq

/-- `impl Parse for Rename`, `common.rs` 408-423. -/
def asRename : Option TokLit → Option Rename
  | some (.str s) =>
    if s = lit "camelCase" then some .camelCase
    else if s = lit "kebab-case" then some .kebabCase
    else if s = lit "PascalCase" then some .pascalCase
    else if s = lit "SCREAMING_SNAKE_CASE" then some .screamingSnakeCase
    else if s = lit "snake_case" then some .snakeCase
    else if s = lit "lower" then some .lower
    else if s = lit "UPPER" then some .upper
    else if s = lit "verbatim" then some .verbatim
    else none
  | _ => none

/-- `Rename::rename`, `common.rs` 425-441. -/
def Rename.rename (cx : SrcCx V) : Rename → Str → Str
  | .camelCase, s => cx.lowerCamel s
  | .kebabCase, s => cx.kebab s
  | .pascalCase, s => cx.pascal s
  | .screamingSnakeCase, s => cx.shoutySnake s
  | .snakeCase, s => cx.snake s
  | .lower, s => cx.toLowercase s
  | .upper, s => cx.toUppercase s
  | .verbatim, s => s

/-- The closure of `ValueEnumMeta::parse_attrs`, `common.rs` 356-363. -/
def enumUpdate (o : Option Rename) (it : Item Unit) : Upd (Option Rename) :=
  if it.path = lit "rename_all" then setBranch (valueLit asRename it.val) o id false
  else .ok (o, [.unknownAttr], !it.val.isBare)

/-- The closure of `ValueVariantMeta::parse_attrs`, `common.rs` 383-390. -/
def variantUpdate (o : Option Str) (it : Item Unit) : Upd (Option Str) :=
  if it.path = lit "name" then setBranch (valueLit asStr it.val) o id false
  else .ok (o, [.unknownAttr], !it.val.isBare)

/-- The loops of `ValueEnumMeta::parse_attrs` and `ValueVariantMeta::parse_attrs`, `common.rs` 350-366,
377-393. -/
def parseValueAttrs {M : Type} (upd : M → Item Unit → Upd M) (m : M) : List (Attr Unit) → M × List SrcError
  | [] => (m, [])
  | .value none :: rest =>
    let (m', errs) := parseValueAttrs upd m rest
    (m', .syntax :: errs)
  | .value (some items) :: rest =>
    let (m', errs) := parseNested upd m items
    let (m'', errs') := parseValueAttrs upd m' rest
    (m'', errs ++ errs')
  | _ :: rest => parseValueAttrs upd m rest

/-- A variant of an enum with `derive(ValueEnum)`: its value, and whether it is a unit variant. -/
structure EnumVariant (V : Type) where
  ident : Str
  value : V
  unit : Bool := true
  attrs : List (Attr Unit) := []

/-- Name of a variant, `derive_value_enum.rs` 41-52: `none` for `return None`. -/
def variantName (cx : SrcCx V) (r : Rename) (v : EnumVariant V) : List SrcError × Option (Str × V) :=
  if !v.unit then ([.nonUnitVariant], none)
  else match parseValueAttrs variantUpdate none v.attrs with
    | (some name, errs) => (errs, some (name, v.value))
    | (none, errs) => (errs, some (r.rename cx v.ident, v.value))

/-- `derive(ValueEnum)`: `derive_value_enum.rs` 10-73; `variants` is `none` if the input is not an enum. -/
def expandValueEnum (cx : SrcCx V) (attrs : List (Attr Unit)) (variants : Option (List (EnumVariant V))) :
    Expansion (EnumDef V) :=
  match variants with
  | none => .errors [.unsupportedData]
  | some vs =>
    let (rename, errs) := parseValueAttrs enumUpdate none attrs
    let rs := vs.map (variantName cx (rename.getD .kebabCase))
    let errs := errs ++ rs.flatMap (·.1)
    match deriveValueEnum (rs.filterMap (·.2)) with
    | .ok e => if errs = [] then .ok e else .errors errs
    | .error es => .errors (errs ++ es.map .derive)

end Palc
