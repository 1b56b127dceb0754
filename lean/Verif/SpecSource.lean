import Verif.Source
/-!
# What attributes mean

Tables of the attributes palc documents, the form of their values, and the settings they make, without
reference to the order in which the macros read them.
-/

namespace Palc

namespace Spec

variable {V E : Type}

/-- The attributes of `#[arg(..)]`. -/
inductive Key
  | long | short | alias | shortAlias | valueName | requireEquals | global | allowHyphenValues
  | allowNegativeNumbers | trailingVarArg | last | defaultValue | defaultValueT | useDelimiter | delimiter
  | valueEnum | ignoreCase | help | longHelp | hide | required | exclusive | requires | conflictsWith
  | conflictsWithAll
  deriving DecidableEq

/-- Their names. -/
def attrTable : List (String × Key) :=
  [("long", .long), ("short", .short), ("alias", .alias), ("aliases", .alias), ("short_alias", .shortAlias),
   ("short_aliases", .shortAlias), ("value_name", .valueName), ("require_equals", .requireEquals),
   ("global", .global), ("allow_hyphen_values", .allowHyphenValues),
   ("allow_negative_numbers", .allowNegativeNumbers), ("trailing_var_arg", .trailingVarArg),
   ("last", .last), ("default_value", .defaultValue), ("default_value_t", .defaultValueT),
   ("default_values_t", .defaultValueT), ("use_value_delimiter", .useDelimiter),
   ("value_delimiter", .delimiter), ("value_enum", .valueEnum), ("ignore_case", .ignoreCase),
   ("help", .help), ("long_help", .longHelp), ("hide", .hide), ("required", .required),
   ("exclusive", .exclusive), ("requires", .requires), ("conflicts_with", .conflictsWith),
   ("conflicts_with_all", .conflictsWithAll)]

/-- The attribute with a given name. -/
def keyOf (p : Str) : Option Key := (attrTable.find? (fun e => decide (lit e.1 = p))).map (·.2)

/-- What an attribute sets, if it can be set only once: names, delimiters and so on.  `none` for the
attributes that add to a list. -/
def Key.setting : Key → Option Key
  | .alias | .shortAlias | .requires | .conflictsWith | .conflictsWithAll => none
  | .useDelimiter => some .delimiter
  | k => some k

/-- String literals of a value. -/
def strs : MetaVal E → List Str
  | .eq (some (.str s)) _ => [s]
  | .arr ls _ => ls.filterMap (fun
    | some (.str s) => some s
    | _ => none)
  | _ => []

/-- Character literals of a value. -/
def chars : MetaVal E → List Char
  | .eq (some (.char c)) _ => [c]
  | .arr ls _ => ls.filterMap (fun
    | some (.char s) => some s
    | _ => none)
  | _ => []

/-- `true`. -/
def IsTrue (v : MetaVal E) : Prop := ∃ e, v = .eq (some (.bool true)) e
/-- A string literal. -/
def IsStr (v : MetaVal E) : Prop := ∃ s e, v = .eq (some (.str s)) e
/-- A character literal. -/
def IsChar (v : MetaVal E) : Prop := ∃ c e, v = .eq (some (.char c)) e
/-- A string literal that is an identifier. -/
def IsField (isIdent : Str → Bool) (v : MetaVal E) : Prop :=
  ∃ s e, v = .eq (some (.str s)) e ∧ isIdent s = true
/-- Nothing, or an expression. -/
def IsOptExpr (v : MetaVal E) : Prop :=
  v = .bare ∨ (∃ l e, v = .eq l (some e)) ∨ ∃ ls e, v = .arr ls (some e)
/-- A bracketed list of literals of one form. -/
def IsArr (P : TokLit → Prop) (v : MetaVal E) : Prop :=
  ∃ ls e, v = .arr ls e ∧ ∀ l ∈ ls, ∃ t, l = some t ∧ P t

/-- The form of the value of each attribute. -/
def Form (isIdent : Str → Bool) : Key → MetaVal E → Prop
  | .long, v => v = .bare ∨ IsStr v
  | .short, v => v = .bare ∨ IsChar v
  | .alias, v => IsStr v ∨ IsArr (fun t => ∃ s, t = .str s) v
  | .shortAlias, v => IsChar v ∨ IsArr (fun t => ∃ c, t = .char c) v
  | .valueName, v => IsStr v
  | .defaultValue, v => IsStr v
  | .help, v => IsStr v
  | .longHelp, v => IsStr v
  | .defaultValueT, v => IsOptExpr v
  | .delimiter, v => IsChar v
  | .valueEnum, v => v = .bare
  | .requires, v => IsField isIdent v
  | .conflictsWith, v => IsField isIdent v
  | .conflictsWithAll, v => IsField isIdent v ∨ IsArr (fun t => ∃ s, t = .str s ∧ isIdent s = true) v
  | .requireEquals, v => IsTrue v
  | .global, v => IsTrue v
  | .allowHyphenValues, v => IsTrue v
  | .allowNegativeNumbers, v => IsTrue v
  | .trailingVarArg, v => IsTrue v
  | .last, v => IsTrue v
  | .useDelimiter, v => IsTrue v
  | .ignoreCase, v => IsTrue v
  | .hide, v => IsTrue v
  | .required, v => IsTrue v
  | .exclusive, v => IsTrue v

/-- A documented attribute with a value of the right form. -/
def ItemOk (isIdent : Str → Bool) (it : Item E) : Prop := ∃ k, keyOf it.path = some k ∧ Form isIdent k it.val

/-- What the items set, each setting with its repetitions. -/
def settings (items : List (Item E)) : List Key :=
  items.filterMap (fun it => (keyOf it.path).bind Key.setting)

/-- Is an attribute given? -/
def has (k : Key) (items : List (Item E)) : Bool := items.any (fun it => decide (keyOf it.path = some k))

/-- The value of an attribute that is given at most once. -/
def valueOf (k : Key) (items : List (Item E)) : Option (MetaVal E) :=
  (items.find? (fun it => decide (keyOf it.path = some k))).map (·.val)

/-- All values of an attribute that may be repeated. -/
def valuesOf (ks : List Key) (items : List (Item E)) : List (MetaVal E) :=
  (items.filter (fun it => decide (∃ k ∈ ks, keyOf it.path = some k))).map (·.val)

/-- The string given, if any; without one the name is derived from the field. -/
def overrideStr (v : MetaVal E) : Override Str :=
  match v with
  | .eq (some (.str s)) _ => .explicit s
  | _ => .inherit

/-- The character given, if any; without one the name is derived from the field. -/
def overrideChar (v : MetaVal E) : Override Char :=
  match v with
  | .eq (some (.char s)) _ => .explicit s
  | _ => .inherit

/-- The expression given, if any; without one the default of the type is used. -/
def overrideVal (v : MetaVal E) : Override E :=
  match v with
  | .eq _ (some e) => .explicit e
  | .arr _ (some e) => .explicit e
  | _ => .inherit

/-- The settings a list of items makes, with the documentation text. -/
def metaOf (doc : Str) (items : List (Item (DefaultOut V × Str))) : ArgMeta V where
  doc := doc
  long := (valueOf .long items).map overrideStr
  short := (valueOf .short items).map overrideChar
  alias := (valuesOf [.alias] items).flatMap strs
  shortAlias := (valuesOf [.shortAlias] items).flatMap chars
  valueName := (valueOf .valueName items).bind (fun v => (strs v).head?)
  requireEquals := has .requireEquals items
  global := has .global items
  allowHyphenValues := has .allowHyphenValues items
  allowNegativeNumbers := has .allowNegativeNumbers items
  ignoreCase := has .ignoreCase items
  trailingVarArg := has .trailingVarArg items
  last := has .last items
  defaultValue := (valueOf .defaultValue items).bind (fun v => (strs v).head?)
  defaultValueT := (valueOf .defaultValueT items).map overrideVal
  valueDelimiter := if has .useDelimiter items then some ',' else (valueOf .delimiter items).bind (fun v => (chars v).head?)
  valueEnum := has .valueEnum items
  help := (valueOf .help items).bind (fun v => (strs v).head?)
  longHelp := (valueOf .longHelp items).bind (fun v => (strs v).head?)
  hide := has .hide items
  required := has .required items
  exclusive := has .exclusive items
  requires := (valuesOf [.requires] items).flatMap strs
  conflictsWith := (valuesOf [.conflictsWith, .conflictsWithAll] items).flatMap strs

/-- All items of the `#[arg(..)]` attributes of a field. -/
def argItems (attrs : List (Attr E)) : List (Item E) :=
  attrs.flatMap (fun
    | .arg (some items) => items
    | _ => [])

/-- Lines of documentation. -/
def docLines (attrs : List (Attr E)) : List Str :=
  attrs.filterMap (fun
    | .doc (some t) => some t
    | _ => none)

/-- Attributes of a field that can be read at all: documentation is literal, `#[arg]` has a list, and
`#[command]` is `#[command(subcommand)]` or `#[command(flatten)]`. -/
def AttrForm : Attr E → Prop
  | .doc t => t ≠ none
  | .arg items => items ≠ none
  | .command items => items = some [⟨lit "subcommand", .bare⟩] ∨ items = some [⟨lit "flatten", .bare⟩]
  | _ => True

/-- The `#[command(subcommand)]` and `#[command(flatten)]` attributes of a field. -/
def commands (attrs : List (Attr E)) : List ArgsCommand :=
  attrs.filterMap (fun
    | .command (some [⟨p, .bare⟩]) =>
      if p = lit "subcommand" then some .subcommand else if p = lit "flatten" then some .flatten else none
    | _ => none)

/-- Does the field have an `#[arg(..)]` attribute? -/
def hasArg (attrs : List (Attr E)) : Bool :=
  attrs.any (fun
    | .arg _ => true
    | _ => false)

/-- Field attributes without any mistake that can be seen in them: every attribute has one of the documented
forms, no setting is made twice, and there is at most one `#[command(..)]`, not together with `#[arg(..)]`. -/
structure AttrsOk (isIdent : Str → Bool) (attrs : List (Attr E)) : Prop where
  forms : ∀ a ∈ attrs, AttrForm a
  items : ∀ it ∈ argItems attrs, ItemOk isIdent it
  once : (settings (argItems attrs)).Nodup
  one : (commands attrs).length ≤ 1
  excl : commands attrs = [] ∨ hasArg attrs = false

/-- The expression given. -/
def exprOf : MetaVal E → Option E
  | .eq _ e => e
  | .arr _ e => e
  | _ => none

/-- The attributes of `#[command(..)]` on structs, enum variants and the like, with the form of their values:
`name = ".."`, `version [= expr]`, `long_about [= expr]` and `after_long_help = expr`. -/
def CmdItemOk (it : Item E) : Prop :=
  (it.path = lit "name" ∧ IsStr it.val) ∨ (it.path = lit "version" ∧ IsOptExpr it.val)
    ∨ (it.path = lit "long_about" ∧ IsOptExpr it.val)
    ∨ (it.path = lit "after_long_help" ∧ (exprOf it.val).isSome = true)

/-- The value of an attribute. -/
def cmdValue (name : String) (items : List (Item E)) : Option (MetaVal E) :=
  (items.find? (fun it => decide (it.path = lit name))).map (·.val)

/-- The settings a list of items of `#[command(..)]` makes, with the documentation text.  `long_about` without
a value stands for the description of the package. -/
def cmdMetaOf (pkg doc : Str) (items : List (Item Str)) : CommandMeta where
  doc := doc
  name := (cmdValue "name" items).bind (fun v => (strs v).head?)
  version := (cmdValue "version" items).map overrideVal
  longAbout := (cmdValue "long_about" items).map (fun v => match exprOf v with
    | some e => e
    | none => pkg)
  afterLongHelp := (cmdValue "after_long_help" items).bind exprOf

/-- All items of the `#[command(..)]` attributes. -/
def cmdItems (attrs : List (Attr E)) : List (Item E) :=
  attrs.flatMap (fun
    | .command (some items) => items
    | _ => [])

/-- Is there a `#[command(..)]` attribute? -/
def hasCmd (attrs : List (Attr E)) : Bool :=
  attrs.any (fun
    | .command _ => true
    | _ => false)

/-- Attributes allowed on structs and enum variants: no `#[arg(..)]`. -/
def CmdAttrForm : Attr E → Prop
  | .doc t => t ≠ none
  | .arg _ => False
  | .command items => items ≠ none
  | _ => True

/-- Attributes of a struct or enum variant without any mistake that can be seen in them. -/
structure CmdAttrsOk (attrs : List (Attr E)) : Prop where
  forms : ∀ a ∈ attrs, CmdAttrForm a
  items : ∀ it ∈ cmdItems attrs, CmdItemOk it
  once : ((cmdItems attrs).map (·.path)).Nodup

end Spec

end Palc
