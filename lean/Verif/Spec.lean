import Verif.Derive
/-!
# Specification of the command line language

An independent description of what a derived CLI accepts and what it produces: which field an option
name refers to, how a list of arguments is read (an inductive grammar), what the occurrences of a
field are worth, which constraints must hold and which struct results.

Nothing here refers to frames, packed attributes, encoded name tables, sorting, binary search, parser
state or generated closures (except `searched`, for enums with several variants of the same name).  Definitions are described by the *source attributes* of each field
(`FieldInfo.src`), its identifier, its kind of type and its value parser.
-/

namespace Palc.Spec

variable {V : Type}

/-! ## Fields -/

/-- An option name as the user knows it: `--s` or `-c`. -/
inductive Name
  | long (s : Str)
  | short (c : Char)
  deriving DecidableEq

/-- A field is an option (named argument) iff `arg(long)` or `arg(short)` is given. -/
def isOption (f : FieldInfo V) : Bool := f.src.long.isSome || f.src.short.isSome

/-- Long names of a field: `arg(long)` (field name in kebab-case), `arg(long = "..")`, aliases. -/
def longNames (cx : Cx V) (f : FieldInfo V) : List Str :=
  f.src.alias ++ (match f.src.long with
    | some .inherit => [cx.kebab f.ident]
    | some (.explicit s) => [s]
    | none => [])

/-- Short names of a field: `arg(short)` (first character), `arg(short = 'c')`, short aliases. -/
def shortNames (f : FieldInfo V) : List Char :=
  f.src.shortAlias ++ (match f.src.short with
    | some .inherit => f.ident.take 1
    | some (.explicit c) => [c]
    | none => [])

/-- Does the field declare this option name? -/
def declares (cx : Cx V) (f : FieldInfo V) : Name → Bool
  | .long s => isOption f && (longNames cx f).contains s
  | .short c => isOption f && (shortNames f).contains c

/-- Fields of type `T`, `Option<T>`, `Vec<T>`, `Option<Vec<T>>` need a value with each occurrence. -/
def takesValue (f : FieldInfo V) : Bool :=
  match f.kind with
  | .value => true
  | .option => true
  | .vec => true
  | .optionVec => true
  | .bool => false
  | .optionOption => false

/-- `Vec<T>` and `Option<Vec<T>>` fields may occur several times. -/
def isMulti (f : FieldInfo V) : Bool :=
  match f.kind with
  | .vec => true
  | .optionVec => true
  | _ => false

/-- `arg(required)` or a plain type, without default. -/
def isRequired (f : FieldInfo V) : Bool :=
  (f.src.required || decide (f.kind = .value)) && f.defaultValue.isNone

/-- An argument that is not of the form `-x..`: it does not start with '-', or is exactly `-`. -/
def Plain (tok : Bytes) : Prop := tok.head? ≠ some dash ∨ tok = [dash]

/-- May `v` be given to option `f` as a separate argument? -/
def Standalone (f : FieldInfo V) (v : Bytes) : Prop :=
  Plain v ∨ f.src.allowHyphenValues = true
    ∨ (f.src.allowNegativeNumbers = true ∧ ∀ b ∈ v.tail, 48 ≤ b.toNat ∧ b.toNat ≤ 57)

/-! ## Definition trees -/

mutual
/-- The structs making up one command: the struct itself followed by its flattened structs in
declaration order, each followed by its own flattened structs. -/
def structs : ArgsDef V → List (Core V)
  | .mk core flats _ => core :: flatStructs flats
def flatStructs : Flats V → List (Core V)
  | .nil => []
  | .cons _ d rest => structs d ++ flatStructs rest
end

/-- The struct itself. -/
def coreOf : ArgsDef V → Core V
  | .mk core _ _ => core

/-- The subcommand field. -/
def subOf : ArgsDef V → SubField V
  | .mk _ _ sub => sub

/-- The arguments of a subcommand variant (none for a unit variant). -/
def variantDef : Variant V → ArgsDef V
  | .unit _ _ cmeta => .mk { fields := [], namedCnt := 0, cmdMeta := cmeta } .nil .none
  | .args _ _ d => d

/-- Identifier of a variant. -/
def variantIdent : Variant V → Str
  | .unit i _ _ => i
  | .args i _ _ => i

/-- The variants of an enum. -/
def variantList : Variants V → List (Variant V)
  | .nil => []
  | .cons v rest => v :: variantList rest

/-- The variants of the subcommand field of a command (none if it has no such field). -/
def subVariants (d : ArgsDef V) : List (Variant V) :=
  match subOf d with
  | .none => []
  | .some _ _ vs => variantList vs

/-- Is there a subcommand field? -/
def hasSub (d : ArgsDef V) : Bool :=
  match subOf d with
  | .none => false
  | .some _ _ _ => true

/-- Is there a subcommand field that is not an `Option`? -/
def subRequired (d : ArgsDef V) : Bool :=
  match subOf d with
  | .none => false
  | .some _ optional _ => !optional

/-- The variant that the generated lookup finds.  Only used to tell which one of several variants of the same name is
selected (the derive macros do not reject those, finding 2). -/
def searched (d : ArgsDef V) (arg : Bytes) : Option (Variant V) :=
  match (subOf d).info with
  | none => none
  | some si =>
    match si.search arg with
    | none => none
    | some (_, idx) => (subVariants d)[idx]?

/-- `v` is the subcommand selected by its name: it is the only variant of that name.  If there are several (finding 2), it is
the one that the binary search in the generated table happens to find. -/
def Selected (d : ArgsDef V) (v : Variant V) : Prop :=
  v ∈ subVariants d ∧ ((∀ w ∈ subVariants d, w.name = v.name → w = v) ∨ searched d (enc v.name) = some v)

theorem searched_mem {d : ArgsDef V} {arg : Bytes} {v : Variant V} (h : searched d arg = some v) : v ∈ subVariants d := by
  unfold searched at h
  split at h
  · cases h
  · split at h
    · cases h
    · exact List.mem_of_getElem? h

theorem Selected.of_nodup {d : ArgsDef V} {v : Variant V} (hn : ((subVariants d).map Variant.name).Nodup)
    (h : v ∈ subVariants d) : Selected d v := by
  refine ⟨h, .inl (fun w hw he => ?_)⟩
  generalize subVariants d = l at *
  induction l with
  | nil => cases h
  | cons a l ih =>
    simp only [List.map_cons, List.nodup_cons, List.mem_map, not_exists, not_and] at hn
    rcases List.mem_cons.1 hw with rfl | hw' <;> rcases List.mem_cons.1 h with rfl | h'
    · rfl
    · exact absurd he.symm (hn.1 v h')
    · exact absurd he (hn.1 w hw')
    · exact ih hn.2 h' hw'

/-! ## Which field does an option name refer to? -/

/-- Position of a field: level of the command (0 for the root), struct within the command (in the order
of `structs`), field within the struct. -/
structure Addr where
  level : Nat
  struct : Nat
  field : Nat
  deriving DecidableEq

/-- How a command was entered: the identifier of the enum variant and the name on the command line.  For
the root command there is no variant, the name is the program name. -/
structure CmdId where
  ident : Str
  name : Str
  deriving DecidableEq

/-- An entered command. -/
abbrev Entry (V : Type) := CmdId × ArgsDef V

/-- The program name shown in help texts: the file name in `argv[0]`, or all of it if it has none. -/
def progName (argv0 : Bytes) : Str := lossy ((fileName argv0).getD argv0)

/-- The field at an address. -/
def fieldAt : List (Entry V) → Addr → Option (FieldInfo V)
  | [], _ => none
  | (_, d) :: outer, a =>
    if a.level = outer.length then
      match (structs d)[a.struct]? with
      | some c => c.fields[a.field]?
      | none => none
    else fieldAt outer a

/-- All fields of a command at the given level, in order. -/
def fieldsAt (level : Nat) (d : ArgsDef V) : List (Addr × FieldInfo V) :=
  (structs d).zipIdx.flatMap (fun (c, s) => c.fields.zipIdx.map (fun (f, i) => (⟨level, s, i⟩, f)))

/-- Global fields of enclosing commands, nearest command first. -/
def globals : List (Entry V) → List (Addr × FieldInfo V)
  | [] => []
  | (_, d) :: outer => (fieldsAt outer.length d).filter (fun x => x.2.src.global) ++ globals outer

/-- Fields that can be referred to by name, in order of precedence, when the given commands have been
entered (innermost first). -/
def visible : List (Entry V) → List (Addr × FieldInfo V)
  | [] => []
  | (_, d) :: outer => fieldsAt outer.length d ++ globals outer

/-- `n` refers to the field `f` at address `a`: the first visible field declaring that name. -/
def Resolves (cx : Cx V) (stack : List (Entry V)) (n : Name) (a : Addr) (f : FieldInfo V) : Prop :=
  (visible stack).find? (fun x => declares cx x.2 n) = some (a, f)

/-- No visible field declares the name. -/
def Unknown (cx : Cx V) (stack : List (Entry V)) (n : Name) : Prop :=
  ∀ x ∈ visible stack, declares cx x.2 n = false

/-! ## Positional arguments of a command -/

/-- Single-valued positional fields with their index, in declaration order. -/
def singles (d : ArgsDef V) : List (FieldInfo V × Nat) :=
  (coreOf d).fields.zipIdx.filter (fun x => !isOption x.1 && !isMulti x.1 && !x.1.src.last)

/-- The variable-length positional field. -/
def varArg (d : ArgsDef V) : Option (FieldInfo V × Nat) :=
  (coreOf d).fields.zipIdx.find? (fun x => !isOption x.1 && isMulti x.1 && !x.1.src.last)

/-- The `arg(last)` field. -/
def lastArg (d : ArgsDef V) : Option (FieldInfo V × Nat) :=
  (coreOf d).fields.zipIdx.find? (fun x => !isOption x.1 && x.1.src.last)

/-- The field receiving the `k`-th (from 0) positional argument. -/
def posTarget (d : ArgsDef V) (k : Nat) : Option (FieldInfo V × Nat) :=
  match (singles d)[k]? with
  | some x => some x
  | none => varArg d

/-! ## The grammar -/

/-- What the reader is doing: recognising options and subcommands, reading positional arguments after
`--`, or feeding everything to a trailing argument (given by its field index). -/
inductive Mode
  | opts
  | dashed
  | trailing (field : Nat)
  deriving DecidableEq

/-- Reading context: entered commands (innermost first), number of positional arguments read by the
innermost one, mode. -/
structure Ctx (V : Type) where
  stack : List (Entry V)
  npos : Nat
  mode : Mode

/-- An occurrence of a field, with its raw value if it has one. -/
abbrev Event := Addr × Option Bytes

/-- A cluster of short options (what follows the `-`), together with the next argument, of which `took`
tells if it is used as a value.

`-f=v` for an `Option<Option<T>>` option is *not* in this grammar although it is documented: the
implementation rejects it (finding 1). -/
inductive Cluster (cx : Cx V) (stack : List (Entry V)) (next : Option Bytes) :
    Bytes → List Event → Bool → Prop
  /-- `-x` at the end: an option without value. -/
  | bare {c a f} (hr : Resolves cx stack (.short c) a f) (ht : takesValue f = false) :
      Cluster cx stack next (encChar c) [(a, none)] false
  /-- `-xREST`: a flag followed by more. -/
  | more {c a f rest evs took} (hr : Resolves cx stack (.short c) a f) (ht : takesValue f = false)
      (hq : f.src.requireEquals = false) (hne : rest ≠ []) (heq : rest.head? ≠ some eqSign)
      (h : Cluster cx stack next rest evs took) :
      Cluster cx stack next (encChar c ++ rest) ((a, none) :: evs) took
  /-- `-x=VALUE`. -/
  | eq {c a f v} (hr : Resolves cx stack (.short c) a f) (ht : takesValue f = true) :
      Cluster cx stack next (encChar c ++ eqSign :: v) [(a, some v)] false
  /-- `-xVALUE`. -/
  | attached {c a f v} (hr : Resolves cx stack (.short c) a f) (ht : takesValue f = true)
      (hq : f.src.requireEquals = false) (hne : v ≠ []) (heq : v.head? ≠ some eqSign) :
      Cluster cx stack next (encChar c ++ v) [(a, some v)] false
  /-- `-x VALUE`. -/
  | sep {c a f v} (hr : Resolves cx stack (.short c) a f) (ht : takesValue f = true)
      (hq : f.src.requireEquals = false) (hn : next = some v) (hs : Standalone f v) :
      Cluster cx stack next (encChar c) [(a, some v)] true

/-- Mode after an argument went to positional field `x`. -/
def modeAfter (x : FieldInfo V × Nat) (mode : Mode) : Mode :=
  if x.1.src.trailingVarArg then .trailing x.2 else mode

/-- `Reads cx κ toks evs κ'`: starting in context `κ`, the arguments `toks` are read completely as the
occurrences `evs`, ending in context `κ'`. -/
inductive Reads (cx : Cx V) : Ctx V → List Bytes → List Event → Ctx V → Prop
  | done {κ} : Reads cx κ [] [] κ
  /-- `--name=VALUE`. -/
  | longEq {st k n v a f toks evs κ'} (hr : Resolves cx st (.long n) a f) (hn : '=' ∉ n)
      (ht : f.kind ≠ .bool) (h : Reads cx ⟨st, k, .opts⟩ toks evs κ') :
      Reads cx ⟨st, k, .opts⟩ ((enc ('-' :: '-' :: n) ++ eqSign :: v) :: toks) ((a, some v) :: evs) κ'
  /-- `--name` for an option that takes no (or an optional) value. -/
  | longBare {st k n a f toks evs κ'} (hr : Resolves cx st (.long n) a f) (hn : '=' ∉ n)
      (hne : n ≠ []) (ht : takesValue f = false) (h : Reads cx ⟨st, k, .opts⟩ toks evs κ') :
      Reads cx ⟨st, k, .opts⟩ (enc ('-' :: '-' :: n) :: toks) ((a, none) :: evs) κ'
  /-- `--name VALUE`. -/
  | longSep {st k n v a f toks evs κ'} (hr : Resolves cx st (.long n) a f) (hn : '=' ∉ n)
      (hne : n ≠ []) (ht : takesValue f = true) (hq : f.src.requireEquals = false)
      (hs : Standalone f v) (h : Reads cx ⟨st, k, .opts⟩ toks evs κ') :
      Reads cx ⟨st, k, .opts⟩ (enc ('-' :: '-' :: n) :: v :: toks) ((a, some v) :: evs) κ'
  /-- `-xyz..`, not using the next argument. -/
  | cluster {st k b toks evs evs' κ'} (hb : b.head? ≠ some dash)
      (hc : Cluster cx st toks.head? b evs false) (h : Reads cx ⟨st, k, .opts⟩ toks evs' κ') :
      Reads cx ⟨st, k, .opts⟩ ((dash :: b) :: toks) (evs ++ evs') κ'
  /-- `-xyz.. VALUE`. -/
  | clusterSep {st k b v toks evs evs' κ'} (hb : b.head? ≠ some dash)
      (hc : Cluster cx st (some v) b evs true) (h : Reads cx ⟨st, k, .opts⟩ toks evs' κ') :
      Reads cx ⟨st, k, .opts⟩ ((dash :: b) :: v :: toks) (evs ++ evs') κ'
  /-- A subcommand name. -/
  | sub {i d st k v toks evs κ'} (hv : Selected d v) (hp : Plain (enc v.name))
      (h : Reads cx ⟨(⟨variantIdent v, v.name⟩, variantDef v) :: (i, d) :: st, 0, .opts⟩ toks evs κ') :
      Reads cx ⟨(i, d) :: st, k, .opts⟩ (enc v.name :: toks) evs κ'
  /-- A positional argument. -/
  | positional {i d st k tok x toks evs κ'} (hp : Plain tok)
      (hns : ∀ v ∈ subVariants d, enc v.name ≠ tok) (hx : posTarget d k = some x)
      (h : Reads cx ⟨(i, d) :: st, k + 1, modeAfter x .opts⟩ toks evs κ') :
      Reads cx ⟨(i, d) :: st, k, .opts⟩ (tok :: toks) ((⟨st.length, 0, x.2⟩, some tok) :: evs) κ'
  /-- `--`. -/
  | dashdash {st k toks evs κ'} (h : Reads cx ⟨st, k, .dashed⟩ toks evs κ') :
      Reads cx ⟨st, k, .opts⟩ ([dash, dash] :: toks) evs κ'
  /-- After `--`, with an `arg(last)` field. -/
  | last {i d st k tok x toks evs κ'} (hx : lastArg d = some x)
      (h : Reads cx ⟨(i, d) :: st, k, .dashed⟩ toks evs κ') :
      Reads cx ⟨(i, d) :: st, k, .dashed⟩ (tok :: toks) ((⟨st.length, 0, x.2⟩, some tok) :: evs) κ'
  /-- After `--`, without an `arg(last)` field: positional, whatever it looks like. -/
  | dashed {i d st k tok x toks evs κ'} (hl : lastArg d = none) (hx : posTarget d k = some x)
      (h : Reads cx ⟨(i, d) :: st, k + 1, modeAfter x .dashed⟩ toks evs κ') :
      Reads cx ⟨(i, d) :: st, k, .dashed⟩ (tok :: toks) ((⟨st.length, 0, x.2⟩, some tok) :: evs) κ'
  /-- After the first value of a `trailing_var_arg` argument: everything goes to it. -/
  | trailing {i d st k tok j toks evs κ'}
      (h : Reads cx ⟨(i, d) :: st, k, .trailing j⟩ toks evs κ') :
      Reads cx ⟨(i, d) :: st, k, .trailing j⟩ (tok :: toks) ((⟨st.length, 0, j⟩, some tok) :: evs) κ'

/-- Initial context. -/
def start (argv0 : Bytes) (d : ArgsDef V) : Ctx V := ⟨[(⟨[], progName argv0⟩, d)], 0, .opts⟩

/-! ## What occurrences are worth -/

/-- The occurrences of one field. -/
def occs (evs : List Event) (a : Addr) : List (Option Bytes) :=
  (evs.filter (fun e => decide (e.1 = a))).map (·.2)

/-- The content of a field. -/
inductive Value (V : Type)
  | absent
  | flag (b : Bool)
  | one (v : V)
  | optional (v : Option V)
  | many (vs : List V)

/-- Parsed value, if valid. -/
def parsed (f : FieldInfo V) (b : Bytes) : Option V :=
  match f.parser.parse b with
  | .ok v => some v
  | .error _ => none

/-- All of them parsed, if all are valid. -/
def parsedAll (f : FieldInfo V) : List Bytes → Option (List V)
  | [] => some []
  | b :: bs =>
    match parsed f b, parsedAll f bs with
    | some v, some vs => some (v :: vs)
    | _, _ => none

/-- The pieces of a value of a `Vec`-like field. -/
def pieces (f : FieldInfo V) (b : Bytes) : List Bytes :=
  match f.valueDelimiter with
  | some c => splitOn c b
  | none => [b]

/-- The values of a list of occurrences, if all have one. -/
def allValues : List (Option Bytes) → Option (List Bytes)
  | [] => some []
  | some b :: rest => (allValues rest).map (b :: ·)
  | none :: _ => none

/-- Content of a field with the given occurrences, if these are acceptable: at most one occurrence
unless `Vec`-like, values present exactly where needed, all values valid. -/
def content (f : FieldInfo V) (os : List (Option Bytes)) : Option (Value V) :=
  match os with
  | [] => some .absent
  | _ :: _ =>
    match f.kind with
    | .bool => if os = [none] then some (.flag true) else none
    | .value | .option =>
      match os with
      | [some b] => (parsed f b).map .one
      | _ => none
    | .optionOption =>
      match os with
      | [none] => some (.optional none)
      | [some b] => (parsed f b).map (fun v => .optional (some v))
      | _ => none
    | .vec | .optionVec =>
      match allValues os with
      | some bs => (parsedAll f (bs.flatMap (pieces f))).map .many
      | none => none

/-- ASCII lower-casing of the value for `ignore_case`. -/
def normalise (f : FieldInfo V) (b : Bytes) : Bytes := if f.src.ignoreCase then asciiLower b else b

/-- Content of a field as given on the command line. -/
def given (f : FieldInfo V) (os : List (Option Bytes)) : Option (Value V) :=
  content f (os.map (Option.map (normalise f)))

/-- Default content of a field that does not occur. -/
def defaultContent (f : FieldInfo V) : Option (Value V) :=
  match f.defaultValue with
  | none => some .absent
  | some (.parseStr s) => content f [some (enc s)]
  | some (.valueExpr (.bool b) _) => some (.flag b)
  | some (.valueExpr (.one v) _) => some (.one v)
  | some (.valueExpr (.opt v) _) => some (.optional v)
  | some (.valueExpr (.many vs) _) => some (.many vs)

/-- Value of the output field for a content. -/
def toField (f : FieldInfo V) : Value V → Option (FieldOut V)
  | .absent => match f.kind with
    | .bool => some (.bool false)
    | .value => none
    | .option => some (.option none)
    | .optionOption => some (.optOpt none)
    | .vec => some (.vec [])
    | .optionVec => some (.optVec none)
  | .flag b => if f.kind = .bool then some (.bool b) else none
  | .one v => match f.kind with
    | .value => some (.value v)
    | .option => some (.option (some v))
    | _ => none
  | .optional v => if f.kind = .optionOption then some (.optOpt (some v)) else none
  | .many vs => match f.kind with
    | .vec => some (.vec vs)
    | .optionVec => some (.optVec (some vs))
    | _ => none

/-- Value of the output field with the given occurrences. -/
def fieldOut (f : FieldInfo V) (os : List (Option Bytes)) : Option (FieldOut V) :=
  match os with
  | [] => (defaultContent f).bind (toField f)
  | _ :: _ => (given f os).bind (toField f)

/-! ## Constraints -/

/-- The constraints of one struct; `os i` are the occurrences of its `i`-th field, `sub` tells if a
subcommand was entered (for the struct with the subcommand field). -/
structure StructOk (c : Core V) (os : Nat → List (Option Bytes)) (sub : Bool) : Prop where
  required : ∀ i f, c.fields[i]? = some f → isRequired f = true → os i ≠ []
  requires : ∀ i f, c.fields[i]? = some f → os i ≠ [] → ∀ x ∈ f.src.requires,
    ∃ j g, c.fields[j]? = some g ∧ g.ident = x ∧ os j ≠ []
  conflicts : ∀ i f, c.fields[i]? = some f → os i ≠ [] → ∀ x ∈ f.src.conflictsWith,
    ∀ j g, c.fields[j]? = some g → g.ident = x → os j = []
  exclusive : ∀ i f, c.fields[i]? = some f → os i ≠ [] → f.src.exclusive = true →
    (∀ j, j < c.fields.length → os j ≠ [] → j = i) ∧ sub = false

/-- All conditions on one entered command at `level`, of which a subcommand was entered iff `sub`. -/
structure LevelOk (evs : List Event) (level : Nat) (d : ArgsDef V) (sub : Bool) : Prop where
  values : ∀ s c, (structs d)[s]? = some c → ∀ i f, c.fields[i]? = some f →
    given f (occs evs ⟨level, s, i⟩) ≠ none
  structs : ∀ s c, (structs d)[s]? = some c →
    StructOk c (fun i => occs evs ⟨level, s, i⟩) (sub && decide (s = 0))
  subcommand : subRequired d = true → sub = true

/-- All entered commands (innermost first); `sub` for the innermost one. -/
def AllOk (evs : List Event) : List (Entry V) → Bool → Prop
  | [], _ => True
  | (_, d) :: outer, sub => LevelOk evs outer.length d sub ∧ AllOk evs outer true

/-! ## Output -/

/-- Values of the own fields of a struct. -/
def outFields (os : Nat → List (Option Bytes)) : Nat → List (FieldInfo V) → Option (List (Str × Out V))
  | _, [] => some []
  | i, f :: fs =>
    match fieldOut f (os i), outFields os (i + 1) fs with
    | some o, some r => some ((f.ident, .field o) :: r)
    | _, _ => none

/-- Value of the subcommand field. -/
def outSub : SubField V → Option (Out V) → Option (List (Str × Out V))
  | .none, _ => some []
  | .some ident true _, o => some [(ident, .optSub o)]
  | .some ident false _, some o => some [(ident, o)]
  | .some _ false _, none => none

mutual
/-- The struct produced from the occurrences `os` (by struct and field); it is struct number `s` of its
command. -/
def outArgs (os : Nat → Nat → List (Option Bytes)) (s : Nat) (sub : Option (Out V)) :
    ArgsDef V → Option (Out V)
  | .mk core flats subField =>
    match outFields (os s) 0 core.fields, outFlats os (s + 1) flats, outSub subField sub with
    | some own, some fl, some sb => some (.struct (own ++ fl ++ sb))
    | _, _, _ => none
def outFlats (os : Nat → Nat → List (Option Bytes)) (s : Nat) : Flats V → Option (List (Str × Out V))
  | .nil => some []
  | .cons ident d rest =>
    match outArgs os s none d, outFlats os (s + (structs d).length) rest with
    | some o, some r => some ((ident, o) :: r)
    | _, _ => none
end

/-- The result for all entered commands (innermost first). -/
def outAll (evs : List Event) : List (Entry V) → Option (Out V) → Option (Out V)
  | [], sub => sub
  | (i, d) :: outer, sub =>
    match outArgs (fun s i => occs evs ⟨outer.length, s, i⟩) 0 sub d with
    | some o => match outer with
      | [] => some o
      | _ :: _ => outAll evs outer (some (.variant i.ident o))
    | none => none

/-- The command line is accepted and produces `out`. -/
def Accepts (cx : Cx V) (d : ArgsDef V) (argv0 : Bytes) (toks : List Bytes) (out : Out V) : Prop :=
  ∃ evs κ, Reads cx (start argv0 d) toks evs κ ∧ AllOk evs κ.stack false ∧ outAll evs κ.stack none = some out

end Palc.Spec
