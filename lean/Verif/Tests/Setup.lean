import Verif.Source
import Verif.SpecMacro
/-!
# The tests of the project, run on the model

The files in `Verif/Tests` are transcriptions of the tests in `/repo/tests`.  They start from the source text of the structs, as
far as the model has it, and compare results, error messages and help texts.  They say nothing about all inputs; they check that the
model agrees with the code where the authors wrote down what the code does.

This file has the parameters of the model: concrete value types, `heck`, and formatting by `std`.
-/

namespace Palc.Tests

/-- Values of the types used in the tests: text, paths, numbers, unit variants. -/
inductive Val
  | str (s : Str)
  | path (b : Bytes)
  | int (i : Int)
  | unit (ident : Str)
  deriving DecidableEq

/-! ## `heck` -/

def isUp (c : Char) : Bool := c.isUpper
def isLow (c : Char) : Bool := c.isLower

/-- How far a word has got. -/
inductive Mode
  | boundary | lower | upper
  deriving DecidableEq

/-- Words of an alphanumeric string; `cur` is the current word in reverse. -/
def segWords : Mode → Str → Str → List Str
  | _, cur, [] => if cur = [] then [] else [cur.reverse]
  | _, cur, [c] => [(c :: cur).reverse]
  | mode, cur, c :: n :: rest =>
    let next := if isLow c then .lower else if isUp c then .upper else mode
    if next = .lower ∧ isUp n then (c :: cur).reverse :: segWords .boundary [] (n :: rest)
    else if mode = .upper ∧ isUp c ∧ isLow n then cur.reverse :: segWords .boundary [c] (n :: rest)
    else segWords next (c :: cur) (n :: rest)

/-- Parts between characters that are not alphanumeric. -/
def segments : Str → Str → List Str
  | cur, [] => if cur = [] then [] else [cur.reverse]
  | cur, c :: rest =>
    if c.isAlphanum then segments (c :: cur) rest
    else if cur = [] then segments [] rest
    else cur.reverse :: segments [] rest

def words (s : Str) : List Str := (segments [] s).flatMap (segWords .boundary [])

def lowercase (s : Str) : Str := s.map Char.toLower
def uppercase (s : Str) : Str := s.map Char.toUpper
def capitalize : Str → Str
  | [] => []
  | c :: rest => c.toUpper :: lowercase rest

def joinWith (sep : Str) (ws : List Str) : Str := sep.intercalate ws

def kebab (s : Str) : Str := joinWith (lit "-") ((words s).map lowercase)
def snake (s : Str) : Str := joinWith (lit "_") ((words s).map lowercase)
def shouty (s : Str) : Str := joinWith (lit "_") ((words s).map uppercase)
def pascal (s : Str) : Str := ((words s).map capitalize).flatten
def lowerCamel (s : Str) : Str :=
  match words s with
  | [] => []
  | w :: ws => lowercase w ++ (ws.map capitalize).flatten

/-- Is this an identifier?  (`syn`, for ASCII.) -/
def isIdent (s : Str) : Bool := !s.isEmpty && s.all (fun c => c.isAlphanum || c = '_')

def cx : SrcCx Val where
  kebab := kebab
  shoutySnake := shouty
  boolFromStr := fun s => .ok (.str s)
  isIdent := isIdent
  pkgDescription := []
  lowerCamel := lowerCamel
  pascal := pascal
  snake := snake
  toLowercase := lowercase
  toUppercase := uppercase

/-! ## Formatting -/

def hexDigit (n : Nat) : Char := if n < 10 then Char.ofNat (48 + n) else Char.ofNat (87 + n)

/-- `char::escape_debug`, for the characters that occur. -/
def escape (c : Char) : Str :=
  if c = '"' ∨ c = '\\' then ['\\', c]
  else if c.toNat < 32 then lit "\\u{" ++ (if c.toNat < 16 then [] else [hexDigit (c.toNat / 16)]) ++ [hexDigit (c.toNat % 16)] ++ lit "}"
  else [c]

/-- `{:?}` of an `OsStr` that is valid except for its end. -/
def debugOs (b : Bytes) : Str :=
  let (cs, bad) := utf8Chunk b
  let upperHex (n : Nat) : Char := (hexDigit n).toUpper
  lit "\"" ++ cs.flatMap escape
    ++ bad.flatMap (fun x => lit "\\x" ++ [upperHex (x.toNat / 16), upperHex (x.toNat % 16)]) ++ lit "\""

def fmt : Error.Fmt := { debugOs := debugOs, utf8Err := lit "invalid utf-8 sequence of 1 bytes from index 1" }

/-! ## Value types -/

/-- `FromStr` for integers in a range. -/
def intOf (lo hi : Int) (s : Str) : Except Str Val :=
  let (neg, ds) := match s with
    | '-' :: r => (true, r)
    | '+' :: r => (false, r)
    | _ => (false, s)
  if ds = [] then .error (lit (if s = [] then "cannot parse integer from empty string" else "invalid digit found in string"))
  else if ds.all Char.isDigit then
    let n : Int := ds.foldl (fun n c => n * 10 + (c.toNat - 48)) 0
    let v := if neg then -n else n
    if v < lo then .error (lit "number too small to fit in target type")
    else if hi < v then .error (lit "number too large to fit in target type")
    else .ok (.int v)
  else .error (lit "invalid digit found in string")

/-- Types of the standard library, and those defined by the test. -/
def env (user : List (String × TyInfo Val)) : TyExpr → TyInfo Val
  | .path false false [(i, .none)] =>
    if i = lit "String" then { val := { fromStr := some (fun s => .ok (.str s)), default := some (.str [], []) } }
    else if i = lit "PathBuf" then { val := { tryFromOsStr := some (fun b => .ok (.path b)), fromStr := some (fun s => .ok (.path (enc s))) } }
    else if i = lit "i32" then { val := { fromStr := some (intOf (-2147483648) 2147483647), default := some (.int 0, lit "0") } }
    else if i = lit "i8" then { val := { fromStr := some (intOf (-128) 127), default := some (.int 0, lit "0") } }
    else if i = lit "u8" then { val := { fromStr := some (intOf 0 255), default := some (.int 0, lit "0") } }
    else match user.find? (fun x => decide (lit x.1 = i)) with
      | some x => x.2
      | none => {}
  | _ => {}

/-! ## Source text -/

abbrev Arg := Item (DefaultOut Val × Str)

def ty (s : String) : TyExpr := .path false false [(lit s, .none)]
def opt (t : TyExpr) : TyExpr := Spec.optionOf t
def vec (t : TyExpr) : TyExpr := Spec.vecOf t
def bool : TyExpr := Spec.boolTy
def string : TyExpr := ty "String"

/-- `name`, `name = "s"`, `name = 'c'`, `name = true`, `name = expr`, `name = ["a", ..]`. -/
def on (p : String) : Arg := ⟨lit p, .bare⟩
def str (p v : String) : Arg := ⟨lit p, .eq (some (.str (lit v))) (some (.one (.str (lit v)), lit v))⟩
def chr (p : String) (c : Char) : Arg := ⟨lit p, .eq (some (.char c)) none⟩
def tru (p : String) : Arg := ⟨lit p, .eq (some (.bool true)) (some (.bool true, lit "true"))⟩
def expr (p : String) (v : Val) (shown : String) : Arg := ⟨lit p, .eq none (some (.one v, lit shown))⟩
def arr (p : String) (vs : List String) : Arg := ⟨lit p, .arr (vs.map (fun v => some (.str (lit v)))) none⟩

/-- A field with `#[arg(..)]`. -/
def F (i : String) (t : TyExpr) (items : List Arg := []) : SrcField Val :=
  { ident := lit i, ty := t, attrs := if items.isEmpty then [] else [.arg (some items)] }
/-- A field with a doc comment and `#[arg(..)]`. -/
def D (doc : String) (i : String) (t : TyExpr) (items : List Arg := []) : SrcField Val :=
  { F i t items with attrs := .doc (some (lit doc)) :: (F i t items).attrs }
/-- A field with `#[command(flatten)]` or `#[command(subcommand)]`. -/
def C (c : String) (i : String) (t : TyExpr) : SrcField Val :=
  { ident := lit i, ty := t, attrs := [.command (some [⟨lit c, .bare⟩])] }

/-- The definition, if the macro accepts it. -/
def accepted (x : Expansion (ArgsDef Val)) : Option (ArgsDef Val) :=
  match x with
  | .ok d => some d
  | _ => none

/-- `#[derive(Parser)]` or `#[derive(Args)]` on a struct. -/
def derive (user : List (String × TyInfo Val)) (fields : List (SrcField Val)) (attrs : List (Attr Str) := []) : Expansion (ArgsDef Val) :=
  expandArgs cx (env user) { attrs := attrs, data := .structNamed fields }

/-- A struct as a type. -/
def argsTy (x : Expansion (ArgsDef Val)) : TyInfo Val := { args := accepted x }

/-- `#[derive(Subcommand)]` on an enum, as a type. -/
def subTy (user : List (String × TyInfo Val)) (variants : List (SrcVariant Val)) : TyInfo Val :=
  match expandSubcommand cx (env user) { data := .enum variants } with
  | .ok vs => { sub := some vs }
  | _ => {}

/-- `#[derive(ValueEnum)]` on an enum. -/
def enum (attrs : List (Attr Unit)) (variants : List (EnumVariant Val)) : Expansion (EnumDef Val) := expandValueEnum cx attrs (some variants)

/-- The enum as a type; `d` is its `Default`. -/
def enumTy (variants : List String) (d : Option String := none) : TyInfo Val :=
  match enum [] (variants.map (fun v => { ident := lit v, value := .unit (lit v) })) with
  | .ok e => { val := { valueEnum := some e, default := d.map (fun v => (.unit (lit v), kebab (lit v))) } }
  | _ => {}

/-! ## Results -/

abbrev O := Out Val

/-- A field of the expected result. -/
def b (v : Bool) : O := .field (.bool v)
def one (v : Val) : O := .field (.value v)
def o (v : Option Val) : O := .field (.option v)
def oo (v : Option (Option Val)) : O := .field (.optOpt v)
def many (vs : List Val) : O := .field (.vec vs)
def omany (vs : Option (List Val)) : O := .field (.optVec vs)
def sub (v : String) (fs : List (String × O)) : O := .variant (lit v) (.struct (fs.map (fun x => (lit x.1, x.2))))
def osub (v : Option O) : O := .optSub v
def st (fs : List (String × O)) : O := .struct (fs.map (fun x => (lit x.1, x.2)))
def text (s : String) : Val := .str (lit s)

mutual
/-- Equality, where the order of the fields of structs does not matter. -/
def same : O → O → Bool
  | .field f, .field g => decide (f = g)
  | .struct fs, .struct gs => decide (fs.length = gs.length) && sameFields fs gs
  | .variant n x, .variant m y => decide (n = m) && same x y
  | .optSub x, .optSub y => sameOpt x y
  | _, _ => false
def sameFields : List (Str × O) → List (Str × O) → Bool
  | [], _ => true
  | (i, x) :: fs, gs => (match gs.find? (fun y => decide (y.1 = i)) with
    | some y => same x y.2
    | none => false) && sameFields fs gs
def sameOpt : Option O → Option O → Bool
  | none, none => true
  | some x, some y => same x y
  | _, _ => false
end

/-- `check`. -/
def ok (d : Expansion (ArgsDef Val)) (args : List Bytes) (expect : O) : Bool :=
  match d with
  | .ok d =>
    match tryParseFrom d args with
    | .ok out => same expect out
    | .error _ => false
  | _ => false

/-- `check_err`. -/
def err (d : Expansion (ArgsDef Val)) (args : List Bytes) (expect : String) : Bool :=
  match d with
  | .ok d =>
    match tryParseFrom d args with
    | .error (.error e) =>
      match e.display fmt with
      | .ok s => decide (s = lit expect)
      | .error _ => false
    | _ => false
  | _ => false

/-- `assert_help`. -/
def help (d : Expansion (ArgsDef Val)) (args : List Bytes) (expect : String) : Bool :=
  match d with
  | .ok d =>
    match tryParseFrom d args with
    | .error (.error e) =>
      match e.tryIntoHelp with
      | .ok s => decide (s = lit expect)
      | .error _ => false
    | _ => false
  | _ => false

/-- The arguments as bytes. -/
def a (args : List String) : List Bytes := args.map blit

end Palc.Tests
