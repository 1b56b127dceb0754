import Verif.Source
import Verif.Emit
/-!
# Whole programs

The items of a crate that use the derive macros, and what rustc makes of them together.  The macros of `derive/src/lib.rs` see one item
each; the types they mention are resolved by rustc.  Simplifications: items are in one module, and are compiled one after the other, each
after those it mentions (Rust types without indirection cannot mention each other in a circle, and the macros know no indirection;
`C82_compile_iff` shows that the order is of no importance otherwise).  Only the errors of the first item with errors are kept.
-/

namespace Palc

variable {V : Type}

/-- An item with one of the derive macros, `derive/src/lib.rs` 20-42. -/
inductive SrcItem (V : Type)
  /-- `derive(Parser)` or `derive(Args)`. -/
  | args (name : Str) (input : Input V)
  /-- `derive(Subcommand)`. -/
  | subcommand (name : Str) (input : Input V)
  /-- `derive(ValueEnum)`. -/
  | valueEnum (name : Str) (attrs : List (Attr Unit)) (variants : Option (List (EnumVariant V)))

/-- The name of the type. -/
def SrcItem.name : SrcItem V → Str
  | .args n _ => n
  | .subcommand n _ => n
  | .valueEnum n _ _ => n

/-- The type `n`, written with this one identifier. -/
def typeNamed (n : Str) : TyExpr := .path false false [(n, .none)]

/-- The environment with a further type `n`. -/
def define (env : TyExpr → TyInfo V) (n : Str) (info : TyInfo V) : TyExpr → TyInfo V
  | .path false false [(i, .none)] => if i = n then info else env (.path false false [(i, .none)])
  | t => env t

/-- `f` applied to the result. -/
def Expansion.map {α β : Type} (f : α → β) : Expansion α → Expansion β
  | .ok a => .ok (f a)
  | .errors es => .errors es
  | .panic => .panic

/-- The impls generated for an item, `derive/src/lib.rs` 20-42. -/
def expandItem (cx : SrcCx V) (env : TyExpr → TyInfo V) : SrcItem V → Expansion (TyInfo V)
  | .args _ input => (expandArgs cx env input).map (fun d => { args := some d })
  | .subcommand _ input => (expandSubcommand cx env input).map (fun vs => { sub := some vs })
  | .valueEnum _ attrs variants => (expandValueEnum cx attrs variants).map (fun e => { val := { valueEnum := some e } })

/-- The types of a crate. -/
def compile (cx : SrcCx V) (env : TyExpr → TyInfo V) : List (SrcItem V) → Expansion (TyExpr → TyInfo V)
  | [] => .ok env
  | x :: xs =>
    match expandItem cx env x with
    | .ok info => compile cx (define env x.name info) xs
    | .errors es => .errors es
    | .panic => .panic

/-- `main::try_parse_from(argv)` for the type `main`, with the code emitted for the crate: `none` if there is no such type with
`Parser`. -/
def runProgram (env : TyExpr → TyInfo V) (main : Str) (argv : List Bytes) : Option (R (Out V)) :=
  (env (typeNamed main)).args.map (fun d => Emit.emittedTryParseFrom d argv)

end Palc
