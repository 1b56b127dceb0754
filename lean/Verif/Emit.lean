import Verif.Derive
/-!
# The emitted code

`Verif/Codegen.lean` says what the generated functions do.  Here the code itself is produced, as the `to_tokens`
functions of `derive/src/derive_args.rs` 151-190, 642-860 and `derive/src/derive_subcommand.rs` 130-189 do, in a small subset
of Rust, and that subset is given a meaning of its own.  `Verif/Props/Emit.lean` proves that both agree.

Programs that rustc would reject (unknown variables, wrong types) have no behaviour: they panic here.
-/

namespace Palc.Emit

variable {V : Type}

/-! ## The subset of Rust -/

/-- Labels of blocks: `'__dependency` and `'__conflict`, `derive_args.rs` 774, 788. -/
inductive Label
  | dependency
  | conflict
  deriving DecidableEq

/-- The error constructors called by emitted code, `src/runtime.rs` 28-53. -/
inductive ErrFn
  | missingArg | missingSubcmd | exclusive | dependency | conflict
  deriving DecidableEq

/-- Expressions.  The first argument `__info` of the error constructors is left out. -/
inductive Ex
  | var (x : Str)
  | dot0 (e : Ex)
  | isSome (e : Ex)
  | isNone (e : Ex)
  | asU8 (e : Ex)
  | add (a b : Ex)
  | gt (a b : Ex)
  | or (a b : Ex)
  | u8 (n : Nat)
  | ite (c t e : Ex)
  | brk (l : Label)
  | call0 (f : ErrFn)
  | call1 (f : ErrFn) (a : Ex)
  | call2 (f : ErrFn) (a b : Ex)
  deriving DecidableEq

/-- Statements.  Blocks contain no `let`, so bindings need not be removed at their end. -/
inductive St (V : Type)
  | letE (x : Str) (e : Ex)
  | ifE (c : Ex) (body : List (St V))
  | ifLetSome (e : Ex) (body : List (St V))
  | ifLetNone (e : Ex) (body : List (St V))
  | labeled (l : Label) (body : List (St V))
  | ret (e : Ex)
  | setDefault (x : Str) (v : DefaultOut V)
  | setDefaultParse (x : Str) (s : Str)
  | unreachableNounwind

/-- Right-hand sides of `let mut #state_idents = ..`: a place, or `__rt::None::<#ty>`. -/
inductive Init (V : Type)
  | place (p : Place V)
  | none

/-- What is written after a variable in the output struct. -/
inductive Extr
  | plain
  | dot0
  | dot0Unwrap
  | dot0UnwrapOrDefault
  | unwrap
  deriving DecidableEq

/-- The expression `run_parser`, `derive_args.rs` 698-714: `RunParser::run(__parser, &mut ArgsFrame { fields: __fields,
subcmd, info: __info, parent: __frame, next_positional: 0u8 })`, where `subcmd` is `Some(<ty>::__erase(&mut ident))` or `None`;
`<ty as Args>::__parse(&mut ident, __frame, &mut |__frame| { inner })`. -/
inductive RunEx
  | run (subcmd : Option Str)
  | flatten (ident : Str) (inner : RunEx)
  deriving DecidableEq

/-- The body of a parsing function, `derive_args.rs` 719-733: the variables with their initial values, `__fields`, the call
of the parser followed by `?`, the validation, and the fields of the output. -/
structure Body (V : Type) where
  lets : List (Str × Init V)
  fieldRefs : List Str
  run : RunEx
  validate : List (St V)
  output : List (Str × Extr)

/-! ## Emission -/

/-- `__total_args`, `derive_args.rs` 754. -/
def totalName : Str := lit "__total_args"

/-- `FieldInfo::extractor`, `derive_args.rs` 177-189. -/
def extractor (f : FieldInfo V) : Extr :=
  match f.kind with
  | .optionVec | .option | .optionOption => .dot0
  | .value => .dot0Unwrap
  | .bool | .vec => .dot0UnwrapOrDefault

/-- `state_idents`, `state_initializers` and `state_extractors`, `derive_args.rs` 645-660. -/
def stateVars (fields : List (FieldInfo V)) (flats : List Str) (sub : Option (Str × Bool)) : List (Str × Init V × Extr) :=
  fields.map (fun f => (f.ident, .place f.initializer, extractor f))
    ++ flats.map (fun ident => (ident, .none, .unwrap))
    ++ sub.toList.map (fun (ident, optional) => (ident, .none, if optional then .plain else .unwrap))

/-- `run_parser` with the loop over flattened fields, `derive_args.rs` 692-714. -/
def runExpr (flats : List Str) (sub : Option (Str × Bool)) : RunEx :=
  flats.foldl (fun runParser ident => .flatten ident runParser) (.run (sub.map (·.1)))

/-- `#((#direct_idents.0.is_some() as u8))+*`, `derive_args.rs` 754. -/
def sumSet : List Str → Option Ex
  | [] => none
  | x :: xs => some (xs.foldl (fun acc y => .add acc (.asU8 (.isSome (.dot0 (.var y))))) (.asU8 (.isSome (.dot0 (.var x)))))

/-- `#subcmd_is_set`, `derive_args.rs` 749-752. -/
def addSub (sum : Ex) : Option (Str × Bool) → Ex
  | some (ident, _) => .add sum (.asU8 (.isSome (.var ident)))
  | none => sum

/-- `derive_args.rs` 746-756. An empty sum would be a syntax error. -/
def emitTotal (fields : List (FieldInfo V)) (sub : Option (Str × Bool)) : List (St V) :=
  if fields.any (·.exclusive) then
    match sumSet (fields.map (·.ident)) with
    | some sum => [.letE totalName (addSub sum sub)]
    | none => [.letE totalName (.var [])]
  else []

/-- `#(if #dep_idents.0.is_none() { #dep_idxs } else)* { break '__dependency }`, `derive_args.rs` 778-779, and the same
with `is_some`, 792-793. -/
def refChain (test : Ex → Ex) (l : Label) : List (Str × Nat) → Ex
  | [] => .brk l
  | (ident, idx) :: rest => .ite (test (.dot0 (.var ident))) (.u8 idx) (refChain test l rest)

/-- The checks of a field that is set, `derive_args.rs` 760-799. -/
def setChecks (f : FieldInfo V) : List (St V) :=
  (if f.exclusive then
      [.ifE (.gt (.var totalName) (.u8 1)) [.ret (.call1 .exclusive (.u8 f.attrs.getIndex))]]
    else [])
  ++ (match f.dependenciesIdx with
      | some idxs => [.labeled .dependency
          [.ret (.call2 .dependency (.u8 f.attrs.getIndex) (refChain .isNone .dependency (f.dependencies.zip idxs)))]]
      | none => [])
  ++ (match f.conflictsIdx with
      | some idxs => [.labeled .conflict
          [.ret (.call2 .conflict (.u8 f.attrs.getIndex) (refChain .isSome .conflict (f.conflicts.zip idxs)))]]
      | none => [])

/-- `derive_args.rs` 759-806: nothing is emitted if there are no checks. -/
def emitOnSet (f : FieldInfo V) : List (St V) :=
  match setChecks f with
  | [] => []
  | checks => [.ifLetSome (.dot0 (.var f.ident)) checks]

/-- `derive_args.rs` 811-833. -/
def emitOnUnset (f : FieldInfo V) : List (St V) :=
  match f.defaultValue with
  | some (.valueExpr v _) => [.ifLetNone (.dot0 (.var f.ident)) [.setDefault f.ident v]]
  | some (.parseStr s) => [.ifLetNone (.dot0 (.var f.ident)) [.setDefaultParse f.ident s]]
  | none =>
    if f.required then [.ifLetNone (.dot0 (.var f.ident)) [.ret (.call1 .missingArg (.u8 f.attrs.getIndex))]] else []

/-- `derive_args.rs` 835-844. -/
def emitSubcmd : Option (Str × Bool) → List (St V)
  | some (ident, false) => [.ifLetNone (.var ident) [.ret (.call0 .missingSubcmd)]]
  | _ => []

/-- `derive_args.rs` 846-858. -/
def emitAssert (fields : List (FieldInfo V)) (flats : List Str) : St V :=
  .ifE ((fields.filter (fun f => decide (f.kind = .value) && !f.required)).foldl
      (fun acc f => .or acc (.isNone (.dot0 (.var f.ident))))
      (flats.foldl (fun acc ident => .or acc (.isNone (.var ident))) (.isSome (.var (lit "__out")))))
    [.unreachableNounwind]

/-- `ValidateFinish::to_tokens`, `derive_args.rs` 742-860. -/
def emitValidate (fields : List (FieldInfo V)) (flats : List Str) (sub : Option (Str × Bool)) : List (St V) :=
  emitTotal fields sub ++ fields.flatMap emitOnSet ++ fields.flatMap emitOnUnset ++ emitSubcmd sub
    ++ [emitAssert fields flats]

/-- `ArgsParse::to_tokens`, `derive_args.rs` 642-735, without the assertions (661-690), which are evaluated at compile time. -/
def emitBody (fields : List (FieldInfo V)) (flats : List Str) (sub : Option (Str × Bool)) : Body V where
  lets := (stateVars fields flats sub).map (fun (x, i, _) => (x, i))
  fieldRefs := fields.map (·.ident)
  run := runExpr flats sub
  validate := emitValidate fields flats sub
  output := (stateVars fields flats sub).map (fun (x, _, e) => (x, e))

/-! ## Meaning -/

/-- Values of variables and expressions.  Of `Option`s obtained by `.0` only their presence matters. -/
inductive Val (V : Type)
  | place (p : Place V)
  | opt (o : Option (Out V))
  | present (b : Bool)
  | bool (b : Bool)
  | u8 (n : Nat)
  | err (e : Error)
  | refs (xs : List Str)

/-- The variables in scope. -/
abbrev Env (V : Type) := Str → Option (Val V)

/-- Bind or overwrite a variable. -/
def Env.set (env : Env V) (x : Str) (v : Val V) : Env V := fun y => if y = x then some v else env y

/-- What ends the execution of a statement early: `return Err(..)` or a panic, or a `break`. -/
inductive Stop
  | fail (f : Fail)
  | brk (l : Label)

/-- `src/runtime.rs` 28-53. -/
def callErr (info : ArgsInfo) : ErrFn → List Nat → Option Error
  | .missingArg, [idx] => some (withArgIdx .missingRequiredArgument info idx)
  | .missingSubcmd, [] => some (Error.new .missingRequiredSubcommand)
  | .exclusive, [idx] => some (withArgIdx .constraintExclusive info idx)
  | .dependency, [_, idx2] => some (withArgIdx .constraintRequired info idx2)
  | .conflict, [idx1, _] => some (withArgIdx .constraintConflict info idx1)
  | _, _ => none

/-- A program without behaviour, or a panic. -/
def stuck {β : Type} : Except Stop β := .error (.fail .panic)

/-- Evaluate an expression. `+` panics on overflow, `||` is lazy. -/
def evalE (info : ArgsInfo) (env : Env V) : Ex → Except Stop (Val V)
  | .var x =>
    match env x with
    | some v => .ok v
    | none => stuck
  | .dot0 e =>
    match evalE info env e with
    | .ok (.place p) => .ok (.present p.isSet)
    | .ok _ => stuck
    | .error s => .error s
  | .isSome e =>
    match evalE info env e with
    | .ok (.present b) => .ok (.bool b)
    | .ok (.opt o) => .ok (.bool o.isSome)
    | .ok _ => stuck
    | .error s => .error s
  | .isNone e =>
    match evalE info env e with
    | .ok (.present b) => .ok (.bool !b)
    | .ok (.opt o) => .ok (.bool o.isNone)
    | .ok _ => stuck
    | .error s => .error s
  | .asU8 e =>
    match evalE info env e with
    | .ok (.bool b) => .ok (.u8 (if b then 1 else 0))
    | .ok _ => stuck
    | .error s => .error s
  | .add a b =>
    match evalE info env a with
    | .ok (.u8 m) =>
      match evalE info env b with
      | .ok (.u8 n) => if m + n < 256 then .ok (.u8 (m + n)) else stuck
      | .ok _ => stuck
      | .error s => .error s
    | .ok _ => stuck
    | .error s => .error s
  | .gt a b =>
    match evalE info env a with
    | .ok (.u8 m) =>
      match evalE info env b with
      | .ok (.u8 n) => .ok (.bool (decide (m > n)))
      | .ok _ => stuck
      | .error s => .error s
    | .ok _ => stuck
    | .error s => .error s
  | .or a b =>
    match evalE info env a with
    | .ok (.bool true) => .ok (.bool true)
    | .ok (.bool false) =>
      match evalE info env b with
      | .ok (.bool c) => .ok (.bool c)
      | .ok _ => stuck
      | .error s => .error s
    | .ok _ => stuck
    | .error s => .error s
  | .u8 n => .ok (.u8 n)
  | .ite c t e =>
    match evalE info env c with
    | .ok (.bool true) => evalE info env t
    | .ok (.bool false) => evalE info env e
    | .ok _ => stuck
    | .error s => .error s
  | .brk l => .error (.brk l)
  | .call0 f =>
    match callErr info f [] with
    | some e => .ok (.err e)
    | none => stuck
  | .call1 f a =>
    match evalE info env a with
    | .ok (.u8 m) =>
      match callErr info f [m] with
      | some e => .ok (.err e)
      | none => stuck
    | .ok _ => stuck
    | .error s => .error s
  | .call2 f a b =>
    match evalE info env a with
    | .ok (.u8 m) =>
      match evalE info env b with
      | .ok (.u8 n) =>
        match callErr info f [m, n] with
        | some e => .ok (.err e)
        | none => stuck
      | .ok _ => stuck
      | .error s => .error s
    | .ok _ => stuck
    | .error s => .error s

mutual
/-- Execute a statement. A `let` that hides another variable is not part of the subset. -/
def execS (info : ArgsInfo) (env : Env V) : St V → Except Stop (Env V)
  | .letE x e =>
    match evalE info env e with
    | .ok v => if (env x).isSome then stuck else .ok (env.set x v)
    | .error s => .error s
  | .ifE c body =>
    match evalE info env c with
    | .ok (.bool true) => execB info env body
    | .ok (.bool false) => .ok env
    | .ok _ => stuck
    | .error s => .error s
  | .ifLetSome e body =>
    match evalE info env e with
    | .ok (.present b) => if b then execB info env body else .ok env
    | .ok (.opt o) => if o.isSome then execB info env body else .ok env
    | .ok _ => stuck
    | .error s => .error s
  | .ifLetNone e body =>
    match evalE info env e with
    | .ok (.present b) => if b then .ok env else execB info env body
    | .ok (.opt o) => if o.isSome then .ok env else execB info env body
    | .ok _ => stuck
    | .error s => .error s
  | .labeled l body =>
    match execB info env body with
    | .error (.brk l') => if l' = l then .ok env else .error (.brk l')
    | .error (.fail f) => .error (.fail f)
    | .ok env' => .ok env'
  | .ret e =>
    match evalE info env e with
    | .ok (.err e) => .error (.fail (.error e))
    | .ok _ => stuck
    | .error s => .error s
  | .setDefault x v =>
    match env x with
    | some (.place p) =>
      match p.setDefault v with
      | .ok p' => .ok (env.set x (.place p'))
      | .error f => .error (.fail f)
    | _ => stuck
  | .setDefaultParse x s =>
    match env x with
    | some (.place p) =>
      match p.setDefaultParse s with
      | .ok p' => .ok (env.set x (.place p'))
      | .error f => .error (.fail f)
    | _ => stuck
  | .unreachableNounwind => stuck
/-- Execute a sequence of statements. -/
def execB (info : ArgsInfo) (env : Env V) : List (St V) → Except Stop (Env V)
  | [] => .ok env
  | s :: rest =>
    match execS info env s with
    | .ok env' => execB info env' rest
    | .error st => .error st
end

/-- `&mut [#(&mut #direct_field_idents),*]`, `derive_args.rs` 723: the places behind the references. -/
def readRefs (env : Env V) : List Str → Option (List (Place V))
  | [] => some []
  | x :: xs =>
    match env x with
    | some (.place p) => (readRefs env xs).map (p :: ·)
    | _ => none

/-- What was written through the references. -/
def writeRefs (env : Env V) : List Str → List (Place V) → Option (Env V)
  | [], [] => some env
  | x :: xs, p :: ps => (writeRefs env xs ps).map (·.set x (.place p))
  | _, _ => none

/-- What was written to the variable of the subcommand, `src/runtime.rs` 159-168. -/
def writeSub (env : Env V) (ident : Option Str) (o : Option (Out V)) : Env V :=
  match ident with
  | some i => env.set i (.opt o)
  | none => env

/-- The type of the parsing functions `Args::__parse`, for any kind of parser passed to them (`&mut dyn RunParser`). -/
abbrev ParseFn (V : Type) := (α : Type) → Chain V → RunParser V α → Toks → R (Out V × Chain V × Toks × α)

/-- Evaluate `run_parser`.  `run` is `__parser`, `chain` is `__frame`; the functions called for flattened types are those
of `tbl`, the one for the subcommand is `subp`. -/
def evalRun {α : Type} (info : ArgsInfo) (tbl : Str → ParseFn V) (subp : Option (SubPlace V)) (run : RunParser V α) :
    RunEx → Env V → Chain V → Toks → R ((Env V × α) × Chain V × Toks)
  | .run subcmd, env, chain, toks =>
    match env (lit "__fields") with
    | some (.refs refs) =>
      match readRefs env refs with
      | some places =>
        match run { fields := places, info, nextPositional := 0 } (if subcmd.isSome then subp else none) chain toks with
        | .error e => .error e
        | .ok (frame, subOut, chain, toks, a) =>
          match writeRefs env refs frame.fields with
          | some env' =>
            .ok ((writeSub env' subcmd subOut, a), chain, toks)
          | none => panicR
      | none => panicR
    | _ => panicR
  | .flatten ident inner, env, chain, toks =>
    match tbl ident (Env V × α) chain (wrapFrame (evalRun info tbl subp run inner env)) toks with
    | .error e => .error e
    | .ok (out, chain, toks, (env', a)) => .ok ((env'.set ident (.opt (some out)), a), chain, toks)

/-- The variables at the beginning: `__out` is empty, see `src/runtime.rs` 84, `derive_subcommand.rs` 152.  The other
parameters are those of `evalRun`. -/
def params : Env V := fun x => if x = lit "__out" then some (.opt none) else none

/-- The value of an initializer. -/
def Init.val : Init V → Val V
  | .place p => .place p
  | .none => .opt Option.none

/-- `#(let mut #state_idents = #state_initializers;)*`, `derive_args.rs` 722. -/
def execLets (env : Env V) : List (Str × Init V) → Option (Env V)
  | [] => some env
  | (x, i) :: rest =>
    if (env x).isSome then none
    else execLets (env.set x i.val) rest

/-- A field of the output, `derive_args.rs` 730: the type of the field follows from the place and what is done with it. -/
def evalExtr (env : Env V) (x : Str) : Extr → R (Out V)
  | .plain =>
    match env x with
    | some (.opt o) => .ok (.optSub o)
    | _ => panicR
  | .unwrap =>
    match env x with
    | some (.opt (some o)) => .ok o
    | _ => panicR
  | .dot0 =>
    match env x with
    | some (.place (.set s _)) => .ok (.field (.option s))
    | some (.place (.setOpt s _)) => .ok (.field (.optOpt s))
    | some (.place (.vec s _)) => .ok (.field (.optVec s))
    | some (.place (.vecDelim s _ _)) => .ok (.field (.optVec s))
    | _ => panicR
  | .dot0Unwrap =>
    match env x with
    | some (.place (.flag (some b))) => .ok (.field (.bool b))
    | some (.place (.set (some v) _)) => .ok (.field (.value v))
    | some (.place (.setOpt (some v) _)) => .ok (.field (.option v))
    | some (.place (.vec (some vs) _)) => .ok (.field (.vec vs))
    | some (.place (.vecDelim (some vs) _ _)) => .ok (.field (.vec vs))
    | _ => panicR
  | .dot0UnwrapOrDefault =>
    match env x with
    | some (.place (.flag s)) => .ok (.field (.bool (s.getD false)))
    | some (.place (.setOpt s _)) => .ok (.field (.option (s.getD none)))
    | some (.place (.vec s _)) => .ok (.field (.vec (s.getD [])))
    | some (.place (.vecDelim s _ _)) => .ok (.field (.vec (s.getD [])))
    | _ => panicR

/-- The fields of the output in order. -/
def evalOutput (env : Env V) : List (Str × Extr) → R (List (Str × Out V))
  | [] => .ok []
  | (x, e) :: rest =>
    match evalExtr env x e with
    | .error f => .error f
    | .ok o =>
      match evalOutput env rest with
      | .error f => .error f
      | .ok os => .ok ((x, o) :: os)

/-- A `break` out of its function does not compile. -/
def Stop.toFail : Stop → Fail
  | .fail f => f
  | .brk _ => .panic

/-- Run the body of a parsing function, `derive_args.rs` 719-733. -/
def execBody (b : Body V) (info : ArgsInfo) (tbl : Str → ParseFn V) (subp : Option (SubPlace V)) : ParseFn V :=
  fun _ chain run toks =>
    match execLets params b.lets with
    | none => panicR
    | some env =>
      if (env (lit "__fields")).isSome then panicR
      else
        match evalRun info tbl subp run b.run (env.set (lit "__fields") (.refs b.fieldRefs)) chain toks with
        | .error e => .error e
        | .ok ((env, a), chain, toks) =>
          match execB info env b.validate with
          | .error s => .error s.toFail
          | .ok env =>
            match evalOutput env b.output with
            | .error f => .error f
            | .ok fields => .ok (.struct fields, chain, toks, a)

/-- Field identifiers of flattened structs. -/
def flatIdents : Flats V → List Str
  | .nil => []
  | .cons i _ rest => i :: flatIdents rest

/-- Identifier of the subcommand field, and whether it is optional. -/
def subIdent : SubField V → Option (Str × Bool)
  | .none => .none
  | .some i o _ => .some (i, o)

mutual
/-- The emitted `Args::__parse` of a struct. -/
def execArgs : ArgsDef V → (α : Type) → Chain V → RunParser V α → Toks → R (Out V × Chain V × Toks × α)
  | .mk core flats sub, α, chain, run, toks =>
    execBody (emitBody core.fields (flatIdents flats) (subIdent sub)) (ArgsDef.mk core flats sub).info (execFlats flats)
      (execSub sub) α chain run toks
/-- The functions `<ty as Args>::__parse` of the flattened types, by the field they are called for. -/
def execFlats : Flats V → Str → (α : Type) → Chain V → RunParser V α → Toks → R (Out V × Chain V × Toks × α)
  | .nil, _, _, _, _, _ => panicR
  | .cons i d rest, ident, α, chain, run, toks =>
    if ident = i then execArgs d α chain run toks else execFlats rest ident α chain run toks
/-- `<ty as Subcommand>::__erase(&mut ident)` with `SubcommandPlace::__parse`, `src/runtime.rs` 138-168. -/
def execSub : SubField V → Option (SubPlace V)
  | .none => .none
  | .some _ _ vs => .some (fun idx chain toks => execVariants vs idx chain toks)
/-- `match __idx { 0 => { .. } 1 => { .. } _ => unreachable_nounwind() }`, `derive_subcommand.rs` 185-188. -/
def execVariants : Variants V → Nat → Chain V → Toks → R (Out V × Chain V × Toks)
  | .nil, _, _, _ => panicR
  | .cons v _, 0, chain, toks => execVariant v chain toks
  | .cons _ rest, idx + 1, chain, toks => execVariants rest idx chain toks
/-- The body of an arm, `derive_subcommand.rs` 141-162, with `run_unit`, `src/runtime.rs` 184-190.  A newtype variant calls the
function of its type (150-155); the body of a struct variant (156-161) is that of a struct with the same fields, with
another constructor. -/
def execVariant : Variant V → Chain V → Toks → R (Out V × Chain V × Toks)
  | .unit ident _ cmeta, chain, toks =>
    match rawRun { fields := [], info := unitInfo cmeta, nextPositional := 0 } none chain toks with
    | .error e => .error e
    | .ok (_, _, chain, toks, ()) => .ok (.variant ident (.struct []), chain, toks)
  | .args ident _ d, chain, toks =>
    match execArgs d Unit chain rawRun toks with
    | .error e => .error e
    | .ok (out, chain, toks, ()) => .ok (.variant ident out, chain, toks)
end

/-- `Parser::try_parse_from` calling the emitted code, `src/lib.rs` 79-88, `src/runtime.rs` 83-96. -/
def emittedTryParseFrom (d : ArgsDef V) (argv : List Bytes) : R (Out V) :=
  match argv with
  | [] => errR (Error.new .missingArg0)
  | arg0 :: toks =>
    match execArgs d Unit [.command (lossy ((fileName arg0).getD arg0))] rawRun toks with
    | .error e => .error e
    | .ok (out, _, _, ()) => .ok out

/-! ## Names -/

/-- Names used by emitted code besides those of the fields: parameters and local variables, `derive_args.rs` 709, 723, 754,
`derive_args.rs` and `derive_subcommand.rs` 178-183. -/
def reserved : List Str :=
  [lit "__out", lit "__frame", lit "__parser", lit "__info", lit "__idx", lit "__fields", totalName]

/-- The fields of a struct in the order of `stateVars`. -/
def stateIdents (core : Core V) (flats : Flats V) (sub : SubField V) : List Str :=
  core.fields.map (·.ident) ++ flatIdents flats ++ (subIdent sub).toList.map (·.1)

mutual
/-- No field of any struct has a name that emitted code uses. -/
def NoReserved : ArgsDef V → Prop
  | .mk core flats sub => (∀ x ∈ stateIdents core flats sub, x ∉ reserved) ∧ NoReservedFlats flats ∧ NoReservedSub sub
/-- The same for flattened structs. -/
def NoReservedFlats : Flats V → Prop
  | .nil => True
  | .cons _ d rest => NoReserved d ∧ NoReservedFlats rest
/-- The same for subcommands. -/
def NoReservedSub : SubField V → Prop
  | .none => True
  | .some _ _ vs => NoReservedVariants vs
/-- The same for variants. -/
def NoReservedVariants : Variants V → Prop
  | .nil => True
  | .cons v rest => NoReservedVariant v ∧ NoReservedVariants rest
/-- The same for a variant. -/
def NoReservedVariant : Variant V → Prop
  | .unit _ _ _ => True
  | .args _ _ d => NoReserved d
end

end Palc.Emit
