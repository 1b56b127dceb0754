import Verif.Defs
/-!
# Behaviour of the generated code

What the functions generated by `derive/src/derive_args.rs` 642-860 and
`derive/src/derive_subcommand.rs` 141-189 do, and the API functions of `src/lib.rs`.
-/

namespace Palc

variable {V : Type}

/-- `FieldInfo::initializer`, `derive_args.rs` 152-175. -/
def FieldInfo.initializer (f : FieldInfo V) : Place V :=
  match f.kind with
  | .bool => .flag none
  | .value | .option => .set none f.parser
  | .optionOption => .setOpt none f.parser
  | .vec | .optionVec =>
    match f.valueDelimiter with
    | some d => .vecDelim none d f.parser
    | none => .vec none f.parser

/-- `FieldInfo::extractor`, `derive_args.rs` 177-189. `unwrap` of an unset `Value` panics. The
mismatching combinations of kind and place are ill-typed and cannot occur. -/
def FieldInfo.extract (f : FieldInfo V) (pl : Place V) : R (FieldOut V) :=
  match f.kind, pl with
  | .optionVec, .vec s _ => .ok (.optVec s)
  | .optionVec, .vecDelim s _ _ => .ok (.optVec s)
  | .option, .set s _ => .ok (.option s)
  | .optionOption, .setOpt s _ => .ok (.optOpt s)
  | .value, .set s _ => match s with
    | some v => .ok (.value v)
    | none => panicR
  | .bool, .flag s => .ok (.bool (s.getD false))
  | .vec, .vec s _ => .ok (.vec (s.getD []))
  | .vec, .vecDelim s _ _ => .ok (.vec (s.getD []))
  | _, _ => panicR

/-- The local variables of the generated function: each direct field with its place. -/
abbrev Vars (V : Type) := List (FieldInfo V × Place V)

/-- `#ident.0.is_some()` for a field referenced by its identifier, `derive_args.rs` 778, 792. An
unknown identifier would be a compile error. -/
def Vars.isSet (vars : Vars V) (ident : Str) : R Bool :=
  match vars.find? (fun x => x.1.ident = ident) with
  | some x => .ok x.2.isSet
  | none => panicR

/-- `__total_args`, `derive_args.rs` 746-756: a sum of `u8`s (overflow panics). -/
def totalArgs (vars : Vars V) (subSet : Bool) : R Nat :=
  let n := (vars.filter (fun x => x.2.isSet)).length + (if subSet then 1 else 0)
  if n < 256 then .ok n else panicR

/-- `#(if #dep_idents.0.is_none() { #dep_idxs } else)*`, `derive_args.rs` 778 (with `want = false`)
and 792 (with `want = true`): index of the first referenced field that is (un)set. -/
def firstRef (vars : Vars V) (want : Bool) : List (Str × Nat) → R (Option Nat)
  | [] => .ok none
  | (ident, idx) :: rest =>
    match vars.isSet ident with
    | .error e => .error e
    | .ok b => if b = want then .ok (some idx) else firstRef vars want rest

/-- The check of the `requires` (`derive_args.rs` 775-784, `want = false`) or `conflicts_with` (789-798,
`want = true`) list of a field: index of the offending referenced field.  Nothing is generated if there are
no references. -/
def refHit (vars : Vars V) (want : Bool) (idents : List Str) : Option (List Nat) → R (Option Nat)
  | some idxs => firstRef vars want (idents.zip idxs)
  | none => .ok none

/-- On-set checks of one field, `derive_args.rs` 759-806. -/
def onSetCheck (info : ArgsInfo) (vars : Vars V) (total : Nat) (f : FieldInfo V) (pl : Place V) : R Unit :=
  if pl.isSet then
    if f.exclusive && decide (total > 1) then
      errR (withArgIdx .constraintExclusive info f.attrs.getIndex)
    else
      match refHit vars false f.dependencies f.dependenciesIdx with
      | .error e => .error e
      | .ok (some idx2) => errR (withArgIdx .constraintRequired info idx2)
      | .ok none =>
        match refHit vars true f.conflicts f.conflictsIdx with
        | .error e => .error e
        | .ok (some _) => errR (withArgIdx .constraintConflict info f.attrs.getIndex)
        | .ok none => .ok ()
  else .ok ()

/-- The sequence of on-set checks, `derive_args.rs` 758-806. -/
def onSetChecks (info : ArgsInfo) (vars : Vars V) (total : Nat) : Vars V → R Unit
  | [] => .ok ()
  | (f, pl) :: rest =>
    match onSetCheck info vars total f pl with
    | .error e => .error e
    | .ok () => onSetChecks info vars total rest

/-- On-not-set action of one field, `derive_args.rs` 811-833. -/
def onUnset (info : ArgsInfo) (f : FieldInfo V) (pl : Place V) : R (Place V) :=
  if pl.isSet then .ok pl
  else match f.defaultValue with
    | some (.valueExpr v _) => pl.setDefault v
    | some (.parseStr s) => pl.setDefaultParse s
    | none =>
      if f.required then errR (withArgIdx .missingRequiredArgument info f.attrs.getIndex) else .ok pl

/-- The sequence of on-not-set actions, `derive_args.rs` 808-833. -/
def onUnsets (info : ArgsInfo) : Vars V → R (Vars V)
  | [] => .ok []
  | (f, pl) :: rest =>
    match onUnset info f pl with
    | .error e => .error e
    | .ok pl' =>
      match onUnsets info rest with
      | .error e => .error e
      | .ok rest' => .ok ((f, pl') :: rest')

/-- Field values of the output struct, `derive_args.rs` 729-731 (direct fields). -/
def extractAll : Vars V → R (List (Str × Out V))
  | [] => .ok []
  | (f, pl) :: rest =>
    match f.extract pl with
    | .error e => .error e
    | .ok o =>
      match extractAll rest with
      | .error e => .error e
      | .ok os => .ok ((f.ident, .field o) :: os)

/-- The subcommand field of the output struct, `derive_args.rs` 652-658: `.unwrap()` if required. -/
def extractSub (sub : SubField V) (subOut : Option (Out V)) : R (List (Str × Out V)) :=
  match sub with
  | .none => .ok []
  | .some ident true _ => .ok [(ident, .optSub subOut)]
  | .some ident false _ =>
    match subOut with
    | some o => .ok [(ident, o)]
    | none => panicR

/-- `ValidateFinish` and the construction of the output, `derive_args.rs` 725-733, 742-860.
`places` are the final states of the direct fields, `flatOuts` the values of the flattened fields
(present because their `__parse` returned `Ok`, cf. the check at 855), `subOut` the subcommand.
`__out.is_some()` (855) never holds: the caller always passes an empty output. -/
def finish (core : Core V) (sub : SubField V) (info : ArgsInfo) (places : List (Place V))
    (flatOuts : List (Str × Out V)) (subOut : Option (Out V)) : R (Out V) :=
  let vars := core.fields.zip places
  match (if core.fields.any (·.exclusive) then totalArgs vars subOut.isSome else .ok 0) with
  | .error e => .error e
  | .ok total =>
    match onSetChecks info vars total vars with
    | .error e => .error e
    | .ok () =>
      match onUnsets info vars with
      | .error e => .error e
      | .ok vars =>
        if (match sub with
            | .some _ false _ => subOut.isNone
            | _ => false) then errR (Error.new .missingRequiredSubcommand)
        else if vars.any (fun x => x.1.kind = .value && !x.1.required && !x.2.isSet) then panicR
        else
          match extractAll vars with
          | .error e => .error e
          | .ok direct =>
            match extractSub sub subOut with
            | .error e => .error e
            | .ok s => .ok (.struct (direct ++ flatOuts ++ s))

/-- `trait RunParser`, `src/runtime.rs` 177-196. `α` carries what a closure captures by reference
and assigns (the generated closures assign the variables of the enclosing function). -/
abbrev RunParser (V α : Type) :=
  ArgsFrame V → Option (SubPlace V) → Chain V → Toks →
    R (ArgsFrame V × Option (Out V) × Chain V × Toks × α)

/-- `RunParser for RawParser`, `src/runtime.rs` 477-481. -/
def rawRun : RunParser V Unit := fun cur sub parents toks =>
  match runParser sub cur parents toks with
  | .ok (cur, out, parents, toks) => .ok (cur, out, parents, toks, ())
  | .error e => .error e

/-- The body of a generated `|__frame: &mut ArgsFrame| ..` closure, `derive_args.rs` 709-713: the
frame of the flattened struct becomes the parent of the inner frame. -/
def wrapFrame {β : Type} (inner : Chain V → Toks → R (β × Chain V × Toks)) : RunParser V β :=
  fun cur _sub parents toks =>
    match inner (.args cur :: parents) toks with
    | .error e => .error e
    | .ok (b, .args cur :: parents, toks) => .ok (cur, none, parents, toks, b)
    | .ok _ => panicR -- impossible: the callee keeps the frames of its caller

/-- The innermost `run_parser` expression, `derive_args.rs` 698-706: run the parser on the frame of the struct itself. -/
def runInner {α : Type} (run : RunParser V α) (frame : ArgsFrame V) (sub : Option (SubPlace V)) (chain : Chain V)
    (toks : Toks) : R ((ArgsFrame V × Option (Out V) × α) × Chain V × Toks) :=
  match run frame sub chain toks with
  | .error e => .error e
  | .ok (frame, subOut, chain, toks, a) => .ok ((frame, subOut, a), chain, toks)

/-- The result of a flattened struct joins what its closure captures (model plumbing for
`derive_args.rs` 707-714). -/
def pairOut {β : Type} : R (Out V × Chain V × Toks × β) → R ((β × Out V) × Chain V × Toks)
  | .error e => .error e
  | .ok (out, chain, toks, b) => .ok ((b, out), chain, toks)

mutual
/-- The generated `Args::__parse`, `derive_args.rs` 719-733: run the parser (wrapped in the closures
for flattened fields), validate, build the output. -/
def argsParse : ArgsDef V → {α : Type} → Chain V → RunParser V α → Toks → R (Out V × Chain V × Toks × α)
  | .mk core flats sub, _, chain, run, toks =>
    let info := (ArgsDef.mk core flats sub).info
    match flatsParse flats
        (runInner run { fields := core.fields.map (·.initializer), info, nextPositional := 0 } (subPlace sub))
        chain toks with
    | .error e => .error e
    | .ok ((frame, subOut, a), flatOuts, chain, toks) =>
      match finish core sub info frame.fields flatOuts subOut with
      | .error e => .error e
      | .ok out => .ok (out, chain, toks, a)
/-- The loop wrapping `run_parser` once per flattened field, `derive_args.rs` 707-714: the first
flattened field is the innermost wrapper. -/
def flatsParse : Flats V → {β : Type} → (Chain V → Toks → R (β × Chain V × Toks)) →
    Chain V → Toks → R (β × List (Str × Out V) × Chain V × Toks)
  | .nil, _, inner, chain, toks =>
    match inner chain toks with
    | .error e => .error e
    | .ok (b, chain, toks) => .ok (b, [], chain, toks)
  | .cons ident d rest, β, inner, chain, toks =>
    match flatsParse rest (β := β × Out V) (fun chain toks =>
        pairOut (argsParse d chain (wrapFrame inner) toks)) chain toks with
    | .error e => .error e
    | .ok ((b, out), outs, chain, toks) => .ok (b, (ident, out) :: outs, chain, toks)
/-- `subcmd_param`, `derive_args.rs` 692-697, with `SubcommandPlace::__parse`,
`src/runtime.rs` 159-168. -/
def subPlace : SubField V → Option (SubPlace V)
  | .none => .none
  | .some _ _ vs => .some (fun idx chain toks => variantsParse vs idx chain toks)
/-- Generated `Subcommand::__parse`, `derive_subcommand.rs` 178-188. -/
def variantsParse : Variants V → Nat → Chain V → Toks → R (Out V × Chain V × Toks)
  | .nil, _, _, _ => panicR
  | .cons v _, 0, chain, toks => variantParse v chain toks
  | .cons _ rest, idx + 1, chain, toks => variantsParse rest idx chain toks
/-- Bodies of the match arms, `derive_subcommand.rs` 141-163, and `run_unit`,
`src/runtime.rs` 184-190. -/
def variantParse : Variant V → Chain V → Toks → R (Out V × Chain V × Toks)
  | .unit ident _ cmeta, chain, toks =>
    match rawRun { fields := [], info := unitInfo cmeta, nextPositional := 0 } none chain toks with
    | .error e => .error e
    | .ok (_, _, chain, toks, ()) => .ok (.variant ident (.struct []), chain, toks)
  | .args ident _ d, chain, toks =>
    match argsParse d chain rawRun toks with
    | .error e => .error e
    | .ok (out, chain, toks, ()) => .ok (.variant ident out, chain, toks)
end

/-- `StructParserFlavor::run_parser`, `src/runtime.rs` 83-96. -/
def structRunParser (d : ArgsDef V) (programName : Bytes) (toks : Toks) : R (Out V) :=
  match argsParse d [.command (lossy programName)] rawRun toks with
  | .error e => .error e
  | .ok (out, _, _, ()) => .ok out

/-- `Parser::try_parse_from`, `src/lib.rs` 79-88. -/
def tryParseFrom (d : ArgsDef V) (argv : List Bytes) : R (Out V) :=
  match argv with
  | [] => errR (Error.new .missingArg0)
  | arg0 :: toks => structRunParser d ((fileName arg0).getD arg0) toks

/-- `Parser::render_long_help`, `src/lib.rs` 91-97: both `unwrap`s panic otherwise. -/
def renderLongHelp (d : ArgsDef V) (argv0 : Str) : R Str :=
  match tryParseFrom d [enc argv0, blit "--help"] with
  | .ok _ => panicR
  | .error .panic => panicR
  | .error (.error e) =>
    match e.tryIntoHelp with
    | .ok h => .ok h
    | .error _ => panicR

/-- How a call of `Parser::parse` ends: it returns, exits the process after writing to stderr, or panics. -/
inductive Exit (V : Type)
  | returned (out : Out V)
  | exited (status : Nat) (stderr : Str)
  | panicked

/-- `Parser::parse`, `src/lib.rs` 68-76.  `std::env::args_os()` is the argument `argv`; failures to write to stderr are not
modelled. -/
def parseMain (fmt : Error.Fmt) (d : ArgsDef V) (argv : List Bytes) : Exit V :=
  match tryParseFrom d argv with
  | .ok out => .returned out
  | .error .panic => .panicked
  | .error (.error e) =>
    match e.display fmt with
    | .ok text => .exited 1 (text ++ lit "\n")
    | .error _ => .panicked

end Palc
