import Verif.Codegen
/-!
# The library built without the feature `help`

The functions that differ if the Cargo feature `help` is off (`#[cfg(feature = "help")]` in `src/runtime.rs` 86, 551, 611 and
`src/error.rs` 206-218), and everything that calls them; otherwise they are those of `Verif.Runtime` and `Verif.Codegen`.  The
names kept in command frames (`src/runtime.rs` 86-93, 551-558) and the help data of `src/refl.rs` do not exist in such a
build; here they stay in the frames, where nothing reads them.  The derive macros do not depend on the feature.
-/

namespace Palc

variable {V : Type}

/-- `Error::maybe_render_help`, `src/error.rs` 206-209. -/
def maybeRenderHelpN (e : Error) : Error := e

/-- `visit_named`, `src/runtime.rs` 602-686. The iterator is represented by its next item `next`; the
returned `Flow` says whether it was taken (an item rejected by the filter is also taken, but then
the result is an error). -/
def visitNamedN (cur : ArgsFrame V) (parents : Chain V) (isShort : Bool) (encName : Bytes)
    (inl : InlineValue) (next : Option Bytes) : R (ArgsFrame V × Chain V × Flow) :=
  match searchNamed (.args cur :: parents) encName false with
  | .error e => .error e
  | .ok none =>
    errR (Error.withInput .unknownNamedArgument (if isShort then dash :: encName else encName))
  | .ok (some hit) =>
    match assign hit.attrs hit.place inl next with
    | .ok (pl, took) =>
      let flow := if hit.attrs.contains ArgAttrs.REQUIRE_VALUE then Flow.brk took else Flow.cont
      match hit.depth with
      | 0 => .ok ({ cur with fields := cur.fields.set hit.attrs.getIndex pl }, parents, flow)
      | k + 1 => .ok (cur, parents.modify k (·.setField hit.attrs.getIndex pl), flow)
    | .error err =>
      errR (maybeRenderHelpN (err.withArgDesc (hit.info.getDescription hit.attrs.getIndex)))

/-- The loop over a bundle of short arguments, `src/runtime.rs` 524-535: characters `cs` of the valid
prefix starting at byte offset `idx` of `bundle`. `index` panics if its argument is no boundary. -/
def bundleLoopN (bundle : Bytes) (next : Option Bytes) :
    ArgsFrame V → Chain V → Nat → Str → R (ArgsFrame V × Chain V × Flow)
  | cur, parents, _, [] => .ok (cur, parents, .cont)
  | cur, parents, idx, ch :: cs =>
    let encName := encChar ch
    match osIndex bundle (idx + encName.length) with
    | none => panicR
    | some after =>
      match visitNamedN cur parents true encName (shortInline after) next with
      | .error e => .error e
      | .ok (cur, parents, .brk took) => .ok (cur, parents, .brk took)
      | .ok (cur, parents, .cont) => bundleLoopN bundle next cur parents (idx + encName.length) cs

/-- A bundle `-bundle`, `src/runtime.rs` 517-541. The chunk of the non-empty bundle is
`utf8Chunk bundle`. `unwrap_err` on an `Ok` panics. -/
def visitBundleN (cur : ArgsFrame V) (parents : Chain V) (bundle : Bytes) (next : Option Bytes) :
    R (ArgsFrame V × Chain V × Flow) :=
  let chunk := utf8Chunk bundle
  match bundleLoopN bundle next cur parents 0 chunk.1 with
  | .error e => .error e
  | .ok (cur, parents, .brk took) => .ok (cur, parents, .brk took)
  | .ok (cur, parents, .cont) =>
    if chunk.2 ≠ [] then
      match osIndex bundle (enc chunk.1).length with
      | none => panicR
      | some rest =>
        match visitNamedN cur parents true rest .none next with
        | .error e => .error e
        | .ok _ => panicR
    else .ok (cur, parents, .cont)

/-- A long argument, `src/runtime.rs` 511-516. -/
def visitLongN (cur : ArgsFrame V) (parents : Chain V) (arg : Bytes) (next : Option Bytes) :
    R (ArgsFrame V × Chain V × Flow) :=
  match splitOnceEq arg with
  | some (name, value) => visitNamedN cur parents false name (.eq value) next
  | none => visitNamedN cur parents false arg .none next

/-- `run_parser`, `src/runtime.rs` 494-567. Returns the frame, the subcommand value if one was parsed,
the parent frames and the unread arguments. -/
def runParserN (sub : Option (SubPlace V)) :
    ArgsFrame V → Chain V → Toks → R (ArgsFrame V × Option (Out V) × Chain V × Toks)
  | cur, parents, [] => .ok (cur, none, parents, [])
  | cur, parents, arg :: rest =>
    match argShape arg with
    | .dashDash =>
      match enterDash cur with
      | .error e => .error e
      | .ok cur =>
        match dashLoop cur rest with
        | .error e => .error e
        | .ok cur => .ok (cur, none, parents, [])
    | .long =>
      match visitLongN cur parents arg rest.head? with
      | .error e => .error e
      | .ok (cur, parents, .brk true) =>
        match rest with
        | _ :: rest => runParserN sub cur parents rest
        | [] => panicR -- impossible: nothing to take
      | .ok (cur, parents, _) => runParserN sub cur parents rest
    | .bundle b =>
      match visitBundleN cur parents b rest.head? with
      | .error e => .error e
      | .ok (cur, parents, .brk true) =>
        match rest with
        | _ :: rest => runParserN sub cur parents rest
        | [] => panicR -- impossible: nothing to take
      | .ok (cur, parents, _) => runParserN sub cur parents rest
    | .plain =>
      let hit := match sub with
        | some place =>
          match cur.info.subcmdInfo with
          | some si =>
            match si.search arg with
            | some (name, idx) => some (place, name, idx)
            | none => none
          | none => none
        | none => none
      match hit with
      | some (place, name, idx) =>
        match place idx (.command name :: .args cur :: parents) rest with
        | .error e => .error e
        | .ok (out, .command _ :: .args cur :: parents, rest) => .ok (cur, some out, parents, rest)
        | .ok _ => panicR -- impossible: the callee keeps the frames of its caller
      | none =>
        match visitPositional cur false arg rest with
        | .error e => .error e
        | .ok (cur, true) => .ok (cur, none, parents, [])
        | .ok (cur, false) => runParserN sub cur parents rest

/-- `RunParser for RawParser`, `src/runtime.rs` 477-481. -/
def rawRunN : RunParser V Unit := fun cur sub parents toks =>
  match runParserN sub cur parents toks with
  | .ok (cur, out, parents, toks) => .ok (cur, out, parents, toks, ())
  | .error e => .error e

mutual
/-- The generated `Args::__parse`, `derive_args.rs` 719-733: run the parser (wrapped in the closures
for flattened fields), validate, build the output. -/
def argsParseN : ArgsDef V → {α : Type} → Chain V → RunParser V α → Toks → R (Out V × Chain V × Toks × α)
  | .mk core flats sub, _, chain, run, toks =>
    let info := (ArgsDef.mk core flats sub).info
    match flatsParseN flats
        (runInner run { fields := core.fields.map (·.initializer), info, nextPositional := 0 } (subPlaceN sub))
        chain toks with
    | .error e => .error e
    | .ok ((frame, subOut, a), flatOuts, chain, toks) =>
      match finish core sub info frame.fields flatOuts subOut with
      | .error e => .error e
      | .ok out => .ok (out, chain, toks, a)
/-- The loop wrapping `run_parser` once per flattened field, `derive_args.rs` 707-714: the first
flattened field is the innermost wrapper. -/
def flatsParseN : Flats V → {β : Type} → (Chain V → Toks → R (β × Chain V × Toks)) →
    Chain V → Toks → R (β × List (Str × Out V) × Chain V × Toks)
  | .nil, _, inner, chain, toks =>
    match inner chain toks with
    | .error e => .error e
    | .ok (b, chain, toks) => .ok (b, [], chain, toks)
  | .cons ident d rest, β, inner, chain, toks =>
    match flatsParseN rest (β := β × Out V) (fun chain toks =>
        pairOut (argsParseN d chain (wrapFrame inner) toks)) chain toks with
    | .error e => .error e
    | .ok ((b, out), outs, chain, toks) => .ok (b, (ident, out) :: outs, chain, toks)
/-- `subcmd_param`, `derive_args.rs` 692-697, with `SubcommandPlace::__parse`,
`src/runtime.rs` 159-168. -/
def subPlaceN : SubField V → Option (SubPlace V)
  | .none => .none
  | .some _ _ vs => .some (fun idx chain toks => variantsParseN vs idx chain toks)
/-- Generated `Subcommand::__parse`, `derive_subcommand.rs` 178-188. -/
def variantsParseN : Variants V → Nat → Chain V → Toks → R (Out V × Chain V × Toks)
  | .nil, _, _, _ => panicR
  | .cons v _, 0, chain, toks => variantParseN v chain toks
  | .cons _ rest, idx + 1, chain, toks => variantsParseN rest idx chain toks
/-- Bodies of the match arms, `derive_subcommand.rs` 141-163, and `run_unit`,
`src/runtime.rs` 184-190. -/
def variantParseN : Variant V → Chain V → Toks → R (Out V × Chain V × Toks)
  | .unit ident _ cmeta, chain, toks =>
    match rawRunN { fields := [], info := unitInfo cmeta, nextPositional := 0 } none chain toks with
    | .error e => .error e
    | .ok (_, _, chain, toks, ()) => .ok (.variant ident (.struct []), chain, toks)
  | .args ident _ d, chain, toks =>
    match argsParseN d chain rawRunN toks with
    | .error e => .error e
    | .ok (out, chain, toks, ()) => .ok (.variant ident out, chain, toks)
end

/-- `StructParserFlavor::run_parser`, `src/runtime.rs` 83-96. -/
def structRunParserN (d : ArgsDef V) (programName : Bytes) (toks : Toks) : R (Out V) :=
  match argsParseN d [.command (lossy programName)] rawRunN toks with
  | .error e => .error e
  | .ok (out, _, _, ()) => .ok out

/-- `Parser::try_parse_from`, `src/lib.rs` 79-88. -/
def tryParseFromN (d : ArgsDef V) (argv : List Bytes) : R (Out V) :=
  match argv with
  | [] => errR (Error.new .missingArg0)
  | arg0 :: toks => structRunParserN d ((fileName arg0).getD arg0) toks

end Palc
