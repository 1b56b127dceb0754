import Verif.Codegen
/-!
# The library with any standard library

Two functions of Rust's standard library are not determined by their documentation: `slice::sort_unstable_by`
(`derive_subcommand.rs` 123-124), which leaves the order of equal elements open, and `slice::binary_search_by_key`
(`src/refl.rs` 53-57, 190-194), which may return any match if there are several.  `Verif.Defs` uses a stable sort and
`Verif.Bytes` the loop of one version of the library.  Here both are parameters; these are the functions that call them, and everything
that calls those.  Otherwise they are those of `Verif.Runtime`, `Verif.Defs` and `Verif.Codegen`.
-/

namespace Palc

variable {V : Type}

/-- The two functions: sorting pairs (name, index) by name, and searching keys for a key. -/
structure StdLib where
  sortUnstable : List (Str × Nat) → List (Str × Nat)
  search : List Bytes → Bytes → Option Nat

/-- What their documentation promises.  Sorting returns the same elements in order.  Searching keys that are in order returns the
index of some match, if there is one.  Nothing is said about keys that are not in order. -/
structure StdLib.Meets (std : StdLib) : Prop where
  perm : ∀ l, (std.sortUnstable l).Perm l
  sorted : ∀ l, (std.sortUnstable l).Pairwise (fun a b => cmpBytes (enc a.1) (enc b.1) ≠ .gt)
  found : ∀ keys k i, keys.Pairwise (fun a b => cmpBytes a b ≠ .gt) → std.search keys k = some i → keys[i]? = some k
  missing : ∀ keys k, keys.Pairwise (fun a b => cmpBytes a b ≠ .gt) → std.search keys k = none → k ∉ keys

/-- `RawSubcommandInfo::search`, `src/refl.rs` 52-58. -/
def SubcmdInfo.searchS (std : StdLib) (s : SubcmdInfo) (cmd : Bytes) : Option (Str × Nat) :=
  match std.search (s.map.map (fun e => enc e.1)) cmd with
  | some i => s.map[i]?
  | none => none

/-- `RawArgsInfo::get_named`, `src/refl.rs` 189-195. -/
def ArgsInfo.getNamedS (std : StdLib) (info : ArgsInfo) (name : Bytes) : Option ArgAttrs :=
  match std.search (info.namedAttrs.map (fun e => enc e.1)) name with
  | some i => (info.namedAttrs[i]?).map (·.2)
  | none => none

/-- `map_from`/`map_to` of the generated `RawSubcommandInfo`, `derive_subcommand.rs` 123-124, 134-135. -/
def subcmdMapS (std : StdLib) (names : List Str) : List (Str × Nat) := std.sortUnstable names.zipIdx

mutual
/-- `RawArgsInfo::to_tokens`, `derive_args.rs` 865-910. -/
def ArgsDef.infoS (std : StdLib) : ArgsDef V → ArgsInfo
  | .mk core flats sub =>
    ArgsInfo.new core.descs core.namedMap (core.positional.map (·.attrs)) (sub.infoS std)
      sub.isOptional core.hasOptionalNamed
      (helpDisplay (some core) core.cmdMeta ((flats.infosS std).map (·.help))) (flats.infosS std)
/-- Infos of the flattened types, `derive_args.rs` 894, 906. -/
def Flats.infosS (std : StdLib) : Flats V → List ArgsInfo
  | .nil => []
  | .cons _ d rest => d.infoS std :: rest.infosS std
/-- `subcmd_info`, `derive_args.rs` 885-890; `RawSubcommandInfo::new` in
`derive_subcommand.rs` 134-139, 170-174. -/
def SubField.infoS (std : StdLib) : SubField V → Option SubcmdInfo
  | .none => .none
  | .some _ _ vs =>
    .some { names := packNul vs.names, map := subcmdMapS std vs.names, variantHelps := vs.helpsS std }
/-- `variant_infos`, `derive_subcommand.rs` 139 (their helps only). -/
def Variants.helpsS (std : StdLib) : Variants V → List HelpFn
  | .nil => []
  | .cons v rest => (v.infoS std).help :: rest.helpsS std
/-- `args_info` of a variant, `derive_subcommand.rs` 79-118. -/
def Variant.infoS (std : StdLib) : Variant V → ArgsInfo
  | .unit _ _ cmeta => unitInfo cmeta
  | .args _ _ d => d.infoS std
end

/-- `Frame::search_named`: `src/runtime.rs` 237-249 (`ArgsFrame`), 271-277 (`CommandFrame`),
289-295 (`()`). Out-of-bounds indexing of `fields` panics. -/
def searchNamedS (std : StdLib) : Chain V → Bytes → Bool → R (Option (Hit V))
  | [], _, _ => .ok none
  | .args f :: parent, name, glob =>
    let up : R (Option (Hit V)) := match searchNamedS std parent name glob with
      | .ok (some h) => .ok (some { h with depth := h.depth + 1 })
      | .ok none => .ok none
      | .error e => .error e
    match f.info.getNamedS std name with
    | some attrs =>
      if !glob || attrs.contains ArgAttrs.GLOBAL then
        match f.fields[attrs.getIndex]? with
        | some place => .ok (some { depth := 0, place, info := f.info, attrs })
        | none => panicR
      else up
    | none => up
  | .command _ :: parent, name, _ =>
    match searchNamedS std parent name true with
    | .ok (some h) => .ok (some { h with depth := h.depth + 1 })
    | .ok none => .ok none
    | .error e => .error e

/-- `visit_named`, `src/runtime.rs` 602-686. The iterator is represented by its next item `next`; the
returned `Flow` says whether it was taken (an item rejected by the filter is also taken, but then
the result is an error). -/
def visitNamedS (std : StdLib) (cur : ArgsFrame V) (parents : Chain V) (isShort : Bool) (encName : Bytes)
    (inl : InlineValue) (next : Option Bytes) : R (ArgsFrame V × Chain V × Flow) :=
  match searchNamedS std (.args cur :: parents) encName false with
  | .error e => .error e
  | .ok none =>
    if encName = blit "h" ∨ encName = blit "--help" then
      errR (maybeRenderHelp (Error.new .help) cur parents)
    else
      errR (Error.withInput .unknownNamedArgument (if isShort then dash :: encName else encName))
  | .ok (some hit) =>
    match assign hit.attrs hit.place inl next with
    | .ok (pl, took) =>
      let flow := if hit.attrs.contains ArgAttrs.REQUIRE_VALUE then Flow.brk took else Flow.cont
      match hit.depth with
      | 0 => .ok ({ cur with fields := cur.fields.set hit.attrs.getIndex pl }, parents, flow)
      | k + 1 => .ok (cur, parents.modify k (·.setField hit.attrs.getIndex pl), flow)
    | .error err =>
      errR (maybeRenderHelp (err.withArgDesc (hit.info.getDescription hit.attrs.getIndex)) cur parents)

/-- The loop over a bundle of short arguments, `src/runtime.rs` 524-535: characters `cs` of the valid
prefix starting at byte offset `idx` of `bundle`. `index` panics if its argument is no boundary. -/
def bundleLoopS (std : StdLib) (bundle : Bytes) (next : Option Bytes) :
    ArgsFrame V → Chain V → Nat → Str → R (ArgsFrame V × Chain V × Flow)
  | cur, parents, _, [] => .ok (cur, parents, .cont)
  | cur, parents, idx, ch :: cs =>
    let encName := encChar ch
    match osIndex bundle (idx + encName.length) with
    | none => panicR
    | some after =>
      match visitNamedS std cur parents true encName (shortInline after) next with
      | .error e => .error e
      | .ok (cur, parents, .brk took) => .ok (cur, parents, .brk took)
      | .ok (cur, parents, .cont) => bundleLoopS std bundle next cur parents (idx + encName.length) cs

/-- A bundle `-bundle`, `src/runtime.rs` 517-541. The chunk of the non-empty bundle is
`utf8Chunk bundle`. `unwrap_err` on an `Ok` panics. -/
def visitBundleS (std : StdLib) (cur : ArgsFrame V) (parents : Chain V) (bundle : Bytes) (next : Option Bytes) :
    R (ArgsFrame V × Chain V × Flow) :=
  let chunk := utf8Chunk bundle
  match bundleLoopS std bundle next cur parents 0 chunk.1 with
  | .error e => .error e
  | .ok (cur, parents, .brk took) => .ok (cur, parents, .brk took)
  | .ok (cur, parents, .cont) =>
    if chunk.2 ≠ [] then
      match osIndex bundle (enc chunk.1).length with
      | none => panicR
      | some rest =>
        match visitNamedS std cur parents true rest .none next with
        | .error e => .error e
        | .ok _ => panicR
    else .ok (cur, parents, .cont)

/-- A long argument, `src/runtime.rs` 511-516. -/
def visitLongS (std : StdLib) (cur : ArgsFrame V) (parents : Chain V) (arg : Bytes) (next : Option Bytes) :
    R (ArgsFrame V × Chain V × Flow) :=
  match splitOnceEq arg with
  | some (name, value) => visitNamedS std cur parents false name (.eq value) next
  | none => visitNamedS std cur parents false arg .none next

/-- `run_parser`, `src/runtime.rs` 494-567. Returns the frame, the subcommand value if one was parsed,
the parent frames and the unread arguments. -/
def runParserS (std : StdLib) (sub : Option (SubPlace V)) :
    ArgsFrame V → Chain V → Toks → R (ArgsFrame V × Option (Out V) × Chain V × Toks)
  | cur, parents, [] => .ok (cur, none, parents, [])
  | cur, parents, arg :: rest =>
    match argShape arg with
    | .dashDash =>
      match enterDash cur with
      | .error e => .error e
      | .ok cur =>
        match dashLoop cur rest with
        | .error e => .error e
        | .ok cur => .ok (cur, none, parents, [])
    | .long =>
      match visitLongS std cur parents arg rest.head? with
      | .error e => .error e
      | .ok (cur, parents, .brk true) =>
        match rest with
        | _ :: rest => runParserS std sub cur parents rest
        | [] => panicR -- impossible: nothing to take
      | .ok (cur, parents, _) => runParserS std sub cur parents rest
    | .bundle b =>
      match visitBundleS std cur parents b rest.head? with
      | .error e => .error e
      | .ok (cur, parents, .brk true) =>
        match rest with
        | _ :: rest => runParserS std sub cur parents rest
        | [] => panicR -- impossible: nothing to take
      | .ok (cur, parents, _) => runParserS std sub cur parents rest
    | .plain =>
      let hit := match sub with
        | some place =>
          match cur.info.subcmdInfo with
          | some si =>
            match si.searchS std arg with
            | some (name, idx) => some (place, name, idx)
            | none => none
          | none => none
        | none => none
      match hit with
      | some (place, name, idx) =>
        match place idx (.command name :: .args cur :: parents) rest with
        | .error e => .error e
        | .ok (out, .command _ :: .args cur :: parents, rest) => .ok (cur, some out, parents, rest)
        | .ok _ => panicR -- impossible: the callee keeps the frames of its caller
      | none =>
        match visitPositional cur false arg rest with
        | .error e => .error e
        | .ok (cur, true) => .ok (cur, none, parents, [])
        | .ok (cur, false) => runParserS std sub cur parents rest

/-- `RunParser for RawParser`, `src/runtime.rs` 477-481. -/
def rawRunS (std : StdLib) : RunParser V Unit := fun cur sub parents toks =>
  match runParserS std sub cur parents toks with
  | .ok (cur, out, parents, toks) => .ok (cur, out, parents, toks, ())
  | .error e => .error e

mutual
/-- The generated `Args::__parse`, `derive_args.rs` 719-733: run the parser (wrapped in the closures
for flattened fields), validate, build the output. -/
def argsParseS (std : StdLib) : ArgsDef V → {α : Type} → Chain V → RunParser V α → Toks → R (Out V × Chain V × Toks × α)
  | .mk core flats sub, _, chain, run, toks =>
    let info := (ArgsDef.mk core flats sub).infoS std
    match flatsParseS std flats
        (runInner run { fields := core.fields.map (·.initializer), info, nextPositional := 0 } (subPlaceS std sub))
        chain toks with
    | .error e => .error e
    | .ok ((frame, subOut, a), flatOuts, chain, toks) =>
      match finish core sub info frame.fields flatOuts subOut with
      | .error e => .error e
      | .ok out => .ok (out, chain, toks, a)
/-- The loop wrapping `run_parser` once per flattened field, `derive_args.rs` 707-714: the first
flattened field is the innermost wrapper. -/
def flatsParseS (std : StdLib) : Flats V → {β : Type} → (Chain V → Toks → R (β × Chain V × Toks)) →
    Chain V → Toks → R (β × List (Str × Out V) × Chain V × Toks)
  | .nil, _, inner, chain, toks =>
    match inner chain toks with
    | .error e => .error e
    | .ok (b, chain, toks) => .ok (b, [], chain, toks)
  | .cons ident d rest, β, inner, chain, toks =>
    match flatsParseS std rest (β := β × Out V) (fun chain toks =>
        pairOut (argsParseS std d chain (wrapFrame inner) toks)) chain toks with
    | .error e => .error e
    | .ok ((b, out), outs, chain, toks) => .ok (b, (ident, out) :: outs, chain, toks)
/-- `subcmd_param`, `derive_args.rs` 692-697, with `SubcommandPlace::__parse`,
`src/runtime.rs` 159-168. -/
def subPlaceS (std : StdLib) : SubField V → Option (SubPlace V)
  | .none => .none
  | .some _ _ vs => .some (fun idx chain toks => variantsParseS std vs idx chain toks)
/-- Generated `Subcommand::__parse`, `derive_subcommand.rs` 178-188. -/
def variantsParseS (std : StdLib) : Variants V → Nat → Chain V → Toks → R (Out V × Chain V × Toks)
  | .nil, _, _, _ => panicR
  | .cons v _, 0, chain, toks => variantParseS std v chain toks
  | .cons _ rest, idx + 1, chain, toks => variantsParseS std rest idx chain toks
/-- Bodies of the match arms, `derive_subcommand.rs` 141-163, and `run_unit`,
`src/runtime.rs` 184-190. -/
def variantParseS (std : StdLib) : Variant V → Chain V → Toks → R (Out V × Chain V × Toks)
  | .unit ident _ cmeta, chain, toks =>
    match rawRunS std { fields := [], info := unitInfo cmeta, nextPositional := 0 } none chain toks with
    | .error e => .error e
    | .ok (_, _, chain, toks, ()) => .ok (.variant ident (.struct []), chain, toks)
  | .args ident _ d, chain, toks =>
    match argsParseS std d chain (rawRunS std) toks with
    | .error e => .error e
    | .ok (out, chain, toks, ()) => .ok (.variant ident out, chain, toks)
end

/-- `StructParserFlavor::run_parser`, `src/runtime.rs` 83-96. -/
def structRunParserS (std : StdLib) (d : ArgsDef V) (programName : Bytes) (toks : Toks) : R (Out V) :=
  match argsParseS std d [.command (lossy programName)] (rawRunS std) toks with
  | .error e => .error e
  | .ok (out, _, _, ()) => .ok out

/-- `Parser::try_parse_from`, `src/lib.rs` 79-88. -/
def tryParseFromS (std : StdLib) (d : ArgsDef V) (argv : List Bytes) : R (Out V) :=
  match argv with
  | [] => errR (Error.new .missingArg0)
  | arg0 :: toks => structRunParserS std d ((fileName arg0).getD arg0) toks

end Palc
