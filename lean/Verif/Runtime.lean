import Verif.Places
import Verif.Refl
/-!
# The parsing runtime (`src/runtime.rs`) and help rendering (`src/help.rs`)
-/

namespace Palc

variable {V : Type}

/-- The arguments still to be read (`&mut dyn Iterator<Item = OsString>`, `src/runtime.rs` 467-469). -/
abbrev Toks := List Bytes

/-- Values of argument fields in the output struct, by kind of field type. -/
inductive FieldOut (V : Type)
  | bool (b : Bool)
  | value (v : V)
  | option (v : Option V)
  | optOpt (v : Option (Option V))
  | vec (vs : List V)
  | optVec (vs : Option (List V))
  deriving DecidableEq

/-- Parsed output: structs with named fields, enum variants, optional subcommand fields.
(The Rust types are generated by the user; this is the corresponding tree.) -/
inductive Out (V : Type)
  | field (f : FieldOut V)
  | struct (fields : List (Str × Out V))
  | variant (name : Str) (payload : Out V)
  | optSub (o : Option (Out V))

/-- `struct ArgsFrame`, `src/runtime.rs` 224-234. `subcmd` is passed separately (it is taken out at
once by `run_parser`, 496) and `parent` is the tail of the chain. -/
structure ArgsFrame (V : Type) where
  fields : List (Place V)
  info : ArgsInfo
  nextPositional : Nat

/-- Implementors of `Frame`: `ArgsFrame` (236) and `CommandFrame` (265-285); `()` (288) is the empty
chain. -/
inductive Frame (V : Type)
  | args (f : ArgsFrame V)
  | command (name : Str)

/-- A linked list of frames, head first. -/
abbrev Chain (V : Type) := List (Frame V)

/-- Result of `search_named`: the frame (position in the chain), the place, its info and attributes
(`src/runtime.rs` 217). -/
structure Hit (V : Type) where
  depth : Nat
  place : Place V
  info : ArgsInfo
  attrs : ArgAttrs

/-- `Frame::search_named`: `src/runtime.rs` 237-249 (`ArgsFrame`), 271-277 (`CommandFrame`),
289-295 (`()`). Out-of-bounds indexing of `fields` panics. -/
def searchNamed : Chain V → Bytes → Bool → R (Option (Hit V))
  | [], _, _ => .ok none
  | .args f :: parent, name, glob =>
    let up : R (Option (Hit V)) := match searchNamed parent name glob with
      | .ok (some h) => .ok (some { h with depth := h.depth + 1 })
      | .ok none => .ok none
      | .error e => .error e
    match f.info.getNamed name with
    | some attrs =>
      if !glob || attrs.contains ArgAttrs.GLOBAL then
        match f.fields[attrs.getIndex]? with
        | some place => .ok (some { depth := 0, place, info := f.info, attrs })
        | none => panicR
      else up
    | none => up
  | .command _ :: parent, name, _ =>
    match searchNamed parent name true with
    | .ok (some h) => .ok (some { h with depth := h.depth + 1 })
    | .ok none => .ok none
    | .error e => .error e

/-- Writing through the `&mut dyn Parsable` returned by `search_named`. -/
def Frame.setField (fr : Frame V) (i : Nat) (pl : Place V) : Frame V :=
  match fr with
  | .args f => .args { f with fields := f.fields.set i pl }
  | .command n => .command n

/-- `Frame::collect_command_prefix`: `src/runtime.rs` 252-254, 280-284, 298. -/
def collectPrefix : Chain V → Str
  | [] => []
  | .args _ :: parent => collectPrefix parent
  | .command name :: parent => collectPrefix parent ++ ' ' :: name

/-- One line of the command list, `src/help.rs` 64-79. Lengths are in bytes. -/
def renderCmdLine (maxLen : Nat) (out : Str) (cmd : Str) (help : HelpFn) : Str :=
  let out := out ++ lit "    " ++ cmd
  let padLen := (maxLen - (enc cmd).length) + 2
  let pad := List.replicate (min 24 padLen) ' '
  let piece := pad ++ help 4
  let out :=
    if piece = [] then out.take (out.length - pad.length)
    else match splitOnceC '\n' piece with
      | some (lhs, _) => out ++ lhs
      | none => out ++ piece
  out ++ ['\n']

/-- `render_help_into`, `src/help.rs` 18-112. -/
def renderHelp (info : ArgsInfo) (cmdPrefix : Str) : Str :=
  let about := info.help 4
  let out := if about = [] then [] else about ++ lit "\n\n"
  let out := out ++ lit "Usage:" ++ cmdPrefix
  let out := out ++ info.help 0 ++ (if info.hasOptionalNamed then lit " [OPTIONS]" else []) ++ info.help 1
  let subcmds := info.subcommandsWithHelp
  let out := match subcmds with
    | some _ => out ++ (if info.isSubcmdOptional then lit " [COMMAND]" else lit " <COMMAND>")
    | none => out
  let out := out ++ lit "\n\n"
  let out := match subcmds with
    | some cmds =>
      let maxLen := cmds.foldl (fun m c => max m (enc c.1).length) 0
      cmds.foldl (fun out c => renderCmdLine maxLen out c.1 c.2) (out ++ lit "Commands:\n") ++ ['\n']
    | none => out
  let out := if info.help 3 = [] then out else out ++ lit "Arguments:\n" ++ info.help 3
  let out := if info.help 2 = [] then out else out ++ lit "Options:\n" ++ info.help 2
  out ++ info.help 5

/-- `ErrorKind::with_arg_idx`, `src/error.rs` 237-241. -/
def withArgIdx (k : ErrorKind) (info : ArgsInfo) (idx : Nat) : Error :=
  { kind := k, argDesc := info.getDescription idx }

/-- `Error::maybe_render_help`, `src/error.rs` 212-218. `frame` is the current frame on top of its
parents. -/
def maybeRenderHelp (e : Error) (cur : ArgsFrame V) (parents : Chain V) : Error :=
  if e.kind = .help then { e with help := some (renderHelp cur.info (collectPrefix parents)) } else e

/-- `enum RawInlineValue`, `src/runtime.rs` 484-492. -/
inductive InlineValue
  | none
  | eq (v : Bytes)
  | ambiguous (tail : Bytes)

/-- `ControlFlow<()>` returned by `visit_named`, with the information whether the next argument was
taken from the iterator.  Taking an argument implies `require_value` and thus `Break`
(`src/runtime.rs` 632-653, 679). -/
inductive Flow
  | cont
  | brk (tookNext : Bool)
  deriving DecidableEq

/-- Is the raw argument accepted as a separate value? `src/runtime.rs` 637-649. -/
def acceptSeparate (attrs : ArgAttrs) (raw : Bytes) : Bool :=
  if raw = [dash] || !startsWith raw [dash] || attrs.contains ArgAttrs.ACCEPT_HYPHEN_ANY then true
  else if attrs.contains ArgAttrs.ACCEPT_HYPHEN_NUM then (raw.drop 1).all isDigit
  else false

/-- The value selection of `visit_named`, `src/runtime.rs` 624-667: the value and whether it was
taken from the iterator (whose next item is `next`). -/
def selectValue (attrs : ArgAttrs) (inl : InlineValue) (next : Option Bytes) :
    Except Error (Option Bytes × Bool) :=
  let requireValue := attrs.contains ArgAttrs.REQUIRE_VALUE
  let requireEq := attrs.contains ArgAttrs.REQUIRE_EQ
  match inl with
  | .eq v => .ok (some v, false)
  | .none =>
    if !requireValue then .ok (none, false)
    else if requireEq then .error (Error.new .missingEq)
    else match next with
      | some raw => if acceptSeparate attrs raw then .ok (some raw, true) else .error (Error.new .missingValue)
      | none => .error (Error.new .missingValue)
  | .ambiguous tail =>
    if requireEq then .error (Error.new .missingEq)
    else if requireValue then .ok (some tail, false)
    else .ok (none, false)

/-- The `and_then` step of `visit_named`, `src/runtime.rs` 668-675. -/
def storeValue (attrs : ArgAttrs) (place : Place V) (value : Option Bytes) : Except Error (Place V) :=
  let value := match value with
    | some v => if attrs.contains ArgAttrs.MAKE_LOWERCASE then some (asciiLower v) else some v
    | none => none
  place.parseFrom value

/-- `src/runtime.rs` 626-675: select the value, then store it. -/
def assign (attrs : ArgAttrs) (place : Place V) (inl : InlineValue) (next : Option Bytes) :
    Except Error (Place V × Bool) :=
  match selectValue attrs inl next with
  | .error e => .error e
  | .ok (value, took) =>
    match storeValue attrs place value with
    | .ok pl => .ok (pl, took)
    | .error e => .error e

/-- `visit_named`, `src/runtime.rs` 602-686. The iterator is represented by its next item `next`; the
returned `Flow` says whether it was taken (an item rejected by the filter is also taken, but then
the result is an error). -/
def visitNamed (cur : ArgsFrame V) (parents : Chain V) (isShort : Bool) (encName : Bytes)
    (inl : InlineValue) (next : Option Bytes) : R (ArgsFrame V × Chain V × Flow) :=
  match searchNamed (.args cur :: parents) encName false with
  | .error e => .error e
  | .ok none =>
    if encName = blit "h" ∨ encName = blit "--help" then
      errR (maybeRenderHelp (Error.new .help) cur parents)
    else
      errR (Error.withInput .unknownNamedArgument (if isShort then dash :: encName else encName))
  | .ok (some hit) =>
    match assign hit.attrs hit.place inl next with
    | .ok (pl, took) =>
      let flow := if hit.attrs.contains ArgAttrs.REQUIRE_VALUE then Flow.brk took else Flow.cont
      match hit.depth with
      | 0 => .ok ({ cur with fields := cur.fields.set hit.attrs.getIndex pl }, parents, flow)
      | k + 1 => .ok (cur, parents.modify k (·.setField hit.attrs.getIndex pl), flow)
    | .error err =>
      errR (maybeRenderHelp (err.withArgDesc (hit.info.getDescription hit.attrs.getIndex)) cur parents)

/-- The draining loop of a greedy positional, `src/runtime.rs` 594-596. -/
def drain : Place V → Toks → Except Error (Place V)
  | place, [] => .ok place
  | place, arg :: rest =>
    match place.parseFrom (some arg) with
    | .ok place => drain place rest
    | .error e => .error e

/-- `frame.next_positional += 1` on `u8` (overflow panics in debug builds), `src/runtime.rs` 588. -/
def incU8 (n : Nat) : R Nat := if n + 1 < 256 then .ok (n + 1) else panicR

/-- `visit_positional`, `src/runtime.rs` 569-600. Returns whether the iterator (whose remaining
items are `rest`) was drained. -/
def visitPositional (cur : ArgsFrame V) (isLast : Bool) (arg : Bytes) (rest : Toks) :
    R (ArgsFrame V × Bool) :=
  let sel := match cur.info.positionalAttrs[cur.nextPositional]? with
    | some attrs => if isLast || !attrs.contains ArgAttrs.LAST then some attrs else none
    | none => none
  match sel with
  | none =>
    if cur.info.subcmdInfo.isSome then errR (Error.withInput .unknownSubcommand arg)
    else errR (Error.withInput .extraPositionalArgument arg)
  | some attrs =>
    match (if attrs.contains ArgAttrs.VAR_ARG then .ok cur.nextPositional else incU8 cur.nextPositional) with
    | .error e => .error e
    | .ok np =>
      match cur.fields[attrs.getIndex]? with
      | none => panicR
      | some place =>
        match place.parseFrom (some arg) with
        | .error e => errR e
        | .ok place =>
          if attrs.contains ArgAttrs.GREEDY then
            match drain place rest with
            | .error e => errR e
            | .ok place =>
              .ok ({ cur with fields := cur.fields.set attrs.getIndex place, nextPositional := np }, true)
          else
            .ok ({ cur with fields := cur.fields.set attrs.getIndex place, nextPositional := np }, false)

/-- The loop after `--`, `src/runtime.rs` 507-510. -/
def dashLoop : ArgsFrame V → Toks → R (ArgsFrame V)
  | cur, [] => .ok cur
  | cur, arg :: rest =>
    match visitPositional cur true arg rest with
    | .error e => .error e
    | .ok (cur, true) => .ok cur
    | .ok (cur, false) => dashLoop cur rest

/-- `frame.next_positional = positional_len() as u8 - 1` under the `LAST` condition,
`src/runtime.rs` 501-505. -/
def enterDash (cur : ArgsFrame V) : R (ArgsFrame V) :=
  match cur.info.positionalAttrs.getLast? with
  | some attrs =>
    if attrs.contains ArgAttrs.LAST then
      match cur.info.positionalLen % 256 with
      | 0 => panicR
      | n + 1 => .ok { cur with nextPositional := n }
    else .ok cur
  | none => .ok cur

/-- The value part of a short argument followed by `after`, `src/runtime.rs` 527-531. -/
def shortInline (after : Bytes) : InlineValue :=
  match stripPrefix [eqSign] after with
  | some v => .eq v
  | none => if after ≠ [] then .ambiguous after else .none

/-- The loop over a bundle of short arguments, `src/runtime.rs` 524-535: characters `cs` of the valid
prefix starting at byte offset `idx` of `bundle`. `index` panics if its argument is no boundary. -/
def bundleLoop (bundle : Bytes) (next : Option Bytes) :
    ArgsFrame V → Chain V → Nat → Str → R (ArgsFrame V × Chain V × Flow)
  | cur, parents, _, [] => .ok (cur, parents, .cont)
  | cur, parents, idx, ch :: cs =>
    let encName := encChar ch
    match osIndex bundle (idx + encName.length) with
    | none => panicR
    | some after =>
      match visitNamed cur parents true encName (shortInline after) next with
      | .error e => .error e
      | .ok (cur, parents, .brk took) => .ok (cur, parents, .brk took)
      | .ok (cur, parents, .cont) => bundleLoop bundle next cur parents (idx + encName.length) cs

/-- A bundle `-bundle`, `src/runtime.rs` 517-541. The chunk of the non-empty bundle is
`utf8Chunk bundle`. `unwrap_err` on an `Ok` panics. -/
def visitBundle (cur : ArgsFrame V) (parents : Chain V) (bundle : Bytes) (next : Option Bytes) :
    R (ArgsFrame V × Chain V × Flow) :=
  let chunk := utf8Chunk bundle
  match bundleLoop bundle next cur parents 0 chunk.1 with
  | .error e => .error e
  | .ok (cur, parents, .brk took) => .ok (cur, parents, .brk took)
  | .ok (cur, parents, .cont) =>
    if chunk.2 ≠ [] then
      match osIndex bundle (enc chunk.1).length with
      | none => panicR
      | some rest =>
        match visitNamed cur parents true rest .none next with
        | .error e => .error e
        | .ok _ => panicR
    else .ok (cur, parents, .cont)

/-- A long argument, `src/runtime.rs` 511-516. -/
def visitLong (cur : ArgsFrame V) (parents : Chain V) (arg : Bytes) (next : Option Bytes) :
    R (ArgsFrame V × Chain V × Flow) :=
  match splitOnceEq arg with
  | some (name, value) => visitNamed cur parents false name (.eq value) next
  | none => visitNamed cur parents false arg .none next

/-- `dyn SubcommandPlace`: parse the variant with the given index; the parser passed along is always
the raw parser (`src/runtime.rs` 560), so it is not a parameter. -/
abbrev SubPlace (V : Type) := Nat → Chain V → Toks → R (Out V × Chain V × Toks)

/-- How `run_parser` classifies an argument, `src/runtime.rs` 499, 511, 517-519, 542. -/
inductive ArgShape
  | dashDash
  | long
  | bundle (b : Bytes)
  | plain

/-- `src/runtime.rs` 499, 511, 517-519, 542. -/
def argShape (arg : Bytes) : ArgShape :=
  if arg = blit "--" then .dashDash
  else if startsWith arg (blit "--") then .long
  else match stripPrefix (blit "-") arg with
    | some (b :: bs) => .bundle (b :: bs)
    | _ => .plain

/-- `run_parser`, `src/runtime.rs` 494-567. Returns the frame, the subcommand value if one was parsed,
the parent frames and the unread arguments. -/
def runParser (sub : Option (SubPlace V)) :
    ArgsFrame V → Chain V → Toks → R (ArgsFrame V × Option (Out V) × Chain V × Toks)
  | cur, parents, [] => .ok (cur, none, parents, [])
  | cur, parents, arg :: rest =>
    match argShape arg with
    | .dashDash =>
      match enterDash cur with
      | .error e => .error e
      | .ok cur =>
        match dashLoop cur rest with
        | .error e => .error e
        | .ok cur => .ok (cur, none, parents, [])
    | .long =>
      match visitLong cur parents arg rest.head? with
      | .error e => .error e
      | .ok (cur, parents, .brk true) =>
        match rest with
        | _ :: rest => runParser sub cur parents rest
        | [] => panicR -- impossible: nothing to take
      | .ok (cur, parents, _) => runParser sub cur parents rest
    | .bundle b =>
      match visitBundle cur parents b rest.head? with
      | .error e => .error e
      | .ok (cur, parents, .brk true) =>
        match rest with
        | _ :: rest => runParser sub cur parents rest
        | [] => panicR -- impossible: nothing to take
      | .ok (cur, parents, _) => runParser sub cur parents rest
    | .plain =>
      let hit := match sub with
        | some place =>
          match cur.info.subcmdInfo with
          | some si =>
            match si.search arg with
            | some (name, idx) => some (place, name, idx)
            | none => none
          | none => none
        | none => none
      match hit with
      | some (place, name, idx) =>
        match place idx (.command name :: .args cur :: parents) rest with
        | .error e => .error e
        | .ok (out, .command _ :: .args cur :: parents, rest) => .ok (cur, some out, parents, rest)
        | .ok _ => panicR -- impossible: the callee keeps the frames of its caller
      | none =>
        match visitPositional cur false arg rest with
        | .error e => .error e
        | .ok (cur, true) => .ok (cur, none, parents, [])
        | .ok (cur, false) => runParser sub cur parents rest

end Palc
