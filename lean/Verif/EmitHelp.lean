import Verif.Defs
/-!
# The emitted formatters of help texts

`Verif/Defs.lean` says what the generated `Help` types print.  Here the calls of `format_args!` are produced as
`HelpDisplay::to_tokens` and `FormatArgsBuilder` (`derive/src/derive_args.rs` 912-1113) do, and the templates are given the meaning
they have in Rust (`std::fmt`).  `Verif/Props/EmitHelp.lean` proves that both agree.
-/

namespace Palc.Emit

variable {V : Type}

/-! ## `format_args!` -/

/-- A part of a template. -/
inductive Piece
  | char (c : Char)
  | arg (precision : Option Nat)
  deriving DecidableEq

/-- Parse a template (`std::fmt`): `{{` and `}}` are braces, `{}` and `{:.N}` (with one digit) are placeholders.  Everything else
with a brace is an error here; this leaves out further forms that palc does not emit. -/
def pieces : Str → Option (List Piece)
  | [] => some []
  | '{' :: '{' :: r => (pieces r).map (.char '{' :: ·)
  | '{' :: '}' :: r => (pieces r).map (.arg none :: ·)
  | '{' :: ':' :: '.' :: c :: '}' :: r =>
    if '0' ≤ c ∧ c ≤ '9' then (pieces r).map (.arg (some (c.toNat - '0'.toNat)) :: ·) else none
  | '}' :: '}' :: r => (pieces r).map (.char '}' :: ·)
  | '{' :: _ => none
  | '}' :: _ => none
  | c :: r => (pieces r).map (.char c :: ·)

/-- An argument of `format_args!`: a text, or the help of a flattened type. -/
inductive FArg
  | text (s : Str)
  | help (h : HelpFn)

/-- `Display::fmt` with a precision: that of `str` truncates; `Help`, `derive_args.rs` 1004-1017, uses the precision to select
what to print (`unwrap_or(0)`, line 1012). -/
def FArg.display : FArg → Option Nat → Str
  | .text s, none => s
  | .text s, some n => s.take n
  | .help h, p => h (p.getD 0)

/-- The arguments are used in order; it is an error if there are too few or too many of them. -/
def formatPieces : List Piece → List FArg → Option Str
  | [], [] => some []
  | [], _ :: _ => none
  | .char c :: ps, args => (formatPieces ps args).map (c :: ·)
  | .arg p :: ps, a :: args => (formatPieces ps args).map (a.display p ++ ·)
  | .arg _ :: _, [] => none

/-- `format_args!(template, args..)`; `none` if it does not compile. -/
def format (template : Str) (args : List FArg) : Option Str :=
  match pieces template with
  | some ps => formatPieces ps args
  | none => none

/-! ## Emission -/

/-- `struct FormatArgsBuilder`, `derive_args.rs` 1024-1028. -/
structure Builder where
  template : Str := []
  args : List FArg := []

namespace Builder

/-- `self.template.push_str(..)`. -/
def push (b : Builder) (s : Str) : Builder := { b with template := b.template ++ s }

/-- `push_custom_arg`, `derive_args.rs` 1039-1043. -/
def pushCustomArg (b : Builder) (template : Str) (a : FArg) : Builder :=
  { template := b.template ++ template, args := b.args ++ [a] }

/-- `push_arg`, `derive_args.rs` 1035-1037. -/
def pushArg (b : Builder) (s : Str) : Builder := b.pushCustomArg (lit "{}") (.text s)

/-- The label is preceded by blanks if there is no short name, `derive_args.rs` 1047-1050. -/
def pushPad (b : Builder) (f : FieldInfo V) : Builder :=
  match f.description with
  | '-' :: '-' :: _ => b.push (lit "    ")
  | _ => b

/-- `derive_args.rs` 1054-1058. -/
def pushDoc (b : Builder) (f : FieldInfo V) : Builder :=
  if f.doc = [] then b else (((b.push (lit "          ")).pushArg f.doc).push ['\n'])

/-- `derive_args.rs` 1060-1089; the displayed value of an expression is part of the model of the field. -/
def pushDefault (b : Builder) (f : FieldInfo V) : Builder :=
  match f.defaultValue with
  | some (.parseStr s) => ((b.push (lit "          [default: ")).pushArg s).push (lit "]\n")
  | some (.valueExpr _ shown) => ((b.push (lit "          [default: ")).pushArg shown).push (lit "]\n")
  | none => b

/-- `maybe_push_help_for`, `derive_args.rs` 1045-1092. -/
def pushHelpFor (b : Builder) (f : FieldInfo V) : Builder :=
  ((((((b.push (lit "  ")).pushPad f).pushArg f.description).push ['\n']).pushDoc f).pushDefault f).push ['\n']

/-- What is shown of the label in the usage line, `derive_args.rs` 1097-1101. -/
def usageDesc (f : FieldInfo V) : Str :=
  match f.description with
  | '-' :: c :: ',' :: _ => if c ≠ '-' ∧ c.toNat < 128 then f.description.drop 4 else f.description
  | _ => f.description

/-- `maybe_push_usage_for`, `derive_args.rs` 1094-1103. -/
def pushUsageFor (b : Builder) (f : FieldInfo V) : Builder := (b.push [' ']).pushArg (usageDesc f)

/-- The part of the loop about the usage line, `derive_args.rs` 942-956. -/
def pushUsage (b : Builder) (f : FieldInfo V) : Builder :=
  let isLast := f.attrs.contains ArgAttrs.LAST
  let b := if isLast then b.push (if f.required then lit " --" else lit " [--") else b
  let b := if f.required || f.attrs.contains ArgAttrs.VAR_ARG || isLast then b.pushUsageFor f else b
  if isLast && !f.required then b.push [']'] else b

end Builder

/-- The four builders, `derive_args.rs` 927-930. -/
structure Builders where
  usageNamed : Builder := {}
  usagePositional : Builder := {}
  helpNamed : Builder := {}
  helpPositional : Builder := {}

/-- The body of the loop over fields, `derive_args.rs` 933-956. -/
def pushField (namedCnt : Nat) (bs : Builders) (x : FieldInfo V × Nat) : Builders :=
  if x.1.hide then bs
  else if x.2 < namedCnt then
    { bs with usageNamed := bs.usageNamed.pushUsage x.1, helpNamed := bs.helpNamed.pushHelpFor x.1 }
  else
    { bs with usagePositional := bs.usagePositional.pushUsage x.1, helpPositional := bs.helpPositional.pushHelpFor x.1 }

/-- The body of the loop over flattened types, `derive_args.rs` 959-967. -/
def pushFlat (bs : Builders) (h : HelpFn) : Builders where
  usageNamed := bs.usageNamed.pushCustomArg (lit "{:.0}") (.help h)
  usagePositional := bs.usagePositional.pushCustomArg (lit "{:.1}") (.help h)
  helpNamed := bs.helpNamed.pushCustomArg (lit "{:.2}") (.help h)
  helpPositional := bs.helpPositional.pushCustomArg (lit "{:.3}") (.help h)

/-- All of the four, `derive_args.rs` 926-967. -/
def builders (core : Core V) (flats : List HelpFn) : Builders :=
  flats.foldl pushFlat (core.fields.zipIdx.foldl (pushField core.namedCnt) {})

/-- An arm is only emitted if the template is not empty, `derive_args.rs` 969-981. -/
def armOf (i : Nat) (b : Builder) : List (Nat × Builder) := if b.template = [] then [] else [(i, b)]

/-- `HelpDisplay::to_tokens`, `derive_args.rs` 918-999: the arms of the `match`. -/
def helpArms (parse : Option (Core V × List HelpFn)) (cmeta : Option CommandMeta) : List (Nat × Builder) :=
  (match parse with
    | some (core, flats) =>
      let bs := builders core flats
      armOf 0 bs.usageNamed ++ armOf 1 bs.usagePositional ++ armOf 2 bs.helpNamed ++ armOf 3 bs.helpPositional
    | none => [])
  ++ (match cmeta with
    | some m =>
      (4, { template := lit "{}", args := [.text (match m.longAbout with
          | some e => e
          | none => m.doc)] })
        :: (match m.afterLongHelp with
          | some e => [(5, { template := lit "{}", args := [.text e] })]
          | none => [])
    | none => [])

/-- The emitted value: `&""` if there are no arms, a `Help` otherwise, `derive_args.rs` 998-1020.  `none` if one of the
templates does not compile.  The first matching arm is used, or nothing is printed. -/
def helpValue (arms : List (Nat × Builder)) : Option HelpFn :=
  if arms.all (fun x => (format x.2.template x.2.args).isSome) then
    some (fun p =>
      match arms with
      | [] => FArg.display (.text []) (some p)
      | _ =>
        match arms.find? (fun x => x.1 == p) with
        | some x =>
          match format x.2.template x.2.args with
          | some s => s
          | none => []
        | none => [])
  else none

mutual
/-- The help of a struct, `derive_args.rs` 868, with those of the flattened types. -/
def emittedHelp : ArgsDef V → Option HelpFn
  | .mk core flats _ =>
    match emittedHelps flats with
    | some hs => helpValue (helpArms (some (core, hs)) core.cmdMeta)
    | none => none
/-- Those of flattened types. -/
def emittedHelps : Flats V → Option (List HelpFn)
  | .nil => some []
  | .cons _ d rest =>
    match emittedHelp d, emittedHelps rest with
    | some h, some hs => some (h :: hs)
    | _, _ => none
end

/-- The help of a unit variant, `derive_subcommand.rs` 81-82. -/
def emittedUnitHelp (cmeta : Option CommandMeta) : Option HelpFn := helpValue (helpArms (V := Unit) none cmeta)

end Palc.Emit
