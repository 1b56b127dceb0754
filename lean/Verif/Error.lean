import Verif.Bytes
/-!
# Errors (`src/error.rs`)
-/

namespace Palc

/-- `enum ErrorKind`, `src/error.rs` 47-71. -/
inductive ErrorKind
  | missingArg0 | unknownNamedArgument | unknownSubcommand | duplicatedNamedArgument
  | extraPositionalArgument | unexpectedInlineValue | missingValue | invalidValue | missingEq
  | missingRequiredArgument | missingRequiredSubcommand | constraintRequired
  | constraintExclusive | constraintConflict
  | help
  | custom
  deriving DecidableEq, Repr

/-- `DynStdError`, `src/error.rs` 15: either the UTF-8 conversion error or a user error, identified
by its `Display` text. -/
inductive Source
  | utf8
  | user (msg : Str)
  deriving DecidableEq, Repr

/-- `struct Inner` (the content of `Error`), `src/error.rs` 24-44. -/
structure Error where
  kind : ErrorKind
  argDesc : Option Str := none
  input : Option Bytes := none
  source : Option Source := none
  contextualHelp : Str := []
  help : Option Str := none
  deriving DecidableEq, Repr

/-- How a palc function can fail: with an `Error` value, or by panicking. -/
inductive Fail
  | error (e : Error)
  | panic
  deriving DecidableEq, Repr

/-- `Result<T>` extended by panics. -/
abbrev R (α : Type) := Except Fail α

/-- A panic. -/
def panicR {α : Type} : R α := .error .panic

/-- Return an error. -/
def errR {α : Type} (e : Error) : R α := .error (.error e)

namespace Error

/-- `Error::new` / `From<ErrorKind>`, `src/error.rs` 162-171, 221-226. -/
def new (kind : ErrorKind) : Error := { kind }

/-- `Error::custom`, `src/error.rs` 174-179. -/
def customErr (reason : Str) : Error := { kind := .custom, source := some (.user reason) }

/-- `Error::try_into_help`, `src/error.rs` 186-188. -/
def tryIntoHelp (e : Error) : Except Error Str :=
  match e.help with
  | some h => .ok h
  | none => .error e

/-- `Error::with_source`, `src/error.rs` 190-193. -/
def withSource (e : Error) (s : Source) : Error := { e with source := some s }
/-- `Error::with_context`, `src/error.rs` 195-199 (appends). -/
def withContext (e : Error) (s : Str) : Error := { e with contextualHelp := e.contextualHelp ++ s }
/-- `Error::with_arg_desc`, `src/error.rs` 201-204. -/
def withArgDesc (e : Error) (d : Option Str) : Error := { e with argDesc := d }
/-- `ErrorKind::with_input`, `src/error.rs` 230-234. -/
def withInput (k : ErrorKind) (input : Bytes) : Error := { kind := k, input := some input }

/-- Opaque formatting functions of `std`: `{:?}` of an `OsStr` and `Display` of the UTF-8 error. -/
structure Fmt where
  debugOs : Bytes → Str
  utf8Err : Str

/-- `Display` of a source error. -/
def showSource (fmt : Fmt) : Source → Str
  | .utf8 => fmt.utf8Err
  | .user msg => msg

/-- The message of each kind, `src/error.rs` 92-142 (`Custom` is handled in `display`). -/
def message (fmt : Fmt) (e : Error) : Str :=
  let input := fmt.debugOs (e.input.getD (blit "<unknown>"))
  let argDesc := e.argDesc.getD (lit "<unknown argument>")
  match e.kind with
  | .missingArg0 => lit "missing executable argument (argv[0])"
  | .unknownNamedArgument => lit "unexpected argument " ++ input
  | .unknownSubcommand => lit "unrecognized subcommand " ++ input
  | .duplicatedNamedArgument => lit "the argument '" ++ argDesc ++ lit "' cannot be used multiple times"
  | .extraPositionalArgument => lit "unexpected argument " ++ input
  | .unexpectedInlineValue => lit "unexpected value " ++ input ++ lit " for '" ++ argDesc ++ lit "'"
  | .missingValue => lit "a value is required for '" ++ argDesc ++ lit "' but none was supplied"
  | .invalidValue => lit "invalid value " ++ input ++ lit " for '" ++ argDesc ++ lit "'"
  | .missingEq => lit "equal sign is needed when assigning values for '" ++ argDesc ++ lit "'"
  | .missingRequiredArgument => lit "the argument '" ++ argDesc ++ lit "' is required but not provided"
  | .missingRequiredSubcommand => lit "the subcommand is required but not provided"
  | .constraintRequired => lit "the argument '" ++ argDesc
      ++ lit "' is required because some dependency arguments are provided"
  | .constraintExclusive => lit "the argument '" ++ argDesc
      ++ lit "' cannot be used with one or more of the other specified arguments"
  | .constraintConflict => lit "the argument '" ++ argDesc
      ++ lit "' cannot be used with some other arguments"
  | .help => []
  | .custom => []

/-- `impl Display for Error`, `src/error.rs` 85-159. The `unwrap` of a missing source for `Custom`
is the panic case (141). -/
def display (fmt : Fmt) (e : Error) : R Str :=
  match e.kind with
  | .custom =>
    match e.source with
    | some s => .ok (showSource fmt s)
    | none => panicR
  | _ =>
    .ok (message fmt e
      ++ (match e.source with
          | some s => lit ": " ++ showSource fmt s
          | none => [])
      ++ (if e.contextualHelp.isEmpty then [] else lit "\n  " ++ e.contextualHelp)
      ++ (if e.kind = .help then e.help.getD (lit "help is not available") else []))

end Error
end Palc
