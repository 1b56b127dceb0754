import Verif.Lemmas.ErrShape
import Verif.Props.Names
import Verif.Props.Errors
/-!
# What the user sees: the text of errors (C50)
-/

namespace Palc

open Spec

variable {V : Type} {cx : Cx V} {d : ArgsDef V} {argv0 : Bytes} {toks : List Bytes} {e : Error}

/-- C50: the text of the errors about an argument that no field takes quotes this argument. -/
theorem C50_quote {argv : List Bytes} (hd : DerivedArgs cx d) (h : tryParseFrom d argv = .error (.error e)) (fmt : Error.Fmt) :
    (e.kind = .unknownNamedArgument ∨ e.kind = .extraPositionalArgument →
        ∃ x, e.input = some x ∧ e.display fmt = .ok (lit "unexpected argument " ++ fmt.debugOs x))
    ∧ (e.kind = .unknownSubcommand →
        ∃ x, e.input = some x ∧ e.display fmt = .ok (lit "unrecognized subcommand " ++ fmt.debugOs x)) := by
  cases rejected_shape hd h with
  | @quote k x hk => cases k <;> simp [ErrorKind.quotes] at hk <;> simp [Error.display, Error.message]
  | @name k t hk => cases k <;> simp [ErrorKind.names] at hk <;> simp
  | _ => simp

/-- C50: the text of the errors about the use of a field names this field by its description. -/
theorem C50_name {argv : List Bytes} (hd : DerivedArgs cx d) (h : tryParseFrom d argv = .error (.error e)) (fmt : Error.Fmt) :
    (e.kind = .missingValue → ∃ t, e.argDesc = some t
        ∧ e.display fmt = .ok (lit "a value is required for '" ++ t ++ lit "' but none was supplied"))
    ∧ (e.kind = .missingEq → ∃ t, e.argDesc = some t
        ∧ e.display fmt = .ok (lit "equal sign is needed when assigning values for '" ++ t ++ lit "'"))
    ∧ (e.kind = .missingRequiredArgument → ∃ t, e.argDesc = some t
        ∧ e.display fmt = .ok (lit "the argument '" ++ t ++ lit "' is required but not provided"))
    ∧ (e.kind = .constraintRequired → ∃ t, e.argDesc = some t
        ∧ e.display fmt = .ok (lit "the argument '" ++ t ++ lit "' is required because some dependency arguments are provided"))
    ∧ (e.kind = .constraintExclusive → ∃ t, e.argDesc = some t
        ∧ e.display fmt = .ok (lit "the argument '" ++ t ++ lit "' cannot be used with one or more of the other specified arguments"))
    ∧ (e.kind = .constraintConflict → ∃ t, e.argDesc = some t
        ∧ e.display fmt = .ok (lit "the argument '" ++ t ++ lit "' cannot be used with some other arguments")) := by
  cases rejected_shape hd h with
  | @quote k x hk => cases k <;> simp [ErrorKind.quotes] at hk <;> simp
  | @name k t hk => cases k <;> simp [ErrorKind.names] at hk <;> simp [Error.display, Error.message]
  | _ => simp

/-- C50: the text of the errors about an occurrence of a field names the field (unless it is positional: finding 8), quotes the
value, and continues with the underlying error and the possible values. -/
theorem C50_value {argv : List Bytes} (hd : DerivedArgs cx d) (h : tryParseFrom d argv = .error (.error e)) (fmt : Error.Fmt) :
    ∃ t, (e.argDesc = some t ∨ e.argDesc = none ∧ t = lit "<unknown argument>")
    ∧ (e.kind = .duplicatedNamedArgument →
        e.display fmt = .ok (lit "the argument '" ++ t ++ lit "' cannot be used multiple times"))
    ∧ (e.kind = .unexpectedInlineValue → ∃ x, e.input = some x
        ∧ e.display fmt = .ok (lit "unexpected value " ++ fmt.debugOs x ++ lit " for '" ++ t ++ lit "'"))
    ∧ (e.kind = .invalidValue → ∃ x, e.input = some x
        ∧ e.display fmt = .ok (lit "invalid value " ++ fmt.debugOs x ++ lit " for '" ++ t ++ lit "'"
            ++ (match e.source with
              | some s => lit ": " ++ Error.showSource fmt s
              | none => [])
            ++ (if e.contextualHelp = [] then [] else lit "\n  " ++ e.contextualHelp))) := by
  cases rejected_shape hd h with
  | @quote k x hk => cases k <;> simp [ErrorKind.quotes] at hk <;> simp
  | @name k t hk => cases k <;> simp [ErrorKind.names] at hk <;> simp [Error.display, Error.message]
  | @value x t s c =>
    cases t <;> cases s <;> simp [Error.display, Error.message]
  | _ => simp [Error.display, Error.message]

/-- C50: if a value of a `ValueEnum` is rejected, the text ends with all possible values.  (The occurrence `b` it was given by is one of
the field `f`.) -/
theorem C50_enum (hd : DerivedArgs cx d) (h : tryParseFrom d (argv0 :: toks) = .error (.error e)) (hk : e.kind = .invalidValue)
    (fmt : Error.Fmt) :
    ∃ (evs : List Event) (κ : Ctx V) (a : Addr) (b : Bytes) (f : FieldInfo V),
      ((∃ rest, Steps cx (start argv0 d) toks evs κ rest) ∨ ∃ e', Halts cx (start argv0 d) toks evs κ e')
      ∧ (a, some b) ∈ evs ∧ fieldAt κ.stack a = some f
      ∧ ∀ (variants : List (Str × V)) (ed : EnumDef V), deriveValueEnum variants = .ok ed → f.parser = .valueEnum ed →
        ∃ (names : List Str) (t : Str), names.Perm (variants.map Prod.fst)
          ∧ e.display fmt = .ok (t ++ lit "\n  [possible values: " ++ List.intercalate (lit ", ") names ++ lit "]") := by
  obtain ⟨evs, κ, a, b, x, f, e0, hs, hm, hf, -, hp, -, -, hc⟩ := C40_reported hd h hk
  refine ⟨evs, κ, a, b, f, hs, hm, hf, ?_⟩
  intro variants ed hv hfp
  rw [hfp] at hp
  obtain ⟨-, -, -, -, -, names, hn, hctx⟩ := C40_enum_error hv x e0 hp
  obtain ⟨t, -, -, -, ht⟩ := C50_value hd h fmt
  obtain ⟨y, -, hy⟩ := ht hk
  have hne : e.contextualHelp ≠ [] := by rw [hc, hctx]; simp [lit]
  rw [if_neg hne, hc, hctx] at hy
  obtain ⟨T, hT⟩ : ∃ T : Str, e.display fmt = .ok (T ++ (lit "\n  " ++ (lit "[possible values: " ++ List.intercalate (lit ", ") names
      ++ lit "]"))) := ⟨_, hy⟩
  refine ⟨names, T, hn, hT.trans (congrArg Except.ok ?_)⟩
  rw [show lit "\n  [possible values: " = lit "\n  " ++ lit "[possible values: " from by decide]
  simp only [List.append_assoc]

/-- C50: the remaining errors, and help requests, whose text is exactly the help. -/
theorem C50_other {argv : List Bytes} (hd : DerivedArgs cx d) (h : tryParseFrom d argv = .error (.error e)) (fmt : Error.Fmt) :
    (e.kind = .missingArg0 → e.display fmt = .ok (lit "missing executable argument (argv[0])"))
    ∧ (e.kind = .missingRequiredSubcommand → e.display fmt = .ok (lit "the subcommand is required but not provided"))
    ∧ (e.kind = .help → ∃ t, e.tryIntoHelp = .ok t ∧ e.display fmt = .ok t ∧ t ≠ [])
    ∧ e.kind ≠ .custom := by
  cases rejected_shape hd h with
  | @quote k x hk => cases k <;> simp [ErrorKind.quotes] at hk <;> simp
  | @name k t hk => cases k <;> simp [ErrorKind.names] at hk <;> simp
  | help ht => simpa [Error.display, Error.message, Error.tryIntoHelp] using ht
  | _ => simp [Error.display, Error.message]

/-- C50: formatting an error of `try_parse_from` never panics, and gives a non-empty text. -/
theorem C50_total {argv : List Bytes} (hd : DerivedArgs cx d) (h : tryParseFrom d argv = .error (.error e)) (fmt : Error.Fmt) :
    ∃ s, e.display fmt = .ok s ∧ s ≠ [] := by
  have hl : ∀ {s : String}, lit s ≠ [] → ∀ r, lit s ++ r ≠ [] := by intro s hs r; simp [hs]
  obtain ⟨q1, q2⟩ := C50_quote hd h fmt
  obtain ⟨n1, n2, n3, n4, n5, n6⟩ := C50_name hd h fmt
  obtain ⟨t, -, v1, v2, v3⟩ := C50_value hd h fmt
  obtain ⟨o1, o2, o3, o4⟩ := C50_other hd h fmt
  cases hk : e.kind with
  | missingArg0 => exact ⟨_, o1 hk, by decide⟩
  | unknownNamedArgument => obtain ⟨x, -, hx⟩ := q1 (.inl hk); exact ⟨_, hx, hl (by decide) _⟩
  | unknownSubcommand => obtain ⟨x, -, hx⟩ := q2 hk; exact ⟨_, hx, hl (by decide) _⟩
  | duplicatedNamedArgument => exact ⟨_, v1 hk, by simp [lit]⟩
  | extraPositionalArgument => obtain ⟨x, -, hx⟩ := q1 (.inr hk); exact ⟨_, hx, hl (by decide) _⟩
  | unexpectedInlineValue => obtain ⟨x, -, hx⟩ := v2 hk; exact ⟨_, hx, by simp [lit]⟩
  | missingValue => obtain ⟨x, -, hx⟩ := n1 hk; exact ⟨_, hx, by simp [lit]⟩
  | invalidValue => obtain ⟨x, -, hx⟩ := v3 hk; exact ⟨_, hx, by simp [lit]⟩
  | missingEq => obtain ⟨x, -, hx⟩ := n2 hk; exact ⟨_, hx, by simp [lit]⟩
  | missingRequiredArgument => obtain ⟨x, -, hx⟩ := n3 hk; exact ⟨_, hx, by simp [lit]⟩
  | missingRequiredSubcommand => exact ⟨_, o2 hk, by decide⟩
  | constraintRequired => obtain ⟨x, -, hx⟩ := n4 hk; exact ⟨_, hx, by simp [lit]⟩
  | constraintExclusive => obtain ⟨x, -, hx⟩ := n5 hk; exact ⟨_, hx, by simp [lit]⟩
  | constraintConflict => obtain ⟨x, -, hx⟩ := n6 hk; exact ⟨_, hx, by simp [lit]⟩
  | help => obtain ⟨t, -, ht, hne⟩ := o3 hk; exact ⟨t, ht, hne⟩
  | custom => exact absurd hk o4

/-- C50: an error made by the user with `Error::custom` shows exactly the given reason, and is not a help request. -/
theorem C50_custom (reason : Str) (fmt : Error.Fmt) :
    (Error.customErr reason).display fmt = .ok reason
    ∧ (Error.customErr reason).tryIntoHelp = .error (Error.customErr reason) := ⟨rfl, rfl⟩

/-- `std` formatting for the examples: enough for printable ASCII without quotes. -/
def Sample.fmt : Error.Fmt :=
  { debugOs := fun b => '"' :: b.map (fun x => Char.ofNat x.toNat) ++ ['"'], utf8Err := lit "invalid utf-8" }

/-- The text of the error for a command line of the sample CLI. -/
def Sample.text (args : List String) : Option String :=
  match Sample.failure (Sample.parse args) with
  | some (.error e) =>
    match e.display Sample.fmt with
    | .ok s => some (String.ofList s)
    | .error _ => none
  | _ => none

example : Sample.text ["app", "--bogus=1"] = some "unexpected argument \"--bogus\"" := by decide +kernel
example : Sample.text ["app", "x", "extra"] = some "unrecognized subcommand \"extra\"" := by decide +kernel
example : Sample.text ["app", "-v=1"] = some "unexpected value \"1\" for '-v, --verbose'" := by decide +kernel
example : Sample.text ["app", "-v", "-v"] = some "the argument '-v, --verbose' cannot be used multiple times" := by decide +kernel
example : Sample.text ["app", "--jobs", "x"] = some "invalid value \"x\" for '-j, --jobs <JOBS>': invalid digit found in string" := by
  decide +kernel
example : Sample.text ["app", "--format", "x"] = some "invalid value \"x\" for '-f, --format <FORMAT>'\n  [possible values: json, text]" := by
  decide +kernel
example : Sample.text ["app", "--level"] = some "equal sign is needed when assigning values for '--level=<LEVEL>'" := by decide +kernel
example : Sample.text ["app", "--config"] = some "a value is required for '-c, --config <CONFIG>' but none was supplied" := by
  decide +kernel
example : Sample.text ["app", "--pattern", "p"]
    = some "the argument '-c, --config <CONFIG>' is required because some dependency arguments are provided" := by decide +kernel
example : Sample.text ["app", "--level=1", "--offset", "1"]
    = some "the argument '--offset <OFFSET>' cannot be used with some other arguments" := by decide +kernel
example : Sample.text ["app", "add"] = some "the argument '<PATHS>...' is required but not provided" := by decide +kernel
example : Sample.text [] = some "missing executable argument (argv[0])" := by decide +kernel

end Palc
