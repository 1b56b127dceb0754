import Verif.Props.Display
import Verif.Props.NoPanic
import Verif.Props.Help
/-!
# `Parser::parse` (C61)
-/

namespace Palc

open Spec

variable {V : Type} {cx : Cx V} {d : ArgsDef V} {argv0 : Bytes} {toks : List Bytes}

/-- C61: the process goes on exactly if the arguments are accepted, with the value they describe. -/
theorem C61_returns_iff (hd : DerivedArgs cx d) (fmt : Error.Fmt) (argv0 : Bytes) (toks : List Bytes) (out : Out V) :
    parseMain fmt d (argv0 :: toks) = .returned out ↔ Accepts cx d argv0 toks out := by
  rw [← C23_accepts_iff hd]
  unfold parseMain
  cases h : tryParseFrom d (argv0 :: toks) with
  | ok o => simp
  | error x =>
    cases x with
    | panic => simp
    | error e => cases hdsp : e.display fmt <;> simp [hdsp]

/-- C61: otherwise it exits with status 1, after writing the text of the error and a line break.  The text is never empty. -/
theorem C61_exits (hd : DerivedArgs cx d) (fmt : Error.Fmt) (argv : List Bytes) {e : Error}
    (h : tryParseFrom d argv = .error (.error e)) :
    ∃ text, e.display fmt = .ok text ∧ text ≠ [] ∧ parseMain fmt d argv = .exited 1 (text ++ lit "\n") := by
  obtain ⟨s, hs, hne⟩ := C50_total hd h fmt
  exact ⟨s, hs, hne, by simp only [parseMain, h, hs]⟩

/-- C61: these are the only possibilities, if all default strings are valid. -/
theorem C61_outcomes (hd : DerivedArgs cx d) (hdef : ∀ f s, ArgOf d f → f.src.defaultValue = some s → ValidDefault f s)
    (fmt : Error.Fmt) (argv : List Bytes) :
    (∃ out, tryParseFrom d argv = .ok out ∧ parseMain fmt d argv = .returned out)
      ∨ ∃ text, text ≠ [] ∧ parseMain fmt d argv = .exited 1 (text ++ lit "\n") := by
  cases h : tryParseFrom d argv with
  | ok o => exact .inl ⟨o, rfl, by simp only [parseMain, h]⟩
  | error x =>
    cases x with
    | panic => exact absurd h (C24_no_panic hd hdef argv)
    | error e =>
      obtain ⟨t, _, h2, h3⟩ := C61_exits hd fmt argv h
      exact .inr ⟨t, h2, h3⟩

/-- C61: without even a program name. -/
theorem C61_no_arguments (fmt : Error.Fmt) (d : ArgsDef V) :
    parseMain fmt d [] = .exited 1 (lit "missing executable argument (argv[0])\n") := rfl

/-- C61: a help request writes exactly the help page and a line break, to stderr, and fails as well. -/
theorem C61_help (hd : DerivedArgs cx d) (fmt : Error.Fmt) {pre ts : List Bytes} {evs : List Event} {i : CmdId} {e : ArgsDef V}
    {outer : List (Entry V)} {k : Nat} (hpre : Reads cx (start argv0 d) pre evs ⟨(i, e) :: outer, k, .opts⟩)
    (hu : Unknown cx ((i, e) :: outer) (.long (lit "help"))) (hacc : Acceptable ((i, e) :: outer) evs)
    (hn : ∀ v ∈ subVariants e, Char.ofNat 0 ∉ v.name) :
    parseMain fmt d (argv0 :: pre ++ blit "--help" :: ts)
      = .exited 1 (helpPage cx ((commandPath ((i, e) :: outer)).flatMap (fun n => ' ' :: n)) e (commandList e) ++ lit "\n") := by
  have h := C46_request hd hpre hu hacc hn (ts := ts)
  have hd : Error.display fmt ({ kind := .help, help := (some (helpPage cx ((commandPath ((i, e) :: outer)).flatMap (fun n => ' ' :: n)) e (commandList e))) } : Error)
      = .ok (helpPage cx ((commandPath ((i, e) :: outer)).flatMap (fun n => ' ' :: n)) e (commandList e)) := by
    simp [Error.display, Error.message]
  unfold parseMain
  rw [h]
  dsimp only
  rw [hd]

namespace Sample

/-- Status and text of an exit. -/
def exitOf (args : List String) : Option (Nat × String) :=
  match parseMain fmt cli (args.map blit) with
  | .exited n s => some (n, String.ofList s)
  | _ => none

end Sample

example : Sample.exitOf ["app", "--jobs", "x"]
    = some (1, "invalid value \"x\" for '-j, --jobs <JOBS>': invalid digit found in string\n") := by decide +kernel
example : Sample.exitOf ["app", "add", "--bogus"] = some (1, "unexpected argument \"--bogus\"\n") := by decide +kernel
example : Sample.exitOf ["app", "add", "p"] = none := by decide +kernel

end Palc
