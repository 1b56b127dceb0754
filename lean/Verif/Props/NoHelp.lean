import Verif.Lemmas.NoHelp
import Verif.Props.Process
/-!
# The library built without the feature `help` (C64)

`tryParseFromN` is `tryParseFrom` of such a build.
-/

namespace Palc

open Spec

variable {V : Type} {cx : Cx V} {d : ArgsDef V} {argv0 : Bytes} {toks : List Bytes}

/-- C64: the same command lines are accepted, with the same values, whatever the definition. -/
theorem C64_same_values (d : ArgsDef V) (argv : List Bytes) (out : Out V) :
    tryParseFromN d argv = .ok out ↔ tryParseFrom d argv = .ok out :=
  ⟨(tryParseFrom_agree d argv).of_ok', (tryParseFrom_agree d argv).of_ok⟩

/-- C64: those that have a meaning. -/
theorem C64_accepts_iff (hd : DerivedArgs cx d) (argv0 : Bytes) (toks : List Bytes) (out : Out V) :
    tryParseFromN d (argv0 :: toks) = .ok out ↔ Accepts cx d argv0 toks out := by
  rw [C64_same_values, C23_accepts_iff hd]

/-- C64: every other error is the same. -/
theorem C64_same_errors (d : ArgsDef V) (argv : List Bytes) {e : Error} (hk : e.kind ≠ .help)
    (h : tryParseFrom d argv = .error (.error e)) : tryParseFromN d argv = .error (.error e) := by
  have ha := tryParseFrom_agree d argv
  rw [h] at ha
  rcases ha with ⟨_, h⟩ | ⟨e', ⟨h, _⟩, _⟩
  · exact h
  · exact absurd h hk

/-- C64: a help request is an undeclared option. -/
theorem C64_help_iff (d : ArgsDef V) (argv : List Bytes) :
    (∃ e, tryParseFrom d argv = .error (.error e) ∧ e.kind = .help)
      ↔ ∃ x, (x = blit "-h" ∨ x = blit "--help")
          ∧ tryParseFromN d argv = .error (.error { kind := .unknownNamedArgument, input := some x }) := by
  have ha := tryParseFrom_agree d argv
  constructor
  · rintro ⟨e, h, hk⟩
    rw [h] at ha
    rcases ha with ⟨h, _⟩ | ⟨e', ⟨_, x, hx, rfl⟩, h⟩
    · exact absurd hk h.1
    · exact ⟨x, hx, h⟩
  · rintro ⟨x, hx, h⟩
    cases hr : tryParseFrom d argv with
    | ok a => rw [hr] at ha; rw [show tryParseFromN d argv = .ok a from ha] at h; cases h
    | error f =>
      cases f with
      | panic => rw [hr] at ha; rw [show tryParseFromN d argv = .error .panic from ha] at h; cases h
      | error e =>
        rw [hr] at ha
        rcases ha with ⟨hu, h'⟩ | ⟨e', ⟨hk, _⟩, _⟩
        · rw [h] at h'
          cases h'
          rcases hx with rfl | rfl
          · exact absurd rfl (hu.2 rfl).1
          · exact absurd rfl (hu.2 rfl).2
        · exact ⟨e, rfl, hk⟩

/-- C64: the same command lines panic. -/
theorem C64_same_panics (d : ArgsDef V) (argv : List Bytes) :
    tryParseFromN d argv = .error .panic ↔ tryParseFrom d argv = .error .panic := by
  have ha := tryParseFrom_agree d argv
  constructor
  · intro h
    cases hr : tryParseFrom d argv with
    | ok a => rw [hr] at ha; rw [show tryParseFromN d argv = .ok a from ha] at h; cases h
    | error f =>
      cases f with
      | panic => rfl
      | error e =>
        rw [hr] at ha
        rcases ha with ⟨_, h'⟩ | ⟨_, _, h'⟩ <;> rw [h] at h' <;> cases h'
  · intro h
    rw [h] at ha
    exact ha

/-- C64: nothing ever asks for help, and `try_into_help` always gives the error back. -/
theorem C64_never_help (hd : DerivedArgs cx d) {argv : List Bytes} {e : Error} (h : tryParseFromN d argv = .error (.error e)) :
    e.kind ≠ .help ∧ e.tryIntoHelp = .error e := by
  have ha := tryParseFrom_agree d argv
  cases hr : tryParseFrom d argv with
  | ok a => rw [hr] at ha; rw [show tryParseFromN d argv = .ok a from ha] at h; cases h
  | error f =>
    cases f with
    | panic => rw [hr] at ha; rw [show tryParseFromN d argv = .error .panic from ha] at h; cases h
    | error e0 =>
      rw [hr] at ha
      rcases ha with ⟨hu, h'⟩ | ⟨e', ⟨_, x, _, rfl⟩, h'⟩
      · rw [h] at h'
        cases h'
        rcases C36_try_into_help hd hr with ⟨hk, _⟩ | ⟨hk, ht⟩
        · exact absurd hk hu.1
        · exact ⟨hk, ht⟩
      · rw [h] at h'
        cases h'
        exact ⟨by simp, rfl⟩

namespace Sample

/-- The sample in a build without help. -/
def parseN (args : List String) : R (Out Val) := tryParseFromN cli (args.map blit)

end Sample

example : Sample.value (Sample.parseN ["app", "-v", "add", "x", "--", "y"]) ["cmd", "Add", "rest"] = some (.vec [lit "y"]) := by
  decide +kernel
example : Sample.failure (Sample.parseN ["app", "-v", "add", "x", "--help"])
    = some (.error { kind := .unknownNamedArgument, input := some (blit "--help") }) := by decide +kernel
example : Sample.failure (Sample.parseN ["app", "-vh"])
    = some (.error { kind := .unknownNamedArgument, input := some (blit "-h") }) := by decide +kernel
example : Sample.failure (Sample.parseN ["app", "--jobs", "x", "-h"]) = Sample.failure (Sample.parse ["app", "--jobs", "x", "-h"])
    ∧ Sample.failure (Sample.parse ["app", "--jobs", "x", "-h"]) ≠ none := by decide +kernel
/-- The request precedes the undeclared option. -/
example : ∃ e, tryParseFrom Sample.cli ([("app" : String), "--help", "--bogus"].map blit) = .error (.error e) ∧ e.kind = .help := by
  refine (C64_help_iff Sample.cli _).2 ⟨blit "--help", .inr rfl, ?_⟩
  have h : Sample.failure (Sample.parseN ["app", "--help", "--bogus"])
      = some (.error { kind := .unknownNamedArgument, input := some (blit "--help") }) := by decide +kernel
  unfold Sample.parseN at h
  cases hr : tryParseFromN Sample.cli ([("app" : String), "--help", "--bogus"].map blit) with
  | ok o => rw [hr] at h; cases h
  | error x => rw [hr] at h; rw [Option.some.inj h]

end Palc
