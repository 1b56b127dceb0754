import Verif.Lemmas.Outcome
import Verif.Lemmas.DeriveWF
/-!
# The command line language (C23)

Parsing with a derived definition succeeds exactly on the command lines of the specification, with exactly
the specified value, and fails exactly with the specified failure.
-/

namespace Palc

open Spec

variable {V : Type}

/-- C23: success characterises the language and the value. -/
theorem C23_accepts_iff {cx : Cx V} {d : ArgsDef V} (hd : DerivedArgs cx d) (argv0 : Bytes)
    (toks : List Bytes) (out : Out V) :
    tryParseFrom d (argv0 :: toks) = .ok out ↔ Accepts cx d argv0 toks out := by
  constructor
  · intro h
    rcases accepts_or_rejects hd.wf argv0 toks with ⟨o, ho⟩ | ⟨x, hx⟩
    · rw [accepts_sound hd.wf ho] at h
      cases h
      exact ho
    · rw [rejects_sound hd.wf hx] at h
      cases h
  · exact accepts_sound hd.wf

/-- C23: every failure is the specified one. -/
theorem C23_rejects_iff {cx : Cx V} {d : ArgsDef V} (hd : DerivedArgs cx d) (argv0 : Bytes)
    (toks : List Bytes) (x : Fail) :
    tryParseFrom d (argv0 :: toks) = .error x ↔ Rejects cx d argv0 toks x := by
  constructor
  · intro h
    rcases accepts_or_rejects hd.wf argv0 toks with ⟨o, ho⟩ | ⟨y, hy⟩
    · rw [accepts_sound hd.wf ho] at h
      cases h
    · rw [rejects_sound hd.wf hy] at h
      cases h
      exact hy
  · exact rejects_sound hd.wf

end Palc
