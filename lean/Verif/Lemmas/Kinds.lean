import Verif.Lemmas.Reading
/-! Which kinds of errors come from where. -/

namespace Palc

open Spec

variable {V : Type}

/-- The kinds of errors about a value. -/
def ErrorKind.ofValue (k : ErrorKind) : Bool :=
  match k with
  | .unexpectedInlineValue | .duplicatedNamedArgument | .invalidValue => true
  | _ => false

/-- The kinds of errors about constraints. -/
def ErrorKind.ofConstraint (k : ErrorKind) : Bool :=
  match k with
  | .missingRequiredArgument | .missingRequiredSubcommand | .constraintRequired | .constraintExclusive | .constraintConflict => true
  | _ => false

theorem about_kind (f : FieldInfo V) (e : Error) : (about f e).kind = e.kind := by
  unfold about; split <;> rfl

theorem badValue_ofValue {f : FieldInfo V} {os : List (Option Bytes)} {o : Option Bytes} {e : Error} (h : BadValue f os o e) :
    e.kind.ofValue = true := by
  rcases badValue_kind h with h | h | ⟨v, h⟩
  · rw [h]; rfl
  · rw [h]; rfl
  · rw [(parse_kind h).1]; rfl

theorem firstBad_kind {st : List (Entry V)} {log evs : List Event} {e : Error} (h : FirstBad st log evs e) :
    e.kind.ofValue = true := by
  obtain ⟨_, _, _, _, f, e0, _, _, _, hb, rfl⟩ := h
  rw [about_kind]
  exact badValue_ofValue hb

/-- A failure that is a violated constraint or a panic. -/
def Fail.ofConstraint : Fail → Bool
  | .error e => e.kind.ofConstraint
  | .panic => true

theorem setError_kind {c : Core V} {given : Nat → Bool} {sub : Bool} {i : Nat} {f : FieldInfo V} {e : Error}
    (h : setError c given sub i f = some e) : e.kind.ofConstraint = true := by
  unfold setError at h
  split at h
  · cases h; rfl
  · split at h
    · cases h; rfl
    · split at h
      · cases h; rfl
      · cases h

theorem structFail_kind {c : Core V} {given : Nat → Bool} {sub need : Bool} {e : Fail}
    (h : structFail c given sub need = some e) : e.ofConstraint = true := by
  unfold structFail at h
  rw [Option.or_eq_some_iff] at h
  rcases h with h | ⟨_, h⟩
  · rw [Option.map_eq_some_iff] at h
    obtain ⟨e', h, rfl⟩ := h
    obtain ⟨x, _, h⟩ := List.exists_of_findSome?_eq_some h
    split at h
    · exact setError_kind h
    · cases h
  · rw [Option.or_eq_some_iff] at h
    rcases h with h | ⟨_, h⟩
    · obtain ⟨x, _, h⟩ := List.exists_of_findSome?_eq_some h
      split at h
      · cases h
      · unfold unsetFail at h
        split at h
        · cases h; rfl
        · split at h
          · cases h; rfl
          · cases h
    · split at h
      · cases h; rfl
      · cases h

mutual
theorem argsFail_kind : (d : ArgsDef V) → {given : Nat → Nat → Bool} → {s : Nat} → {sub : Bool} → {e : Fail} →
    argsFail given s sub d = some e → e.ofConstraint = true
  | .mk core flats subF, _, _, _, _, h => by
    rw [argsFail, Option.or_eq_some_iff] at h
    rcases h with h | ⟨_, h⟩
    · exact flatsFail_kind flats h
    · exact structFail_kind h
theorem flatsFail_kind : (fl : Flats V) → {given : Nat → Nat → Bool} → {s : Nat} → {e : Fail} →
    flatsFail given s fl = some e → e.ofConstraint = true
  | .nil, _, _, _, h => by simp [flatsFail] at h
  | .cons _ d rest, _, _, _, h => by
    rw [flatsFail, Option.or_eq_some_iff] at h
    rcases h with h | ⟨_, h⟩
    · exact argsFail_kind d h
    · exact flatsFail_kind rest h
end

theorem allFail_kind {evs : List Event} {st : List (Entry V)} {sub : Bool} {e : Fail} (h : allFail evs st sub = some e) :
    e.ofConstraint = true := by
  induction st generalizing sub with
  | nil => simp [allFail] at h
  | cons x st ih =>
    obtain ⟨i, d⟩ := x
    rw [allFail, Option.or_eq_some_iff] at h
    rcases h with h | ⟨_, h⟩
    · exact argsFail_kind d h
    · exact ih h

end Palc
