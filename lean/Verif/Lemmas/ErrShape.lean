import Verif.Lemmas.Kinds
import Verif.Props.Language
/-!
# The shape of the errors of `try_parse_from`

Which parts of an error are filled in, for each kind.
-/

namespace Palc

open Spec

variable {V : Type} {cx : Cx V} {d : ArgsDef V} {argv0 : Bytes} {toks : List Bytes} {evs : List Event} {e : Error}

/-- Kinds of errors quoting an argument and naming no field. -/
def ErrorKind.quotes : ErrorKind → Bool
  | .unknownNamedArgument | .unknownSubcommand | .extraPositionalArgument => true
  | _ => false

/-- Kinds of errors naming a field and quoting no argument. -/
def ErrorKind.names : ErrorKind → Bool
  | .missingValue | .missingEq | .missingRequiredArgument | .constraintRequired | .constraintExclusive
  | .constraintConflict | .duplicatedNamedArgument => true
  | _ => false

/-- The possible errors. -/
inductive Shape : Error → Prop
  | arg0 : Shape { kind := .missingArg0 }
  | quote {k x} (hk : k.quotes = true) : Shape { kind := k, input := some x }
  | name {k t} (hk : k.names = true) : Shape { kind := k, argDesc := some t }
  | flagValue {x t} : Shape { kind := .unexpectedInlineValue, input := some x, argDesc := some t }
  | posTwice : Shape { kind := .duplicatedNamedArgument }
  | posFlag {x} : Shape { kind := .unexpectedInlineValue, input := some x }
  | value {x t s c} : Shape { kind := .invalidValue, input := some x, argDesc := t, source := s, contextualHelp := c }
  | sub : Shape { kind := .missingRequiredSubcommand }
  | help {t} (ht : t ≠ []) : Shape { kind := .help, help := some t }

/-- The errors of value parsers. -/
theorem parse_shape {p : ValueParser V} {v : Bytes} (h : p.parse v = .error e) :
    ∃ s c, e = { kind := .invalidValue, input := some v, source := s, contextualHelp := c } := by
  cases p with
  | valueEnum d =>
    simp only [ValueParser.parse] at h
    split at h
    · split at h
      · cases h
      · cases h; exact ⟨_, _, rfl⟩
    · cases h; exact ⟨_, _, rfl⟩
  | tryFromOsStr f =>
    simp only [ValueParser.parse] at h
    split at h
    · cases h
    · cases h; exact ⟨_, _, rfl⟩
  | fromStr f =>
    simp only [ValueParser.parse] at h
    split at h
    · split at h
      · cases h
      · cases h; exact ⟨_, _, rfl⟩
    · cases h; exact ⟨_, _, rfl⟩

theorem firstBad_shape {st : List (Entry V)} {log : List Event} (h : FirstBad st log evs e) : Shape e := by
  obtain ⟨_, _, _, _, f, e0, _, _, _, hb, rfl⟩ := h
  have hp : ∀ {v : Bytes}, f.parser.parse v = .error e0 → Shape (about f e0) := by
    intro v hv
    obtain ⟨s, c, rfl⟩ := parse_shape hv
    unfold about
    split
    · exact .value
    · exact .value
  revert hb
  generalize Option.map (normalise f) _ = o
  intro hb
  cases hb with
  | flagValue hk =>
    unfold about
    split
    · exact .flagValue
    · exact .posFlag
  | duplicate =>
    unfold about
    split
    · exact .name rfl
    · exact .posTwice
  | invalid _ _ _ hv => exact hp hv
  | piece _ _ _ hv => exact hp hv

theorem Spec.Resolves.isOption {st : List (Entry V)} {n : Name} {a : Addr} {f : FieldInfo V} (h : Resolves cx st n a f) :
    Spec.isOption f = true := by
  have h1 := List.find?_some h
  cases n <;> simp only [declares, Bool.and_eq_true] at h1 <;> exact h1.1

theorem commandHelp_ne_nil {st : List (Entry V)} (h : st ≠ []) : commandHelp st ≠ [] := by
  cases st with
  | nil => exact absurd rfl h
  | cons x st =>
    obtain ⟨i, d⟩ := x
    intro h
    simp only [commandHelp, renderHelp, List.append_eq_nil_iff] at h
    have h := h.1
    split at h
    · split at h
      · split at h <;> simp [lit] at h
      · simp [lit] at h
    · simp [lit] at h

theorem setError_shape {c : Core V} {given : Nat → Bool} {sub : Bool} {i : Nat} {f : FieldInfo V}
    (h : setError c given sub i f = some e) : Shape e := by
  unfold setError at h
  split at h
  · cases h; exact .name rfl
  · split at h
    · cases h; exact .name rfl
    · split at h
      · cases h; exact .name rfl
      · cases h

theorem structFail_shape {c : Core V} {given : Nat → Bool} {sub need : Bool}
    (h : structFail c given sub need = some (.error e)) : Shape e := by
  unfold structFail at h
  rw [Option.or_eq_some_iff] at h
  rcases h with h | ⟨_, h⟩
  · rw [Option.map_eq_some_iff] at h
    obtain ⟨e', h, he⟩ := h
    cases he
    obtain ⟨x, _, h⟩ := List.exists_of_findSome?_eq_some h
    split at h
    · exact setError_shape h
    · cases h
  · rw [Option.or_eq_some_iff] at h
    rcases h with h | ⟨_, h⟩
    · obtain ⟨x, _, h⟩ := List.exists_of_findSome?_eq_some h
      split at h
      · cases h
      · unfold unsetFail at h
        split at h
        · cases h; exact .name rfl
        · split at h
          · cases h
          · cases h
    · split at h
      · cases h; exact .sub
      · cases h

mutual
theorem argsFail_shape : (d : ArgsDef V) → {given : Nat → Nat → Bool} → {s : Nat} → {sub : Bool} → {e : Error} →
    argsFail given s sub d = some (.error e) → Shape e
  | .mk core flats subF, _, _, _, _, h => by
    rw [argsFail, Option.or_eq_some_iff] at h
    rcases h with h | ⟨_, h⟩
    · exact flatsFail_shape flats h
    · exact structFail_shape h
theorem flatsFail_shape : (fl : Flats V) → {given : Nat → Nat → Bool} → {s : Nat} → {e : Error} →
    flatsFail given s fl = some (.error e) → Shape e
  | .nil, _, _, _, h => by simp [flatsFail] at h
  | .cons _ d rest, _, _, _, h => by
    rw [flatsFail, Option.or_eq_some_iff] at h
    rcases h with h | ⟨_, h⟩
    · exact argsFail_shape d h
    · exact flatsFail_shape rest h
end

theorem allFail_shape {st : List (Entry V)} {sub : Bool} (h : allFail evs st sub = some (.error e)) : Shape e := by
  induction st generalizing sub with
  | nil => simp [allFail] at h
  | cons x st ih =>
    obtain ⟨i, d⟩ := x
    rw [allFail, Option.or_eq_some_iff] at h
    rcases h with h | ⟨_, h⟩
    · exact argsFail_shape d h
    · exact ih h

theorem clusterStuck_shape {st : List (Entry V)} {next : Option Bytes} {b : Bytes} (hst : st ≠ [])
    (h : ClusterStuck cx st next b evs e) : Shape e := by
  induction h with
  | more _ _ _ _ _ _ ih => exact ih
  | unknown | invalid | optionalValue => exact .quote rfl
  | help => exact .help (commandHelp_ne_nil hst)
  | missingEqAttached hr | missingEq hr | missingValue hr => rw [about_option hr.isOption]; exact .name rfl
  | flagValue hr => rw [about_option hr.isOption]; exact .flagValue

theorem stuck_shape {κ : Ctx V} (hst : κ.stack ≠ []) (h : Stuck cx κ toks evs e) : Shape e := by
  cases h with
  | longUnknown => exact .quote rfl
  | longHelp => exact .help (commandHelp_ne_nil hst)
  | missingEq hr | missingValue hr => rw [about_option hr.isOption]; exact .name rfl
  | flagValue hr => rw [about_option hr.isOption]; exact .flagValue
  | cluster _ hc => exact clusterStuck_shape hst hc
  | surplus _ _ _ => unfold surplus; exact .quote (by split <;> rfl)
  | dashed _ _ => unfold surplus; exact .quote (by split <;> rfl)

/-- Every error of `try_parse_from` has one of the shapes. -/
theorem rejected_shape {argv : List Bytes} (hd : DerivedArgs cx d) (h : tryParseFrom d argv = .error (.error e)) :
    Shape e := by
  cases argv with
  | nil => cases h; exact .arg0
  | cons argv0 toks =>
    cases (C23_rejects_iff hd argv0 toks _).1 h with
    | value _ hb => exact firstBad_shape hb
    | valueStuck _ hb => exact firstBad_shape hb
    | stuck hh =>
      obtain ⟨_, _, _, hs, hk, _⟩ := hh
      exact stuck_shape (stack_wf hd.wf hs).2 hk
    | invalid _ _ hf => exact allFail_shape hf

end Palc
