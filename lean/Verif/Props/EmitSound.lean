import Verif.Lemmas.EmitSound
import Verif.Props.EmitTypes
/-!
# The type checker for emitted code is sound (C70)

`Verif/Props/EmitTypes.lean` proves that emitted code passes the type checker.  Here: code that passes does not go wrong.
-/

namespace Palc

open Spec Emit

variable {V : Type}

/-- C70: code accepted by the type checker does not go wrong.  Its variables can be declared; the borrowed ones are places and
empty `Option`s.  With whatever values of the same types the parser leaves behind, the validation returns an error, computes too
large a sum, uses an invalid default or reaches `unreachable_nounwind`, or comes to its end; then the struct is built with
fields of the types found by the checker, unless `unwrap` is called on a missing value. -/
theorem C70_sound {b : Body V} {outs : List (Str × FieldTy)} (h : tyBody b = some outs) :
    ∃ env, execLets params b.lets = some env ∧ env (lit "__fields") = none
      ∧ (∀ x ∈ b.fieldRefs, ∃ p, env x = some (.place p)) ∧ (∀ x ∈ b.run.vars, ∃ o, env x = some (.opt o))
      ∧ ∀ (info : ArgsInfo) (env' : Env V), SameTypes (env.set (lit "__fields") (.refs b.fieldRefs)) env' →
        (∃ f, execB info env' b.validate = .error (.fail f) ∧ StopsIn info env' b.validate f)
        ∨ ∃ env'', execB info env' b.validate = .ok env''
          ∧ ((∃ fields, evalOutput env'' b.output = .ok fields ∧ OutsTy fields outs)
            ∨ (evalOutput env'' b.output = .error .panic ∧ ∃ o ∈ b.output, Missing env'' o.1 o.2)) := by
  unfold tyBody at h
  split at h
  · cases h
  rename_i Γ hΓ
  split at h
  · rename_i hc
    simp only [Bool.and_eq_true, decide_eq_true_eq, List.all_eq_true, Option.isNone_iff_eq_none] at hc
    obtain ⟨⟨⟨hf, _⟩, hp⟩, hv⟩ := hc
    split at h
    · rename_i Γ' hΓ'
      obtain ⟨env, he, hok⟩ := tyLets_sound b.lets paramScope Γ params params_ok hΓ
      refine ⟨env, he, hok.none hf, ?_, ?_, ?_⟩
      · intro x hx
        have := hp x hx
        unfold isPlaceTy at this
        split at this
        · rename_i k hk
          obtain ⟨v, hv, hty⟩ := hok.get hk (by simp)
          obtain ⟨p, rfl, _⟩ := hty.place_inv
          exact ⟨p, hv⟩
        · cases this
      · intro x hx
        obtain ⟨v, hv, hty⟩ := hok.get (hv x hx) (by simp)
        obtain ⟨o, rfl, _⟩ := hty.opt_inv
        exact ⟨o, hv⟩
      · intro info env' hs
        have hok' : EnvOk (Γ.set (lit "__fields") .refs) env' :=
          (hok.set (v := .refs b.fieldRefs) (t := .refs) rfl).same hs
        rcases tyTop_sound info b.validate _ Γ' env' hok' hΓ' with ⟨env'', h1, h2⟩ | ⟨f, h1, h2⟩
        · exact .inr ⟨env'', h1, tyOutput_sound h2 b.output outs h⟩
        · exact .inl ⟨f, h1, h2⟩
    · cases h
  · cases h

namespace Sample

/-- Did the execution come to its end, and if not, why? -/
def ending : Except Stop (Env Val) → Option Fail
  | .ok _ => none
  | .error s => some s.toFail

/-- A function body without variables. -/
def bodyWith (validate : List (St Val)) (output : List (Str × Extr)) : Body Val :=
  { lets := [(lit "cmd", .none)], fieldRefs := [], run := .run (some (lit "cmd")), validate, output }

/-- Its variables after parsing. -/
def noneEnv : Env Val := fun x => if x = lit "cmd" ∨ x = lit "__out" then some (.opt none)
  else if x = lit "__fields" then some (.refs []) else none

end Sample

/-- The emitted code of the sample passes the checker; it also stops at a missing argument and at a conflict, or comes to its
end. -/
example : (tyBody (Sample.bodyOf Sample.cli)).isSome ∧ (tyBody (Sample.bodyOf Sample.drop)).isSome := by decide +kernel

/-- All the ways to stop exist in code that passes the checker: sums that are too large, `unreachable_nounwind`, errors,
and `unwrap` of a missing value. -/
example : (tyBody (Sample.bodyWith [.letE totalName (.add (.u8 200) (.u8 100))] [])).isSome
    ∧ Sample.ending (execB (unitInfo none) Sample.noneEnv [.letE totalName (.add (.u8 200) (.u8 100))]) = some .panic
    ∧ (tyBody (Sample.bodyWith [.ifLetNone (.var (lit "cmd")) [.unreachableNounwind]] [])).isSome
    ∧ Sample.ending (execB (unitInfo none) Sample.noneEnv [.ifLetNone (.var (lit "cmd")) [.unreachableNounwind]]) = some .panic
    ∧ (tyBody (Sample.bodyWith [.ifLetNone (.var (lit "cmd")) [.ret (.call0 .missingSubcmd)]] [])).isSome
    ∧ Sample.ending (execB (unitInfo none) Sample.noneEnv [.ifLetNone (.var (lit "cmd")) [.ret (.call0 .missingSubcmd)]])
      = some (.error (Error.new .missingRequiredSubcommand))
    ∧ (tyBody (Sample.bodyWith [] [(lit "cmd", .unwrap)])).isSome
    ∧ Sample.failure (evalExtr Sample.noneEnv (lit "cmd") .unwrap) = some .panic := by decide +kernel

/-- What does go wrong does not pass: an unknown variable, a hidden one, a value of another type, a `break` out of the function,
a wrong number of arguments. -/
example : ∀ s ∈ ([.ifE (.var (lit "x")) [], .letE (lit "cmd") (.u8 1), .ifE (.var (lit "cmd")) [],
      .ret (.call1 .exclusive (.brk .conflict)), .ret (.call1 .missingSubcmd (.u8 0)), .ret (.u8 1)] : List (St Sample.Val)),
    tyBody (Sample.bodyWith [s] []) = none ∧ Sample.ending (execB (unitInfo none) Sample.noneEnv [s]) = some .panic := by
  intro s hs
  simp only [List.mem_cons, List.not_mem_nil, or_false] at hs
  rcases hs with rfl | rfl | rfl | rfl | rfl | rfl <;> decide +kernel

end Palc
