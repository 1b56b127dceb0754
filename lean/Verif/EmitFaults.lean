import Verif.EmitTypes
/-!
# How well-typed code may end

The reasons for which code of the subset of Rust of `Verif/Emit.lean` may stop although rustc accepts it: it returns an
error, a sum overflows, a default value is invalid, or it reaches `unreachable_nounwind`.  In `Verif/Emit.lean` the meaning
of code that rustc rejects is a panic, too, so these have to be told apart.
-/

namespace Palc.Emit

variable {V : Type}

/-- Has the field of the built struct the type? -/
def OutTy : Out V → FieldTy → Prop
  | .field (.bool _), t => t = .arg .bool
  | .field (.value _), t => t = .arg .value
  | .field (.option _), t => t = .arg .option
  | .field (.optOpt _), t => t = .arg .optionOption
  | .field (.vec _), t => t = .arg .vec
  | .field (.optVec _), t => t = .arg .optionVec
  | .optSub _, t => t = .optional
  | .struct _, t => t = .inner
  | .variant _ _, t => t = .inner

/-- Have the fields of the built struct, in order, these names and types? -/
def OutsTy : List (Str × Out V) → List (Str × FieldTy) → Prop
  | [], [] => True
  | (x, o) :: os, (y, t) :: ts => x = y ∧ OutTy o t ∧ OutsTy os ts
  | _, _ => False

/-- Has the value the type?  (An `Option` contains a struct or an enum.) -/
def HasTy : Val V → RTy → Prop
  | .place p, t => t = .place (placeTy p)
  | .opt o, t => t = .opt ∧ ∀ out, o = some out → OutTy out .inner
  | .present _, t => t = .present
  | .bool _, t => t = .bool
  | .u8 n, t => t = .u8 ∧ n < 256
  | .err _, t => t = .err
  | .refs _, t => t = .refs

/-- The variables have values of their types, and there are no others.  Parameters are no values. -/
def EnvOk (Γ : Scope) (env : Env V) : Prop :=
  ∀ x, match Γ x with
    | none => env x = none
    | some .param => env x = none
    | some t => ∃ v, env x = some v ∧ HasTy v t

/-- Evaluating the expression computes a sum that is too large for a `u8`. -/
inductive Overflows (info : ArgsInfo) (env : Env V) : Ex → Prop
  | here {a b : Ex} {m n : Nat} : evalE info env a = .ok (.u8 m) → evalE info env b = .ok (.u8 n) → 256 ≤ m + n →
      Overflows info env (.add a b)
  | dot0 {e : Ex} : Overflows info env e → Overflows info env (.dot0 e)
  | isSome {e : Ex} : Overflows info env e → Overflows info env (.isSome e)
  | isNone {e : Ex} : Overflows info env e → Overflows info env (.isNone e)
  | asU8 {e : Ex} : Overflows info env e → Overflows info env (.asU8 e)
  | add1 {a b : Ex} : Overflows info env a → Overflows info env (.add a b)
  | add2 {a b : Ex} : Overflows info env b → Overflows info env (.add a b)
  | gt1 {a b : Ex} : Overflows info env a → Overflows info env (.gt a b)
  | gt2 {a b : Ex} : Overflows info env b → Overflows info env (.gt a b)
  | or1 {a b : Ex} : Overflows info env a → Overflows info env (.or a b)
  | or2 {a b : Ex} : Overflows info env b → Overflows info env (.or a b)
  | cond {c t e : Ex} : Overflows info env c → Overflows info env (.ite c t e)
  | yes {c t e : Ex} : Overflows info env t → Overflows info env (.ite c t e)
  | no {c t e : Ex} : Overflows info env e → Overflows info env (.ite c t e)
  | call1 {f : ErrFn} {a : Ex} : Overflows info env a → Overflows info env (.call1 f a)
  | fst {f : ErrFn} {a b : Ex} : Overflows info env a → Overflows info env (.call2 f a b)
  | snd {f : ErrFn} {a b : Ex} : Overflows info env b → Overflows info env (.call2 f a b)

/-- The expression evaluated by a statement before anything else. -/
def St.head : St V → Option Ex
  | .letE _ e | .ifE e _ | .ifLetSome e _ | .ifLetNone e _ | .ret e => some e
  | .labeled _ _ | .setDefault _ _ | .setDefaultParse _ _ | .unreachableNounwind => none

/-- The block of a statement. -/
def St.body : St V → List (St V)
  | .ifE _ b | .ifLetSome _ b | .ifLetNone _ b | .labeled _ b => b
  | .letE _ _ | .ret _ | .setDefault _ _ | .setDefaultParse _ _ | .unreachableNounwind => []

mutual
/-- The statement, executed with these variables, stops for a reason that is not a mistake in the code. -/
inductive Stops (info : ArgsInfo) : Env V → St V → Fail → Prop
  | returns {env : Env V} {e : Ex} {err : Error} : evalE info env e = .ok (.err err) → Stops info env (.ret e) (.error err)
  | overflow {env : Env V} {s : St V} {e : Ex} : s.head = some e → Overflows info env e → Stops info env s .panic
  | invalid {env : Env V} {x : Str} {p : Place V} {text : Str} : env x = some (.place p) →
      (∀ p', p.parseFrom (some (enc text)) ≠ .ok p') → Stops info env (.setDefaultParse x text) .panic
  | unreachable {env : Env V} : Stops info env .unreachableNounwind .panic
  | inside {env : Env V} {s : St V} {f : Fail} : StopsIn info env s.body f → Stops info env s f
/-- A statement of the block stops so. -/
inductive StopsIn (info : ArgsInfo) : Env V → List (St V) → Fail → Prop
  | here {env : Env V} {s : St V} {rest : List (St V)} {f : Fail} : Stops info env s f → StopsIn info env (s :: rest) f
  | later {env env' : Env V} {s : St V} {rest : List (St V)} {f : Fail} : execS info env s = .ok env' →
      StopsIn info env' rest f → StopsIn info env (s :: rest) f
end

/-- `unwrap` is called on the variable and it contains nothing. -/
def Missing (env : Env V) (x : Str) : Extr → Prop
  | .unwrap => env x = some (.opt none)
  | .dot0Unwrap => ∃ p, env x = some (.place p) ∧ p.isSet = false
  | _ => False

/-- The same variables, with values of the same types: what the parser leaves behind, `src/runtime.rs` 159-168, 343-463. -/
def SameTypes (env env' : Env V) : Prop :=
  ∀ x, match env x, env' x with
    | none, none => True
    | some (.place p), some (.place q) => placeTy p = placeTy q
    | some (.opt _), some (.opt o) => ∀ out, o = some out → OutTy out .inner
    | some (.refs _), some (.refs _) => True
    | _, _ => False

end Palc.Emit
