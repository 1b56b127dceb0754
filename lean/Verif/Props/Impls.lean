import Verif.Lemmas.Impls
import Verif.Props.Program
/-!
# Further impls of value types (C94)

A type may implement several of the traits that make it a value type.  Only the first of `ValueEnum`, `TryFrom<&OsStr>` and `FromStr`
counts: impls of the others can be added, changed and removed without any effect on the program.
-/

namespace Palc

open Spec

variable {V : Type} {cx : SrcCx V} {env env' base base' : TyExpr → TyInfo V}

/-- The two types differ at most in impls of traits that come after one that both implement, in the same way. -/
structure SameFirstImpl (t t' : TyInfo V) : Prop where
  args : t'.args = t.args
  sub : t'.sub = t.sub
  default : t'.val.default = t.val.default
  valueEnum : t'.val.valueEnum = t.val.valueEnum
  tryFromOsStr : t.val.valueEnum = none → t'.val.tryFromOsStr = t.val.tryFromOsStr
  fromStr : t.val.valueEnum = none → t.val.tryFromOsStr = none → t'.val.fromStr = t.val.fromStr

theorem SameFirstImpl.norm (h : ∀ t, SameFirstImpl (env t) (env' t)) : normEnv env' = normEnv env := by
  funext t
  obtain ⟨h1, h2, h3, h4, h5, h6⟩ := h t
  unfold normEnv ValTy.norm
  generalize env t = x at *
  generalize env' t = y at *
  obtain ⟨⟨xe, xo, xs, xd⟩, xa, xu⟩ := x
  obtain ⟨⟨ye, yo, ys, yd⟩, ya, yu⟩ := y
  simp only at h1 h2 h3 h4 h5 h6
  subst h1 h2 h3 h4
  cases ye with
  | some e => rfl
  | none =>
    have := h5 rfl
    subst this
    cases yo with
    | some o => rfl
    | none => rw [h6 rfl rfl]

/-- C94: `derive(Args)`/`derive(Parser)` makes the same parser of a struct, or reports the same errors. -/
theorem C94_struct (h : ∀ t, SameFirstImpl (env t) (env' t)) (input : Input V) : expandArgs cx env' input = expandArgs cx env input := by
  rw [← norm_expandArgs cx env', ← norm_expandArgs cx env, SameFirstImpl.norm h]

/-- C94: the same for `derive(Subcommand)`. -/
theorem C94_subcommand (h : ∀ t, SameFirstImpl (env t) (env' t)) (input : Input V) :
    expandSubcommand cx env' input = expandSubcommand cx env input := by
  rw [← norm_expandSubcommand cx env', ← norm_expandSubcommand cx env, SameFirstImpl.norm h]

/-- C94: a program compiles to one that gives the same results, or has the same errors, with such other impls. -/
theorem C94_program (h : ∀ t, SameFirstImpl (base t) (base' t)) (items : List (SrcItem V)) :
    (∀ env, compile cx base items = .ok env → ∃ env', compile cx base' items = .ok env'
      ∧ ∀ main argv, runProgram env' main argv = runProgram env main argv)
    ∧ (∀ es, compile cx base items = .errors es → compile cx base' items = .errors es)
    ∧ (compile cx base items = .panic → compile cx base' items = .panic) := by
  have hb := norm_compile cx base items
  have hb' := norm_compile cx base' items
  rw [SameFirstImpl.norm h, hb] at hb'
  refine ⟨fun env he => ?_, fun es he => ?_, fun he => ?_⟩ <;> rw [he] at hb'
  · cases he' : compile cx base' items with
    | ok env' =>
      rw [he'] at hb'
      have hn : normEnv env = normEnv env' := by simpa [Expansion.map] using hb'
      refine ⟨env', rfl, fun main argv => ?_⟩
      have := congrFun hn (typeNamed main)
      unfold runProgram
      rw [show (env' (typeNamed main)).args = (env (typeNamed main)).args from (congrArg TyInfo.args this).symm]
    | errors es => rw [he'] at hb'; cases hb'
    | panic => rw [he'] at hb'; cases hb'
  · cases he' : compile cx base' items with
    | ok env' => rw [he'] at hb'; cases hb'
    | errors es' =>
      rw [he'] at hb'
      simp only [Expansion.map, Expansion.errors.injEq] at hb'
      rw [hb']
    | panic => rw [he'] at hb'; cases hb'
  · cases he' : compile cx base' items with
    | ok env' => rw [he'] at hb'; cases hb'
    | errors es' => rw [he'] at hb'; cases hb'
    | panic => rfl

/-! ## Cases -/

namespace Sample

/-- `Level` with the impls given. -/
def levelTypes (v : ValTy Val) (t : TyExpr) : TyInfo Val :=
  match t with
  | .path false false [(i, .none)] => if i = lit "Level" then { val := v } else {}
  | _ => {}

/-- `struct Cli { #[arg(long)] level: Option<Level> }` -/
def levelItem : SrcItem Val := .args (lit "Cli")
  { data := .structNamed [{ ident := lit "level", ty := optionOf (named "Level"), attrs := [.arg (some [bare "long"])] }] }

/-- `low` and `high`. -/
def byName : EnumDef Val := { arms := [(lit "high", lit "High"), (lit "low", lit "Low")], possibleInputsNul := lit "high\x00low\x00", noUpperCase := true }

/-- Any impl of `TryFrom<&OsStr>` or `FromStr` is ignored beside that of `ValueEnum`. -/
theorem level_same (os : Option (Bytes → Except Str Val)) (st : Option (Str → Except Str Val)) (t : TyExpr) :
    SameFirstImpl (levelTypes { valueEnum := some byName } t) (levelTypes { valueEnum := some byName, tryFromOsStr := os, fromStr := st } t) := by
  unfold levelTypes
  split
  · split
    · exact ⟨rfl, rfl, rfl, rfl, (fun h => by cases h), (fun h => by cases h)⟩
    · exact ⟨rfl, rfl, rfl, rfl, fun _ => rfl, fun _ _ => rfl⟩
  · exact ⟨rfl, rfl, rfl, rfl, fun _ => rfl, fun _ _ => rfl⟩

/-- The program is the same whatever `FromStr` and `TryFrom<&OsStr>` do. -/
example (os : Option (Bytes → Except Str Val)) (st : Option (Str → Except Str Val)) (env : TyExpr → TyInfo Val)
    (h : compile srcCx (levelTypes { valueEnum := some byName }) [levelItem] = .ok env) :
    ∃ env', compile srcCx (levelTypes { valueEnum := some byName, tryFromOsStr := os, fromStr := st }) [levelItem] = .ok env'
      ∧ ∀ main argv, runProgram env' main argv = runProgram env main argv :=
  (C94_program (level_same os st) _).1 env h
example : compiles (compile srcCx (levelTypes { valueEnum := some byName }) [levelItem]) = true := by decide +kernel

/-- The result of the program for a command line. -/
def levelRun (v : ValTy Val) (args : List String) : Option (Out Val) :=
  match compile srcCx (levelTypes v) [levelItem] with
  | .ok env => (runProgram env (lit "Cli") (args.map blit)).bind (fun r => match r with
      | .ok out => some out
      | .error _ => none)
  | _ => none

/-- The `level` of a result. -/
def levelOf : Option (Out Val) → Option (FieldOut Val)
  | some (.struct [(_, .field f)]) => some f
  | _ => none

end Sample

/-- C94: which impl is the first does matter: with `FromStr` only, `5` is a level; with a further `ValueEnum` impl it is not, and with a
further `TryFrom<&OsStr>` impl it may be another one. -/
theorem C94_first :
    Sample.levelOf (Sample.levelRun { fromStr := some (fun s => .ok s) } ["app", "--level=5"]) = some (.option (some (lit "5")))
    ∧ Sample.levelOf (Sample.levelRun { tryFromOsStr := some (fun _ => .ok (lit "any")), fromStr := some (fun s => .ok s) } ["app", "--level=5"])
      = some (.option (some (lit "any")))
    ∧ Sample.levelOf (Sample.levelRun { valueEnum := some Sample.byName, fromStr := some (fun s => .ok s) } ["app", "--level=5"]) = none
    ∧ Sample.levelOf (Sample.levelRun { valueEnum := some Sample.byName, fromStr := some (fun s => .ok s) } ["app", "--level=low"])
      = some (.option (some (lit "Low"))) := by
  decide +kernel

end Palc
