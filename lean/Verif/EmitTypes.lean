import Verif.Emit
/-!
# Types of the emitted code

A type checker for the subset of Rust of `Verif/Emit.lean`, as far as scopes, types, labels and exclusive borrows are
concerned.  Types of values (the `T` of `Option<T>`) are not distinguished.
-/

namespace Palc.Emit

variable {V : Type}

/-- Types of places, `src/runtime.rs` 343-463; `VecPlace` and `VecDelimitedPlace` contain the same type. -/
inductive PlaceTy
  | flag | vec | set | setOpt
  deriving DecidableEq

/-- Types of variables and expressions; `present` is the `Option` in a place, `opt` is `Option<ty>` of a flattened struct
or a subcommand, `never` is `!`. -/
inductive RTy
  | place (k : PlaceTy) | opt | present | bool | u8 | err | refs | param | never
  deriving DecidableEq

/-- Types of the variables in scope. -/
abbrev Scope := Str → Option RTy

/-- Add a variable. -/
def Scope.set (Γ : Scope) (x : Str) (t : RTy) : Scope := fun y => if y = x then some t else Γ y

/-- The common type of two branches; `!` coerces to any type. -/
def joinTy (a b : RTy) : Option RTy :=
  if a = .never then some b else if b = .never then some a else if a = b then some a else none

/-- Can a value of the first type be used where the second is expected? -/
def fits (a b : RTy) : Bool := a = .never || a = b

/-- Number of indexes the error constructors take, `src/runtime.rs` 28-53. -/
def arity : ErrFn → Nat
  | .missingArg => 1
  | .missingSubcmd => 0
  | .exclusive => 1
  | .dependency => 2
  | .conflict => 2

/-- Type of an expression inside of blocks with the given labels.  The parameters other than `__out` are no values of this
subset. -/
def tyE (Γ : Scope) (ls : List Label) : Ex → Option RTy
  | .var x => if Γ x = some .param then none else Γ x
  | .dot0 e =>
    match tyE Γ ls e with
    | some (.place _) => some .present
    | _ => none
  | .isSome e | .isNone e =>
    match tyE Γ ls e with
    | some .present => some .bool
    | some .opt => some .bool
    | _ => none
  | .asU8 e => if tyE Γ ls e = some .bool then some .u8 else none
  | .add a b => if tyE Γ ls a = some .u8 ∧ tyE Γ ls b = some .u8 then some .u8 else none
  | .gt a b => if tyE Γ ls a = some .u8 ∧ tyE Γ ls b = some .u8 then some .bool else none
  | .or a b => if tyE Γ ls a = some .bool ∧ tyE Γ ls b = some .bool then some .bool else none
  | .u8 n => if n < 256 then some .u8 else none
  | .ite c t e =>
    if tyE Γ ls c = some .bool then
      match tyE Γ ls t, tyE Γ ls e with
      | some a, some b => joinTy a b
      | _, _ => none
    else none
  | .brk l => if l ∈ ls then some .never else none
  | .call0 f => if arity f = 0 then some .err else none
  | .call1 f a =>
    match tyE Γ ls a with
    | some t => if arity f = 1 ∧ fits t .u8 then some .err else none
    | none => none
  | .call2 f a b =>
    match tyE Γ ls a, tyE Γ ls b with
    | some s, some t => if arity f = 2 ∧ fits s .u8 ∧ fits t .u8 then some .err else none
    | _, _ => none

/-- Has the default expression the type of the place, `Parsable::set_default`, `src/runtime.rs` 316-320? -/
def defaultFits : PlaceTy → DefaultOut V → Bool
  | .flag, .bool _ => true
  | .vec, .many _ => true
  | .set, .one _ => true
  | .setOpt, .opt _ => true
  | _, _ => false

mutual
/-- Is a statement inside of a block well-typed? -/
def okS (Γ : Scope) (ls : List Label) : St V → Bool
  | .letE _ _ => false
  | .ifE c body => tyE Γ ls c = some .bool && okB Γ ls body
  | .ifLetSome e body | .ifLetNone e body =>
    (match tyE Γ ls e with
      | some .present => true
      | some .opt => true
      | _ => false) && okB Γ ls body
  | .labeled l body => okB Γ (l :: ls) body
  | .ret e =>
    match tyE Γ ls e with
    | some t => fits t .err
    | none => false
  | .setDefault x v =>
    match Γ x with
    | some (.place k) => defaultFits k v
    | _ => false
  | .setDefaultParse x _ =>
    match Γ x with
    | some (.place _) => true
    | _ => false
  | .unreachableNounwind => true
/-- Are all statements of a block well-typed? -/
def okB (Γ : Scope) (ls : List Label) : List (St V) → Bool
  | [] => true
  | s :: rest => okS Γ ls s && okB Γ ls rest
end

/-- Statements of a function body: variables in scope afterwards.  No variable is hidden by another one. -/
def tyTop (Γ : Scope) : List (St V) → Option Scope
  | [] => some Γ
  | .letE x e :: rest =>
    match Γ x, tyE Γ [] e with
    | none, some t => tyTop (Γ.set x t) rest
    | _, _ => none
  | s :: rest => if okS Γ [] s then tyTop Γ rest else none

/-- Types of fields of structs: those of arguments, the type of a flattened struct or a subcommand, and its `Option`. -/
inductive FieldTy
  | arg (k : MagicKind)
  | inner
  | optional
  deriving DecidableEq

/-- Type of a place. -/
def placeTy : Place V → PlaceTy
  | .flag _ => .flag
  | .vec _ _ | .vecDelim _ _ _ => .vec
  | .set _ _ => .set
  | .setOpt _ _ => .setOpt

/-- Type of an initializer. -/
def Init.ty : Init V → RTy
  | .place p => .place (placeTy p)
  | .none => .opt

/-- `let`s at the beginning of the function. -/
def tyLets (Γ : Scope) : List (Str × Init V) → Option Scope
  | [] => some Γ
  | (x, i) :: rest =>
    match Γ x with
    | none => tyLets (Γ.set x i.ty) rest
    | some _ => none

/-- Variables borrowed by the call of the parser. -/
def RunEx.vars : RunEx → List Str
  | .run sub => sub.toList
  | .flatten i inner => i :: inner.vars

/-- Type of a field of the output.  (`unwrap_or_default` of a value is not typable without knowing its type.) -/
def tyExtr (Γ : Scope) (x : Str) : Extr → Option FieldTy
  | .plain => if Γ x = some .opt then some .optional else none
  | .unwrap => if Γ x = some .opt then some .inner else none
  | .dot0 =>
    match Γ x with
    | some (.place .set) => some (.arg .option)
    | some (.place .setOpt) => some (.arg .optionOption)
    | some (.place .vec) => some (.arg .optionVec)
    | _ => none
  | .dot0Unwrap =>
    match Γ x with
    | some (.place .flag) => some (.arg .bool)
    | some (.place .set) => some (.arg .value)
    | some (.place .setOpt) => some (.arg .option)
    | some (.place .vec) => some (.arg .vec)
    | _ => none
  | .dot0UnwrapOrDefault =>
    match Γ x with
    | some (.place .flag) => some (.arg .bool)
    | some (.place .setOpt) => some (.arg .option)
    | some (.place .vec) => some (.arg .vec)
    | _ => none

/-- Fields of the output with their types. -/
def tyOutput (Γ : Scope) : List (Str × Extr) → Option (List (Str × FieldTy))
  | [] => some []
  | (x, e) :: rest =>
    match tyExtr Γ x e, tyOutput Γ rest with
    | some t, some ts => some ((x, t) :: ts)
    | _, _ => none

/-- References to places can be used as `&mut dyn Parsable`. -/
def isPlaceTy : Option RTy → Bool
  | some (.place _) => true
  | _ => false

/-- Parameters of the parsing functions, `src/runtime.rs` 103-113, `derive_subcommand.rs` 178-184. -/
def paramScope : Scope := fun x =>
  if x = lit "__out" then some .opt
  else if x ∈ [lit "__frame", lit "__parser", lit "__info", lit "__idx"] then some .param
  else none

/-- Check the body of a parsing function: the fields of the struct it builds, with their types.  The references in `__fields`
and those passed to the parser are exclusive, so each variable is borrowed once. -/
def tyBody (b : Body V) : Option (List (Str × FieldTy)) :=
  match tyLets paramScope b.lets with
  | none => none
  | some Γ =>
    if (Γ (lit "__fields")).isNone && (b.fieldRefs ++ b.run.vars).Nodup
        && b.fieldRefs.all (fun x => isPlaceTy (Γ x))
        && b.run.vars.all (fun x => Γ x = some .opt) then
      match tyTop (Γ.set (lit "__fields") .refs) b.validate with
      | some Γ => tyOutput Γ b.output
      | none => none
    else none

end Palc.Emit
