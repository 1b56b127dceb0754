import Verif.Program
import Verif.SpecMacro
/-!
# What a whole program means

In terms of the source; all items see each other.
-/

namespace Palc.Spec

variable {V : Type}

/-- What an item means in a crate with the types `env`. -/
inductive ItemMeans (cx : SrcCx V) (env : TyExpr → TyInfo V) : SrcItem V → TyInfo V → Prop
  | args {n input fields ds d} (hg : input.generics = false) (ha : CmdAttrsOk input.attrs) (hdata : input.data = .structNamed fields)
      (hf : FieldsMean cx env fields ds) (hd : deriveArgs cx.toCx (cmdOf cx.pkgDescription input.attrs) ds = .ok d) :
      ItemMeans cx env (.args n input) { args := some d }
  | subcommand {n input variants xs} (hg : input.generics = false) (hdata : input.data = .enum variants)
      (ha : ∀ v ∈ variants, CmdAttrsOk v.attrs) (hv : Each (VariantMeans cx env) variants xs) :
      ItemMeans cx env (.subcommand n input) { sub := some (deriveSub cx.toCx xs) }
  | valueEnum {n attrs vs style xs e} (hs : StyleOf cx attrs style) (hu : ∀ v ∈ vs, v.unit = true)
      (hn : Each (fun (v : EnumVariant V) (x : Str × V) => NameOf style v x.1 ∧ x.2 = v.value) vs xs) (hd : deriveValueEnum xs = .ok e) :
      ItemMeans cx env (.valueEnum n attrs (some vs)) { val := { valueEnum := some e } }

/-- `env` are the types of the crate: every item means what it says, with all items in scope; `base` are the types defined elsewhere. -/
structure CrateMeans (cx : SrcCx V) (base : TyExpr → TyInfo V) (items : List (SrcItem V)) (env : TyExpr → TyInfo V) : Prop where
  each : ∀ x ∈ items, ItemMeans cx env x (env (typeNamed x.name))
  others : ∀ t, (∀ x ∈ items, t ≠ typeNamed x.name) → env t = base t

/-- The simple names in a type (inside of `Option<..>`, `Vec<..>` and the like). -/
def typeNames : TyExpr → List Str
  | .path false false [(i, .none)] => [i]
  | .path false false [(_, .angle [.ty a])] => typeNames a
  | _ => []

/-- The names in the types of fields. -/
def fieldTypeNames (fields : List (SrcField V)) : List Str := fields.flatMap (fun f => typeNames f.ty)

/-- The names in the types an item mentions. -/
def SrcItem.mentions : SrcItem V → List Str
  | .args _ input =>
    match input.data with
    | .structNamed fields => fieldTypeNames fields
    | _ => []
  | .subcommand _ input =>
    match input.data with
    | .enum variants => variants.flatMap (fun v =>
      match v.fields with
      | .unit => []
      | .tuple tys => tys.flatMap typeNames
      | .named fields => fieldTypeNames fields)
    | _ => []
  | .valueEnum _ _ _ => []

/-- Every item comes after those it mentions, and names are unique. -/
inductive InOrder : List (SrcItem V) → Prop
  | nil : InOrder []
  | cons {x xs} (self : x.name ∉ SrcItem.mentions x) (later : ∀ y ∈ xs, y.name ∉ SrcItem.mentions x ∧ y.name ≠ x.name) (h : InOrder xs) :
      InOrder (x :: xs)

/-- The identifiers of the fields in an item. -/
def SrcItem.fieldIdents : SrcItem V → List Str
  | .args _ input =>
    match input.data with
    | .structNamed fields => fields.map (·.ident)
    | _ => []
  | .subcommand _ input =>
    match input.data with
    | .enum variants => variants.flatMap (fun v =>
      match v.fields with
      | .named fields => fields.map (·.ident)
      | _ => [])
    | _ => []
  | .valueEnum _ _ _ => []

end Palc.Spec
