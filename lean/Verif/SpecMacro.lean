import Verif.SpecSource
/-!
# What the derive macros accept, and what they make of it

In terms of the source: the attributes are those of `Verif/SpecSource.lean`, the types are looked up in an
environment.
-/

namespace Palc

namespace Spec

variable {V : Type}

/-- Two lists of the same length, related element by element. -/
inductive Each {α β : Type} (R : α → β → Prop) : List α → List β → Prop
  | nil : Each R [] []
  | cons {a b as bs} (h : R a b) (hs : Each R as bs) : Each R (a :: as) (b :: bs)

/-- The settings for a struct or an enum variant; `none` without documentation and `#[command(..)]`. -/
def cmdOf (pkg : Str) (attrs : List (Attr Str)) : Option CommandMeta :=
  if hasCmd attrs = false ∧ docOf (docLines attrs) = [] then none
  else some (cmdMetaOf pkg (docOf (docLines attrs)) (cmdItems attrs))

/-- The type `Option<t>`, written with this one identifier. -/
def optionOf (t : TyExpr) : TyExpr := .path false false [(lit "Option", .angle [.ty t])]
/-- The type `Vec<t>`, written with this one identifier. -/
def vecOf (t : TyExpr) : TyExpr := .path false false [(lit "Vec", .angle [.ty t])]
/-- The type `bool`, written with this one identifier. -/
def boolTy : TyExpr := .path false false [(lit "bool", .none)]

/-- What a field means.  `#[command(flatten)]` needs a type with `Args`, `#[command(subcommand)]` one with
`Subcommand`, possibly inside `Option<..>`. -/
inductive FieldMeans (env : TyExpr → TyInfo V) (f : SrcField V) : FieldDecl V → Prop
  | arg (h : commands f.attrs = []) :
      FieldMeans env f (.arg f.ident (elabTy env f.ty) (metaOf (docOf (docLines f.attrs)) (argItems f.attrs)))
  | flatten {d} (h : commands f.attrs = [.flatten]) (hd : (env f.ty).args = some d) :
      FieldMeans env f (.flatten f.ident d)
  | subOptional {t vs} (h : commands f.attrs = [.subcommand]) (ht : f.ty = optionOf t) (hv : (env t).sub = some vs) :
      FieldMeans env f (.subcommand f.ident true vs)
  | sub {vs} (h : commands f.attrs = [.subcommand]) (ht : ∀ t, f.ty ≠ optionOf t) (hv : (env f.ty).sub = some vs) :
      FieldMeans env f (.subcommand f.ident false vs)

/-- Fields without mistakes in their attributes, and what they mean. -/
structure FieldsMean (cx : SrcCx V) (env : TyExpr → TyInfo V) (fields : List (SrcField V)) (ds : List (FieldDecl V)) :
    Prop where
  attrs : ∀ f ∈ fields, AttrsOk cx.isIdent f.attrs
  each : Each (FieldMeans env) fields ds

/-- What a variant of a `derive(Subcommand)` enum means. -/
inductive VariantMeans (cx : SrcCx V) (env : TyExpr → TyInfo V) (v : SrcVariant V) : VariantDecl V → Prop
  | unit (h : v.fields = .unit) : VariantMeans cx env v (.unit v.ident (cmdOf cx.pkgDescription v.attrs))
  -- documentation and `#[command(..)]` belong to the struct
  | newtype {t d} (h : v.fields = .tuple [t]) (hd : (env t).args = some d) (hc : hasCmd v.attrs = false)
      (hdoc : docOf (docLines v.attrs) = []) : VariantMeans cx env v (.args v.ident d)
  | struct {fields ds d} (h : v.fields = .named fields) (hf : FieldsMean cx env fields ds)
      (hd : deriveArgs cx.toCx (cmdOf cx.pkgDescription v.attrs) ds = .ok d) : VariantMeans cx env v (.args v.ident d)

/-- The styles of `#[value(rename_all = "..")]`, as in clap. -/
def styles (cx : SrcCx V) : List (String × (Str → Str)) :=
  [("camelCase", cx.lowerCamel), ("kebab-case", cx.kebab), ("PascalCase", cx.pascal),
   ("SCREAMING_SNAKE_CASE", cx.shoutySnake), ("snake_case", cx.snake), ("lower", cx.toLowercase),
   ("UPPER", cx.toUppercase), ("verbatim", fun s => s)]

/-- All items of the `#[value(..)]` attributes. -/
def valueItems (attrs : List (Attr Unit)) : List (Item Unit) :=
  attrs.flatMap (fun
    | .value (some items) => items
    | _ => [])

/-- `#[value(..)]` always has a list. -/
def ValueForm : Attr Unit → Prop
  | .value items => items ≠ none
  | _ => True

/-- The style of an enum: `#[value(rename_all = "..")]` at most once and nothing else; the default is
kebab-case. -/
inductive StyleOf (cx : SrcCx V) (attrs : List (Attr Unit)) : (Str → Str) → Prop
  | default (hf : ∀ a ∈ attrs, ValueForm a) (h : valueItems attrs = []) : StyleOf cx attrs cx.kebab
  | given {s e f} (hf : ∀ a ∈ attrs, ValueForm a)
      (h : valueItems attrs = [⟨lit "rename_all", .eq (some (.str (lit s))) e⟩]) (hs : (s, f) ∈ styles cx) :
      StyleOf cx attrs f

/-- The name of a variant: `#[value(name = "..")]` at most once and nothing else; otherwise the identifier in
the style of the enum. -/
inductive NameOf (style : Str → Str) (v : EnumVariant V) : Str → Prop
  | default (hf : ∀ a ∈ v.attrs, ValueForm a) (h : valueItems v.attrs = []) : NameOf style v (style v.ident)
  | given {s e} (hf : ∀ a ∈ v.attrs, ValueForm a)
      (h : valueItems v.attrs = [⟨lit "name", .eq (some (.str s)) e⟩]) : NameOf style v s

end Spec

end Palc
