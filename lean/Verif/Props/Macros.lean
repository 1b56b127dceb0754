import Verif.Lemmas.MacroEnum
import Verif.Props.Attributes
import Verif.Props.Accept
import Verif.Props.Derive
/-!
# The derive macros, from the source (C55, C56, C57, C58, C59)

C55: a struct with `derive(Args)` or `derive(Parser)` compiles exactly if its attributes and those of its fields are
documented ones, its flattened and subcommand fields have types of that sort and its fields follow the rules of C54.

C56: the same for enums with `derive(Subcommand)`; the names of the subcommands.

C57: the same for enums with `derive(ValueEnum)`; the names of the values.

C58: `bool`, `Option<..>` and `Vec<..>` are recognised by their spelling.

C59: the macros report errors and do not panic.
-/

namespace Palc

open Spec

variable {V : Type} {cx : SrcCx V} {env : TyExpr → TyInfo V} {input : Input V} {d : ArgsDef V} {vs : Variants V}

/-- The types in scope were themselves made by the macros. -/
structure EnvDerived (cx : Cx V) (env : TyExpr → TyInfo V) : Prop where
  args : ∀ t d, (env t).args = some d → DerivedArgs cx d
  sub : ∀ t vs, (env t).sub = some vs → DerivedVariants cx vs

/-! ## C55 -/

theorem fieldsMean_flat {fields : List (SrcField V)} {ds : List (FieldDecl V)} (henv : EnvDerived cx.toCx env)
    (h : FieldsMean cx env fields ds) {i : Str} {d : ArgsDef V} (hd : .flatten i d ∈ ds) : DerivedArgs cx.toCx d := by
  obtain ⟨f, -, hf⟩ := h.each.right hd
  cases hf with
  | flatten _ h => exact henv.args _ _ h

theorem fieldsMean_sub {fields : List (SrcField V)} {ds : List (FieldDecl V)} (henv : EnvDerived cx.toCx env)
    (h : FieldsMean cx env fields ds) {i : Str} {o : Bool} {vs : Variants V} (hd : .subcommand i o vs ∈ ds) :
    DerivedVariants cx.toCx vs := by
  obtain ⟨f, -, hf⟩ := h.each.right hd
  cases hf with
  | subOptional _ _ h => exact henv.sub _ _ h
  | sub _ _ h => exact henv.sub _ _ h

/-- C55: a struct compiles exactly if its source is legal. -/
theorem C55_accepted_iff (henv : EnvDerived cx.toCx env) :
    (∃ d, expandArgs cx env input = .ok d) ↔ input.generics = false ∧ CmdAttrsOk input.attrs
      ∧ ∃ fields ds, input.data = .structNamed fields ∧ FieldsMean cx env fields ds ∧ Legal cx.toCx ds := by
  simp only [expandArgs_iff]
  constructor
  · rintro ⟨d, hg, ha, fields, ds, hdata, hf, hd⟩
    exact ⟨hg, ha, fields, ds, hdata, hf, (C54_accepted_iff (fun i d' h => fieldsMean_flat henv hf h)).mp ⟨d, hd⟩⟩
  · rintro ⟨hg, ha, fields, ds, hdata, hf, hl⟩
    obtain ⟨d, hd⟩ := (C54_accepted_iff (cmeta := cmdOf cx.pkgDescription input.attrs)
      (fun i d' h => fieldsMean_flat henv hf h)).mpr hl
    exact ⟨d, hg, ha, fields, ds, hdata, hf, hd⟩

/-- C55: what comes out of the macro is one of the definitions all other theorems are about. -/
theorem C55_derived (henv : EnvDerived cx.toCx env) (h : expandArgs cx env input = .ok d) : DerivedArgs cx.toCx d := by
  obtain ⟨-, -, fields, ds, -, hf, hd⟩ := expandArgs_iff.mp h
  exact .mk _ ds (fun _ _ => fieldsMean_flat henv hf) (fun _ _ _ => fieldsMean_sub henv hf) hd

/-- C55: the definition depends on the struct only through its fields, its documentation and its settings.  In particular
attributes of other macros, generics of other items and so on play no role. -/
theorem C55_same {input' : Input V} (h : expandArgs cx env input = .ok d) (ha : CmdAttrsOk input'.attrs)
    (hg : input'.generics = false) (hd : input'.data = input.data) (hdoc : docLines input'.attrs = docLines input.attrs)
    (hc : hasCmd input'.attrs = hasCmd input.attrs) (hi : cmdItems input'.attrs = cmdItems input.attrs) :
    expandArgs cx env input' = .ok d := by
  obtain ⟨-, -, fields, ds, h1, h2, h3⟩ := expandArgs_iff.mp h
  refine expandArgs_iff.mpr ⟨hg, ha, fields, ds, hd.trans h1, h2, ?_⟩
  rwa [show cmdOf cx.pkgDescription input'.attrs = cmdOf cx.pkgDescription input.attrs by unfold cmdOf; rw [hdoc, hc, hi]]

namespace Sample

/-- Parameters for the examples. -/
def srcCx : SrcCx Val :=
  { Sample.cx with
    isIdent := ident, pkgDescription := lit "A tool.", lowerCamel := id, pascal := id, snake := id, toLowercase := kebab,
    toUppercase := shouty }

/-- Was the source accepted? -/
def compiles {α : Type} : Expansion α → Bool
  | .ok _ => true
  | _ => false

/-- A type without arguments. -/
def named (s : String) : TyExpr := .path false false [(lit s, .none)]

/-- The types of the sample. -/
def srcEnv (t : TyExpr) : TyInfo Val :=
  match t with
  | .path false false [(i, .none)] =>
    if i = lit "String" then { val := { fromStr := some (fun s => .ok s) } }
    else if i = lit "Number" then { val := { fromStr := some numberOf } }
    else if i = lit "Format" then { val := { valueEnum := some formatEnum } }
    else if i = lit "OutputArgs" then { args := some output }
    else if i = lit "Cmd" then { sub := some cmd }
    else {}
  | _ => {}

theorem env_derived : EnvDerived Sample.cx srcEnv := by
  constructor
  · intro t d h
    unfold srcEnv at h
    split at h
    · repeat' split at h
      all_goals first
        | (cases h; exact output_derived)
        | cases h
    · cases h
  · intro t d h
    unfold srcEnv at h
    split at h
    · repeat' split at h
      all_goals first
        | (cases h; exact cmd_derived)
        | cases h
    · cases h

/-- The source of the sample. -/
def cliSource : Input Val where
  attrs := [.other]
  data := .structNamed
    [ { ident := lit "verbose", ty := boolTy, attrs := [.arg (some [bare "short", bare "long", tru "global"])] },
      { ident := lit "config", ty := optionOf (named "String")
        attrs := [.arg (some [chr "short" 'c', bare "long"]), .arg (some [str "alias" "cfg", tru "global"])] },
      { ident := lit "jobs", ty := named "Number"
        attrs := [.arg (some [bare "short", bare "long", str "default_value" "1"])] },
      { ident := lit "define", ty := vecOf (named "String"), attrs := [.arg (some [chr "short" 'D', tru "use_value_delimiter"])] },
      { ident := lit "color", ty := optionOf (optionOf (named "String"))
        attrs := [.arg (some [bare "long", tru "require_equals"])] },
      { ident := lit "level", ty := optionOf (named "Number"), attrs := [.arg (some [bare "long", tru "require_equals"])] },
      { ident := lit "offset", ty := optionOf (named "Number")
        attrs := [.arg (some [bare "long", tru "allow_negative_numbers", str "conflicts_with" "level"])] },
      { ident := lit "pattern", ty := optionOf (named "String")
        attrs := [.arg (some [bare "long", tru "allow_hyphen_values", str "requires" "config"])] },
      { ident := lit "output", ty := named "OutputArgs", attrs := [.command (some [bare "flatten"])] },
      { ident := lit "cmd", ty := optionOf (named "Cmd"), attrs := [.command (some [bare "subcommand"])] },
      { ident := lit "file", ty := optionOf (named "String") } ]

theorem cliSource_ok : expandArgs srcCx srcEnv cliSource = .ok cli := by rfl

/-- The sample compiles, therefore it is legal. -/
example : CmdAttrsOk cliSource.attrs ∧ ∃ fields ds, cliSource.data = .structNamed fields ∧ FieldsMean srcCx srcEnv fields ds
    ∧ Legal Sample.cx ds := ((C55_accepted_iff env_derived).mp ⟨_, cliSource_ok⟩).2
example : DerivedArgs Sample.cx cli := C55_derived env_derived cliSource_ok
example : expandArgs srcCx srcEnv { cliSource with attrs := [] } = .ok cli :=
  C55_same cliSource_ok (C53_container_iff (pkg := []).mp (by decide +kernel)) rfl rfl rfl rfl rfl

end Sample

/-! ## C56 -/

theorem fieldsDerived {fields : List (SrcField V)} {ds : List (FieldDecl V)} {d : ArgsDef V} {cmeta : Option CommandMeta}
    (henv : EnvDerived cx.toCx env) (h : FieldsMean cx env fields ds) (hd : deriveArgs cx.toCx cmeta ds = .ok d) :
    DerivedArgs cx.toCx d :=
  .mk _ ds (fun _ _ => fieldsMean_flat henv h) (fun _ _ _ => fieldsMean_sub henv h) hd

/-- A variant a user may write: a unit variant, a newtype of a struct with `Args`, without documentation and
`#[command(..)]` of its own, or a variant with legal fields. -/
inductive LegalVariant (cx : SrcCx V) (env : TyExpr → TyInfo V) (v : SrcVariant V) : Prop
  | unit (h : v.fields = .unit)
  | newtype {t} (h : v.fields = .tuple [t]) (hd : (env t).args.isSome = true) (hc : hasCmd v.attrs = false)
      (hdoc : docOf (docLines v.attrs) = [])
  | struct {fields ds} (h : v.fields = .named fields) (hf : FieldsMean cx env fields ds) (hl : Legal cx.toCx ds)

/-- C56: an enum compiles exactly if all variants are legal.  Attributes of the enum itself are not looked at, nor are names
compared. -/
theorem C56_accepted_iff (henv : EnvDerived cx.toCx env) :
    (∃ vs, expandSubcommand cx env input = .ok vs) ↔ input.generics = false
      ∧ ∃ variants, input.data = .enum variants ∧ ∀ v ∈ variants, CmdAttrsOk v.attrs ∧ LegalVariant cx env v := by
  simp only [expandSubcommand_iff]
  have key : ∀ v : SrcVariant V, LegalVariant cx env v ↔ ∃ x, VariantMeans cx env v x := by
    intro v
    constructor
    · intro h
      cases h with
      | unit h => exact ⟨_, .unit h⟩
      | newtype h hd hc hdoc =>
        obtain ⟨d, hd⟩ := Option.isSome_iff_exists.mp hd
        exact ⟨_, .newtype h hd hc hdoc⟩
      | struct h hf hl =>
        obtain ⟨d, hd⟩ := (C54_accepted_iff (cmeta := cmdOf cx.pkgDescription v.attrs)
          (fun i d' h => fieldsMean_flat henv hf h)).mpr hl
        exact ⟨_, .struct h hf hd⟩
    · rintro ⟨x, h⟩
      cases h with
      | unit h => exact .unit h
      | newtype h hd hc hdoc => exact .newtype h (by rw [hd]; rfl) hc hdoc
      | struct h hf hd => exact .struct h hf ((C54_accepted_iff (fun i d' h => fieldsMean_flat henv hf h)).mp ⟨_, hd⟩)
  constructor
  · rintro ⟨vs, hg, variants, xs, hdata, ha, hx, -⟩
    refine ⟨hg, variants, hdata, fun v hv => ⟨ha v hv, ?_⟩⟩
    obtain ⟨x, -, h⟩ := hx.left hv
    exact (key v).mpr ⟨x, h⟩
  · rintro ⟨hg, variants, hdata, h⟩
    have : ∃ xs, Each (VariantMeans cx env) variants xs := by
      clear hdata
      induction variants with
      | nil => exact ⟨[], .nil⟩
      | cons v variants ih =>
        obtain ⟨xs, hxs⟩ := ih (fun w hw => h w (List.mem_cons_of_mem _ hw))
        obtain ⟨x, hx⟩ := (key v).mp (h v (by simp)).2
        exact ⟨x :: xs, .cons hx hxs⟩
    obtain ⟨xs, hxs⟩ := this
    exact ⟨_, hg, variants, xs, hdata, fun v hv => (h v hv).1, hxs, rfl⟩

theorem deriveSub_names (c : Cx V) (xs : List (VariantDecl V)) :
    (deriveSub c xs).names = xs.map (fun
      | .unit i _ => c.kebab i
      | .args i _ => c.kebab i) := by
  induction xs with
  | nil => simp [deriveSub, Variants.names]
  | cons x xs ih => cases x <;> simp [deriveSub, Variants.names, ih, Variant.name]

/-- C56: subcommands have the names of the variants in kebab-case, in the order of the source. -/
theorem C56_names {variants : List (SrcVariant V)} (h : expandSubcommand cx env input = .ok vs) (hv : input.data = .enum variants) :
    vs.names = variants.map (fun v => cx.kebab v.ident) := by
  obtain ⟨-, variants', xs, hdata, -, hx, rfl⟩ := expandSubcommand_iff.mp h
  rw [hv] at hdata
  cases hdata
  rw [deriveSub_names]
  refine hx.map_eq (fun v x hm => ?_)
  cases hm <;> rfl

/-- C56: what comes out of the macro is one of the definitions all other theorems are about. -/
theorem C56_derived (henv : EnvDerived cx.toCx env) (h : expandSubcommand cx env input = .ok vs) :
    DerivedVariants cx.toCx vs := by
  obtain ⟨-, variants, xs, -, -, hx, rfl⟩ := expandSubcommand_iff.mp h
  refine .mk xs ?_ rfl
  intro i d hd
  obtain ⟨v, -, hm⟩ := hx.right hd
  cases hm with
  | newtype _ hd => exact henv.args _ _ hd
  | struct _ hf hd => exact fieldsDerived henv hf hd

namespace Sample

/-- The source of the subcommands of the sample. -/
def cmdSource : Input Val where
  data := .enum
    [ { ident := lit "Add"
        fields := .named
          [ { ident := lit "force", ty := boolTy, attrs := [.arg (some [bare "short", bare "long"])] },
            { ident := lit "paths", ty := vecOf (named "String"), attrs := [.arg (some [tru "required"])] },
            { ident := lit "rest", ty := vecOf (named "String"), attrs := [.arg (some [tru "last"])] } ] },
      { ident := lit "Run"
        fields := .named
          [ { ident := lit "prog", ty := named "String" },
            { ident := lit "args", ty := vecOf (named "String"), attrs := [.arg (some [tru "trailing_var_arg"])] } ] },
      { ident := lit "Drop"
        fields := .named
          [ { ident := lit "all", ty := boolTy, attrs := [.arg (some [bare "long", tru "exclusive"])] },
            { ident := lit "soft", ty := boolTy, attrs := [.arg (some [bare "short"])] },
            { ident := lit "name", ty := optionOf (named "String") } ] },
      { ident := lit "Status" } ]

theorem cmdSource_ok : expandSubcommand srcCx srcEnv cmdSource = .ok cmd := by rfl

example : ∃ variants, cmdSource.data = .enum variants ∧ ∀ v ∈ variants, CmdAttrsOk v.attrs ∧ LegalVariant srcCx srcEnv v :=
  ((C56_accepted_iff env_derived).mp ⟨_, cmdSource_ok⟩).2
example : cmd.names = [lit "add", lit "run", lit "drop", lit "status"] := (C56_names cmdSource_ok rfl).trans (by decide +kernel)
example : DerivedVariants Sample.cx cmd := C56_derived env_derived cmdSource_ok
-- A newtype variant must not be documented, and needs a struct with `Args`.
example : compiles (expandSubcommand srcCx srcEnv
    { data := .enum [{ ident := lit "Out", fields := .tuple [named "OutputArgs"] }] }) = true := by decide +kernel
example : compiles (expandSubcommand srcCx srcEnv
    { data := .enum [{ ident := lit "Out", attrs := [.doc (some (lit "x"))], fields := .tuple [named "OutputArgs"] }] })
    = false := by decide +kernel
example : compiles (expandSubcommand srcCx srcEnv
    { data := .enum [{ ident := lit "Out", fields := .tuple [named "String"] }] }) = false := by decide +kernel
/-- Two variants of one name are not noticed. -/
example : ∃ vs, expandSubcommand srcCx srcEnv { data := .enum [{ ident := lit "AB" }, { ident := lit "Ab" }] } = .ok vs
    ∧ vs.names = [lit "ab", lit "ab"] := ⟨_, rfl, by decide +kernel⟩

end Sample

/-! ## C57 -/

variable {attrs : List (Attr Unit)} {variants : Option (List (EnumVariant V))} {e : EnumDef V}

/-- C57: an enum compiles exactly if it has unit variants only, `#[value(..)]` is used as documented, and the names of the values
are distinct and without control characters. -/
theorem C57_accepted_iff :
    (∃ e, expandValueEnum cx attrs variants = .ok e) ↔ ∃ vs style names, variants = some vs ∧ StyleOf cx attrs style
      ∧ (∀ v ∈ vs, v.unit = true) ∧ Each (NameOf style) vs names ∧ names.Nodup ∧ ∀ n ∈ names, ∀ c ∈ n, ¬ Control c := by
  have hctl : ∀ c : Char, isAsciiControl c = true ↔ Control c := by
    intro c
    simp [isAsciiControl, Control]
  simp only [expandValueEnum_iff]
  constructor
  · rintro ⟨e, vs, style, xs, rfl, hs, hu, hx, he⟩
    obtain ⟨h1, h2⟩ := deriveValueEnum_iff.mp ⟨e, he⟩
    refine ⟨vs, style, xs.map Prod.fst, rfl, hs, hu, ?_, h1, ?_⟩
    · clear he h1 h2 hu
      induction hx with
      | nil => exact .nil
      | cons h _ ih => exact .cons h.1 ih
    · intro n hn c hc hh
      obtain ⟨x, hx, rfl⟩ := List.mem_map.mp hn
      have := h2 x hx
      rw [List.any_eq_false] at this
      exact this c hc ((hctl c).mpr hh)
  · rintro ⟨vs, style, names, rfl, hs, hu, hn, hd, hc⟩
    have hx : ∃ xs : List (Str × V), Each (fun v x => NameOf style v x.1 ∧ x.2 = v.value) vs xs ∧ xs.map Prod.fst = names := by
      clear hd hc hu
      induction hn with
      | nil => exact ⟨[], .nil, rfl⟩
      | @cons v n _ _ h _ ih =>
        obtain ⟨xs, h1, rfl⟩ := ih
        exact ⟨(n, v.value) :: xs, .cons ⟨h, rfl⟩ h1, rfl⟩
    obtain ⟨xs, h1, rfl⟩ := hx
    obtain ⟨e, he⟩ := deriveValueEnum_iff.mpr ⟨hd, fun x hx => by
      rw [List.any_eq_false]
      exact fun c h => fun hh => hc x.1 (List.mem_map.mpr ⟨x, hx, rfl⟩) c h ((hctl c).mp hh)⟩
    exact ⟨e, vs, style, xs, rfl, hs, hu, h1, he⟩

/-- C57: the values accepted at run time are exactly the names of the variants, each standing for its variant. -/
theorem C57_parse {vs : List (EnumVariant V)} {style : Str → Str} (h : expandValueEnum cx attrs (some vs) = .ok e)
    (hs : StyleOf cx attrs style) (b : Bytes) (x : V) :
    (ValueParser.valueEnum e).parse b = .ok x ↔ ∃ v ∈ vs, ∃ n, NameOf style v n ∧ b = enc n ∧ x = v.value := by
  obtain ⟨vs', style', xs, h1, hs', -, hx, he⟩ := expandValueEnum_iff.mp h
  cases h1
  have hst : style' = style := by
    have hlit : ∀ (s s' : String), (∃ f, (s, f) ∈ styles cx) → (∃ f, (s', f) ∈ styles cx) → lit s = lit s' → s = s' := by
      intro s s' _ _ hh
      exact String.toList_inj.mp hh
    have huniq : ∀ s f f', (s, f) ∈ styles cx → (s, f') ∈ styles cx → f = f' := by
      intro s f f' hf hf'
      simp only [styles, List.mem_cons, Prod.mk.injEq, List.not_mem_nil, or_false] at hf hf'
      rcases hf with ⟨rfl, rfl⟩ | ⟨rfl, rfl⟩ | ⟨rfl, rfl⟩ | ⟨rfl, rfl⟩ | ⟨rfl, rfl⟩ | ⟨rfl, rfl⟩ | ⟨rfl, rfl⟩ | ⟨rfl, rfl⟩ <;>
        (simp at hf'; exact hf'.symm)
    cases hs with
    | default _ h0 =>
      cases hs' with
      | default => rfl
      | given _ h1 _ => rw [h0] at h1; cases h1
    | given _ h0 hm =>
      cases hs' with
      | default _ h1 => rw [h0] at h1; cases h1
      | given _ h1 hm' =>
        rw [h0] at h1
        simp only [List.cons.injEq, Item.mk.injEq, MetaVal.eq.injEq, Option.some.injEq, TokLit.str.injEq, true_and, and_true] at h1
        have := hlit _ _ ⟨_, hm⟩ ⟨_, hm'⟩ h1.1
        subst this
        exact huniq _ _ _ hm' hm
  subst hst
  rw [C37_parse he]
  constructor
  · rintro ⟨n, hm, rfl⟩
    obtain ⟨v, hv, hn, hx'⟩ := hx.right hm
    exact ⟨v, hv, n, hn, rfl, hx'⟩
  · rintro ⟨v, hv, n, hn, rfl, rfl⟩
    obtain ⟨⟨n', w⟩, hm, hn', hw⟩ := hx.left hv
    have : n' = n := by
      dsimp only at hn'
      generalize hz : n' = z at hn'
      cases hn' with
      | default _ h0 =>
        cases hn with
        | default => exact hz ▸ rfl
        | given _ h1 => rw [h0] at h1; cases h1
      | given _ h0 =>
        cases hn with
        | default _ h1 => rw [h0] at h1; cases h1
        | given _ h1 =>
          rw [h0] at h1
          simp only [List.cons.injEq, Item.mk.injEq, MetaVal.eq.injEq, Option.some.injEq, TokLit.str.injEq, true_and, and_true] at h1
          exact h1.1
    subst this
    dsimp only at hw
    subst hw
    exact ⟨n', hm, rfl⟩

namespace Sample

/-- `#[value(rename_all = "lower")] enum Format { Json, #[value(name = "plain")] Text }`. -/
def formatAttrs : List (Attr Unit) := [.other, .value (some [⟨lit "rename_all", .eq (some (.str (lit "lower"))) none⟩])]
def formatVariants : List (EnumVariant Val) :=
  [ { ident := lit "Json", value := lit "Json" },
    { ident := lit "Text", value := lit "Text", attrs := [.value (some [⟨lit "name", .eq (some (.str (lit "plain"))) none⟩])] } ]

theorem format_style : StyleOf srcCx formatAttrs kebab :=
  .given (s := "lower") (e := none) (by simp [formatAttrs, ValueForm]) rfl (by simp [styles, srcCx])

theorem format_ok : ∃ e, expandValueEnum srcCx formatAttrs (some formatVariants) = .ok e := by
  refine C57_accepted_iff.mpr ⟨_, kebab, [lit "json", lit "plain"], rfl, format_style, by decide, ?_, by decide, ?_⟩
  · refine .cons ?_ (.cons (.given (e := none) (by simp [ValueForm]) rfl) .nil)
    have : lit "json" = kebab (lit "Json") := by decide +kernel
    rw [this]
    exact .default (v := formatVariants.head (by decide)) (by simp [formatVariants]) rfl
  · unfold Control
    decide +kernel

example {e : EnumDef Val} (h : expandValueEnum srcCx formatAttrs (some formatVariants) = .ok e) :
    (ValueParser.valueEnum e).parse (blit "plain") = .ok (lit "Text") :=
  (C57_parse h format_style _ _).mpr ⟨_, List.mem_cons_of_mem _ (List.mem_cons_self ..), lit "plain",
    .given (e := none) (by simp [ValueForm]) rfl, rfl, rfl⟩
-- A style nobody knows, a style given twice, a name used twice, a variant with fields.
example : compiles (expandValueEnum srcCx [.value (some [⟨lit "rename_all", .eq (some (.str (lit "Lower"))) none⟩])]
    (some formatVariants)) = false := by decide +kernel
example : compiles (expandValueEnum srcCx (formatAttrs ++ formatAttrs) (some formatVariants)) = false := by decide +kernel
example : compiles (expandValueEnum srcCx formatAttrs (some (formatVariants ++ [{ ident := lit "PLAIN", value := lit "x" }])))
    = false := by decide +kernel
example : compiles (expandValueEnum srcCx formatAttrs (some [{ ident := lit "A", value := lit "x", unit := false }]))
    = false := by decide +kernel

end Sample

/-! ## C58 -/

/-- Kinds of argument types by their spelling. -/
inductive Spelled : TyExpr → MagicKind → TyExpr → Prop
  | bool : Spelled boolTy .bool boolTy
  | optionOption (t) : Spelled (optionOf (optionOf t)) .optionOption t
  | optionVec (t) : Spelled (optionOf (vecOf t)) .optionVec t
  | option (t) (h1 : ∀ s, t ≠ optionOf s) (h2 : ∀ s, t ≠ vecOf s) : Spelled (optionOf t) .option t
  | vec (t) : Spelled (vecOf t) .vec t
  | value (t) (h1 : ∀ s, t ≠ optionOf s) (h2 : ∀ s, t ≠ vecOf s) (h3 : t ≠ boolTy) : Spelled t .value t

theorem isBoolTy_iff {t : TyExpr} : isBoolTy t = true ↔ t = boolTy := by
  constructor
  · intro h
    unfold isBoolTy at h
    split at h
    · rw [decide_eq_true_eq] at h; subst h; rfl
    · cases h
  · rintro rfl; decide +kernel

theorem option_ne_vec {s t : TyExpr} : optionOf s ≠ vecOf t := by
  intro h
  simp only [optionOf, vecOf, TyExpr.path.injEq, List.cons.injEq, Prod.mk.injEq, true_and, and_true] at h
  exact absurd h.1 (by decide)

/-- C58: the kind of an argument follows from the spelling of its type. -/
theorem C58_kind_iff {t u : TyExpr} {k : MagicKind} : classifyExpr t = (k, u) ↔ Spelled t k u := by
  unfold classifyExpr
  constructor
  · intro h
    split at h
    · rename_i hb
      cases h
      rw [isBoolTy_iff.mp hb]
      exact .bool
    · rename_i hb
      have hb' : t ≠ boolTy := fun h => hb (isBoolTy_iff.mpr h)
      split at h
      · rename_i t1 h1
        rw [strip_option.mp h1]
        split at h
        · rename_i t2 h2
          cases h
          rw [strip_option.mp h2]
          exact .optionOption _
        · rename_i h2
          split at h
          · rename_i t3 h3
            cases h
            rw [strip_vec.mp h3]
            exact .optionVec _
          · rename_i h3
            cases h
            exact .option _ (strip_none.mp h2) (strip_none.mp h3)
      · rename_i h1
        split at h
        · rename_i t1 h2
          cases h
          rw [strip_vec.mp h2]
          exact .vec _
        · rename_i h2
          cases h
          exact .value _ (strip_none.mp h1) (strip_none.mp h2) hb'
  · have ho : ∀ s, isBoolTy (optionOf s) = false := fun _ => rfl
    have hv : ∀ s, isBoolTy (vecOf s) = false := fun _ => rfl
    have so : ∀ s, stripTyCtor (optionOf s) (lit "Option") = some s := fun s => strip_option.mpr rfl
    have sv : ∀ s, stripTyCtor (vecOf s) (lit "Vec") = some s := fun s => strip_vec.mpr rfl
    have sn : ∀ s, stripTyCtor (vecOf s) (lit "Option") = none := fun s => strip_none.mpr fun a h => option_ne_vec h.symm
    intro h
    cases h with
    | bool => rw [if_pos (isBoolTy_iff.mpr rfl)]
    | optionOption => simp [ho, so]
    | optionVec => simp [ho, so, sn, sv]
    | option _ h1 h2 =>
      have e1 : stripTyCtor u (lit "Option") = none := strip_none.mpr h1
      have e2 : stripTyCtor u (lit "Vec") = none := strip_none.mpr h2
      simp [ho, so, e1, e2]
    | vec => simp [hv, sn, sv]
    | value _ h1 h2 h3 =>
      have e1 : stripTyCtor t (lit "Option") = none := strip_none.mpr h1
      have e2 : stripTyCtor t (lit "Vec") = none := strip_none.mpr h2
      have e3 : ¬ isBoolTy t = true := fun h => h3 (isBoolTy_iff.mp h)
      simp [e1, e2, e3]

theorem elab_option (t : TyExpr) : elabTy env (optionOf t) = .option (elabTy env t) := by
  rw [optionOf, elabTy.eq_def]; simp

theorem elab_vec (t : TyExpr) : elabTy env (vecOf t) = .vec (elabTy env t) := by
  rw [vecOf, elabTy.eq_def]
  simp only [show lit "Vec" ≠ lit "Option" by decide, if_false, if_true]

theorem elab_bool : elabTy env boolTy = .bool := by rw [boolTy, elabTy.eq_def]; simp

theorem elab_other {t : TyExpr} (h1 : ∀ s, t ≠ optionOf s) (h2 : ∀ s, t ≠ vecOf s) (h3 : t ≠ boolTy) :
    elabTy env t = .other (env t).val := by
  rw [elabTy.eq_def]
  split
  · split
    · rename_i h; subst h; exact absurd rfl h3
    · rfl
  · split
    · rename_i h; subst h; exact absurd rfl (h1 _)
    · split
      · rename_i h; subst h; exact absurd rfl (h2 _)
      · rfl
  · rfl

/-- C58: what the macro takes for the kind and for the type of values agrees with the meaning of the type, so that the generated
code stores values of the type the field has. -/
theorem C58_type {t u : TyExpr} {k : MagicKind} (h : Spelled t k u) : classify (elabTy env t) = (k, elabTy env u) := by
  cases h with
  | bool => rw [elab_bool]; rfl
  | optionOption => rw [elab_option, elab_option]; rfl
  | optionVec => rw [elab_option, elab_vec]; rfl
  | option _ h1 h2 =>
    rw [elab_option]
    by_cases h3 : u = boolTy
    · rw [h3, elab_bool]; rfl
    · rw [elab_other h1 h2 h3]; rfl
  | vec => rw [elab_vec]; rfl
  | value _ h1 h2 h3 => rw [elab_other h1 h2 h3]; rfl

/-- `std::option::Option<String>` and `::std::vec::Vec<String>` are ordinary types, as are aliases of `Option<String>`. -/
example (t : TyExpr) : classifyExpr (.path false false [(lit "std", .none), (lit "option", .none), (lit "Option", .angle [.ty t])])
    = (.value, .path false false [(lit "std", .none), (lit "option", .none), (lit "Option", .angle [.ty t])]) :=
  C58_kind_iff.mpr <| .value _ (by intro s h; simp [optionOf] at h) (by intro s h; simp [vecOf] at h) (by simp [boolTy])
example (t : TyExpr) : Spelled (vecOf (optionOf t)) .vec (optionOf t) := .vec _
example : classifyExpr (optionOf boolTy) = (.option, boolTy) :=
  C58_kind_iff.mpr (.option _ (by intro s h; simp [boolTy, optionOf] at h) (by intro s h; simp [boolTy, vecOf] at h))

/-! ## C59 -/

/-- C59: `derive(Args)` and `derive(Parser)` give code or errors. -/
theorem C59_args : expandArgs cx env input ≠ .panic := by
  unfold expandArgs
  intro h
  split at h
  · cases h
  · split at h
    · dsimp only at h
      split at h
      · split at h <;> cases h
      · cases h
      · rename_i hp; exact deriveFields_panic hp
    · cases h

/-- C59: the assertions inside the macro hold: a named argument has a name (`assert!(!enc_names.is_empty())`, 455) and the
description of an option never has neither name (`unreachable!()`, 467). -/
theorem C59_asserts {c : Cx V} {ident : Str} {m : ArgMeta V} (hi : ident ≠ []) (hm : m.isNamed = true) :
    longEncs c ident m ++ shortEncs ident m ≠ [] ∧ ¬ (primaryShort ident m = none ∧ primaryLong c ident m = none) := by
  obtain ⟨x, xs, rfl⟩ := List.exists_cons_of_ne_nil hi
  unfold ArgMeta.isNamed at hm
  unfold longEncs shortEncs primaryLong primaryShort
  rcases hl : m.long with _ | l
  · rcases hs : m.short with _ | s
    · simp [hl, hs] at hm
    · cases s <;> simp
  · cases l <;> simp

/-- C59: when `derive(Subcommand)` panics.  The full statement, that it never does, is false: a variant that is dropped because
of an error leaves its index in the table of names. -/
theorem C59_subcommand_partial : expandSubcommand cx env input = .panic ↔ input.generics = false
    ∧ ∃ variants, input.data = .enum variants ∧ ∃ v ∈ variants, (∃ ts, v.fields = .tuple ts ∧ ts.length ≠ 1)
      ∨ ∃ fields, v.fields = .named fields ∧ 254 < fields.length := by
  rw [expandSubcommand_panic]
  have key : ∀ v : SrcVariant V, dropped v = true ↔ (∃ ts, v.fields = .tuple ts ∧ ts.length ≠ 1)
      ∨ ∃ fields, v.fields = .named fields ∧ 254 < fields.length := by
    intro v
    unfold dropped
    cases v.fields with
    | unit => simp
    | tuple ts =>
      cases ts with
      | nil => simp
      | cons t ts => cases ts <;> simp
    | named fields => simp
  simp only [key]

/-- C59: everything that compiles does so without a panic, and every error but the two above is reported. -/
theorem C59_subcommand_reports {variants : List (SrcVariant V)} (hd : input.data = .enum variants)
    (h1 : ∀ v ∈ variants, ∀ ts, v.fields = .tuple ts → ts.length = 1)
    (h2 : ∀ v ∈ variants, ∀ fields, v.fields = .named fields → fields.length ≤ 254) :
    (∃ vs, expandSubcommand cx env input = .ok vs) ∨ ∃ es, es ≠ [] ∧ expandSubcommand cx env input = .errors es := by
  cases h : expandSubcommand cx env input with
  | ok vs => exact .inl ⟨vs, rfl⟩
  | panic =>
    obtain ⟨-, variants', hd', v, hv, h3⟩ := C59_subcommand_partial.mp h
    rw [hd] at hd'
    cases hd'
    rcases h3 with ⟨ts, h4, h5⟩ | ⟨fields, h4, h5⟩
    · exact absurd (h1 v hv ts h4) h5
    · have := h2 v hv fields h4; omega
  | errors es =>
    refine .inr ⟨es, ?_, rfl⟩
    unfold expandSubcommand at h
    rw [hd] at h
    split at h
    · cases h; simp
    · dsimp only at h
      split at h
      · cases h
      · split at h
        · cases h
        · rename_i hn; cases h; exact hn

open Sample in
/-- `enum Cmd { Add(OutputArgs, OutputArgs) }` makes the macro panic instead of showing the error it has prepared. -/
theorem C59_subcommand_panics : expandSubcommand srcCx srcEnv
    { data := .enum [{ ident := lit "Add", fields := .tuple [named "OutputArgs", named "OutputArgs"] }] } = .panic :=
  C59_subcommand_partial.mpr ⟨rfl, _, rfl, _, List.mem_cons_self .., .inl ⟨_, rfl, by simp⟩⟩

namespace Sample

example : longEncs Sample.cx (lit "a") ({ short := some .inherit } : ArgMeta Val) 
    ++ shortEncs (lit "a") ({ short := some .inherit } : ArgMeta Val) ≠ [] :=
  (C59_asserts (by decide) rfl).1
example : expandArgs srcCx srcEnv cmdSource ≠ .panic := C59_args
example : (∃ vs, expandSubcommand srcCx srcEnv { data := .enum [{ ident := lit "Out", fields := .tuple [named "String"] }] } = .ok vs)
    ∨ ∃ es, es ≠ [] ∧ expandSubcommand srcCx srcEnv { data := .enum [{ ident := lit "Out", fields := .tuple [named "String"] }] } = .errors es :=
  C59_subcommand_reports rfl (by simp) (by simp)

end Sample

/-! ## C60 -/

/-- The identifier without `r#`. -/
def unraw : Str → Str
  | 'r' :: '#' :: s => s
  | s => s

theorem fieldInfo_of {fields : List (SrcField V)} {ds : List (FieldDecl V)} {cmeta : Option CommandMeta} {f : SrcField V}
    (hf : FieldsMean cx env fields ds) (hd : deriveArgs cx.toCx cmeta ds = .ok d) (hm : f ∈ fields) (hc : commands f.attrs = []) :
    ∃ g ∈ (coreOf d).fields, g.ident = f.ident ∧ g.src = metaOf (docOf (docLines f.attrs)) (argItems f.attrs) := by
  obtain ⟨x, hx, hfx⟩ := hf.each.left hm
  have hx' : x = .arg f.ident (elabTy env f.ty) (metaOf (docOf (docLines f.attrs)) (argItems f.attrs)) := by
    cases hfx with
    | arg => rfl
    | flatten h => rw [hc] at h; cases h
    | subOptional h => rw [hc] at h; cases h
    | sub h => rw [hc] at h; cases h
  subst hx'
  have := (C49_every_argument_once hd).mem_iff.mpr (List.mem_filterMap.mpr ⟨_, hx, rfl⟩)
  obtain ⟨g, hg, he⟩ := List.mem_map.mp this
  simp only [Prod.mk.injEq] at he
  exact ⟨g, hg, he.1, he.2⟩

/-- C58: the kind of an argument follows the spelling of its type, and its values are parsed the way the type in it implements:
by `ValueEnum`, else by `TryFrom<&OsStr>`, else by `FromStr`. -/
theorem C58_field {fields : List (SrcField V)} {f : SrcField V} (h : expandArgs cx env input = .ok d)
    (hd : input.data = .structNamed fields) (hf : f ∈ fields) (hc : commands f.attrs = []) :
    ∃ g ∈ (coreOf d).fields, g.ident = f.ident ∧ g.src = metaOf (docOf (docLines f.attrs)) (argItems f.attrs)
      ∧ ∃ u, Spelled f.ty g.kind u ∧ ParsesWith cx.toCx (elabTy env u) g.parser := by
  obtain ⟨-, -, fields', ds, hd', hm, hda⟩ := expandArgs_iff.mp h
  rw [hd] at hd'
  cases hd'
  obtain ⟨x, hx, hfx⟩ := hm.each.left hf
  have hx' : x = .arg f.ident (elabTy env f.ty) (metaOf (docOf (docLines f.attrs)) (argItems f.attrs)) := by
    cases hfx with
    | arg => rfl
    | flatten h => rw [hc] at h; cases h
    | subOptional h => rw [hc] at h; cases h
    | sub h => rw [hc] at h; cases h
  subst hx'
  have := (args_perm hda).mem_iff.mpr (List.mem_filterMap.mpr ⟨_, hx, rfl⟩)
  obtain ⟨g, hg, he⟩ := List.mem_map.mp this
  simp only [Prod.mk.injEq] at he
  obtain ⟨h1, h2, h3, h4⟩ := he
  have hsp : Spelled f.ty (classifyExpr f.ty).1 (classifyExpr f.ty).2 := C58_kind_iff.1 rfl
  have hty := C58_type (env := env) hsp
  refine ⟨g, hg, h1, h3, (classifyExpr f.ty).2, ?_, ?_⟩
  · rw [h2, hty]; exact hsp
  · have hp := parsesWith_iff.2 h4.symm
    rwa [← kind_value, hty] at hp

/-- C60: `long` and `short` without a value name an argument after its field.  The full statement has no condition on the
identifier; it is false for raw identifiers. -/
theorem C60_names_partial {fields : List (SrcField V)} {f : SrcField V} (h : expandArgs cx env input = .ok d)
    (hd : input.data = .structNamed fields) (hf : f ∈ fields) (hc : commands f.attrs = []) (hraw : unraw f.ident = f.ident) :
    ∃ g ∈ (coreOf d).fields, g.ident = f.ident
      ∧ (valueOf .long (argItems f.attrs) = some .bare → declares cx.toCx g (.long (cx.kebab (unraw f.ident))) = true)
      ∧ (valueOf .short (argItems f.attrs) = some .bare → ∀ c, (unraw f.ident).head? = some c → declares cx.toCx g (.short c) = true) := by
  obtain ⟨-, -, fields', ds, hd', hm, hda⟩ := expandArgs_iff.mp h
  rw [hd] at hd'
  cases hd'
  obtain ⟨g, hg, h1, h2⟩ := fieldInfo_of hm hda hf hc
  refine ⟨g, hg, h1, ?_, ?_⟩
  · intro hv
    have : g.src.long = some .inherit := by rw [h2]; simp [metaOf, hv, overrideStr]
    simp [declares, isOption, longNames, this, h1, hraw]
  · intro hv c hh
    have : g.src.short = some .inherit := by rw [h2]; simp [metaOf, hv, overrideChar]
    rw [hraw] at hh
    have hh' : c ∈ List.take 1 f.ident := by
      cases hi : f.ident with
      | nil => rw [hi] at hh; cases hh
      | cons x xs => rw [hi] at hh; cases hh; simp
    simp [declares, isOption, shortNames, this, h1, hh']

open Sample in
/-- `struct S { #[arg(short)] r#type: bool }`: the option is `-r`, not `-t`. -/
theorem C60_raw : ∃ d, expandArgs srcCx srcEnv
      { data := .structNamed [{ ident := lit "r#type", ty := boolTy, attrs := [.arg (some [bare "short"])] }] } = .ok d
    ∧ failure (tryParseFrom d [blit "app", blit "-t"]) = some (.error { kind := .unknownNamedArgument, input := some (blit "-t") })
    ∧ value (tryParseFrom d [blit "app", blit "-r"]) ["r#type"] = some (.bool true) :=
  ⟨_, rfl, by decide +kernel, by decide +kernel⟩

namespace Sample

example {fields : List (SrcField Val)} (hd : cliSource.data = .structNamed fields) {f : SrcField Val} (hf : f ∈ fields)
    (hi : f.ident = lit "verbose") (hc : f.attrs = [.arg (some [bare "short", bare "long", tru "global"])]) :
    ∃ g ∈ (coreOf cli).fields, g.ident = lit "verbose" ∧ declares Sample.cx g (.long (lit "verbose")) = true
      ∧ declares Sample.cx g (.short 'v') = true := by
  obtain ⟨g, h1, h2, h3, h4⟩ := C60_names_partial cliSource_ok hd hf (by rw [hc]; rfl) (by rw [hi]; decide)
  rw [hc] at h3 h4
  rw [hi] at h2 h3 h4
  exact ⟨g, h1, h2, h3 (by rfl), h4 (by rfl) 'v' (by decide +kernel)⟩

/-- A flag of the sample source is a flag of the parser. -/
example {fields : List (SrcField Val)} (hd : cliSource.data = .structNamed fields) {f : SrcField Val} (hf : f ∈ fields)
    (hc : commands f.attrs = []) (ht : f.ty = boolTy) : ∃ g ∈ (coreOf cli).fields, g.ident = f.ident ∧ g.kind = .bool := by
  obtain ⟨g, h1, h2, -, u, h3, -⟩ := C58_field cliSource_ok hd hf hc
  refine ⟨g, h1, h2, ?_⟩
  rw [ht] at h3
  have := C58_kind_iff.2 h3
  have h4 : classifyExpr boolTy = (MagicKind.bool, boolTy) := rfl
  rw [h4] at this
  exact (Prod.mk.inj this).1.symm

end Sample

end Palc
