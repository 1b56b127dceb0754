import Verif.SpecHelp
/-!
# Well-formed definitions

The structural facts about a derived definition on which the behaviour proofs rely.  `Verif/Lemmas/DeriveWF.lean`
proves that everything accepted by the derive macros satisfies them.
-/

namespace Palc

open Spec

variable {V : Type}

/-- Encoded form of an option name as in the generated table: `--long` or the short character. -/
def encodeName : Name → Str
  | .long s => '-' :: '-' :: s
  | .short c => [c]

/-- Facts about a field that do not mention its index. -/
structure FieldPre (cx : Cx V) (f : FieldInfo V) : Prop where
  rv : f.attrs.contains ArgAttrs.REQUIRE_VALUE = takesValue f
  re : f.attrs.contains ArgAttrs.REQUIRE_EQ = f.src.requireEquals
  ha : f.attrs.contains ArgAttrs.ACCEPT_HYPHEN_ANY = f.src.allowHyphenValues
  hn : f.attrs.contains ArgAttrs.ACCEPT_HYPHEN_NUM = f.src.allowNegativeNumbers
  gl : f.attrs.contains ArgAttrs.GLOBAL = f.src.global
  lo : f.attrs.contains ArgAttrs.MAKE_LOWERCASE = f.src.ignoreCase
  va : isOption f = false → f.attrs.contains ArgAttrs.VAR_ARG = isMulti f
  la : f.attrs.contains ArgAttrs.LAST = f.src.last
  gr : f.attrs.contains ArgAttrs.GREEDY = (f.src.trailingVarArg || f.src.last)
  vaNamed : isOption f = true → f.attrs.contains ArgAttrs.VAR_ARG = false
  namedNoLast : isOption f = true → f.src.last = false ∧ f.src.trailingVarArg = false
  names : f.encNames = if isOption f then
      (longNames cx f).map (fun s => encodeName (.long s))
        ++ (shortNames f).map (fun c => encodeName (.short c))
    else []
  longOk : isOption f = true → ∀ s ∈ longNames cx f, s ≠ [] ∧ s.head? ≠ some '-'
    ∧ ∀ c ∈ s, c ≠ '=' ∧ isAsciiControl c = false
  shortOk : isOption f = true → ∀ c ∈ shortNames f, c ≠ '-' ∧ c ≠ '=' ∧ isAsciiControl c = false
  posAttrs : isOption f = false → f.src.requireEquals = false ∧ f.src.global = false
    ∧ f.src.ignoreCase = false ∧ f.src.allowHyphenValues = false ∧ f.src.allowNegativeNumbers = false
  lastMulti : f.src.last = true → isMulti f = true
  required : f.required = isRequired f
  delim : f.valueDelimiter = f.src.valueDelimiter
  delimMulti : f.valueDelimiter.isSome = true → isMulti f = true
  optOpt : f.kind = .optionOption → f.src.requireEquals = true ∧ isOption f = true
  hyphenVal : f.src.allowHyphenValues = true ∨ f.src.allowNegativeNumbers = true →
    takesValue f = true ∧ f.src.requireEquals = false
  hyphenOne : ¬ (f.src.allowHyphenValues = true ∧ f.src.allowNegativeNumbers = true)
  defaultTy : ∀ v shown, f.defaultValue = some (.valueExpr v shown) → defaultTypeOk f.kind v = true
  defaultSrc : f.defaultValue = none ↔ (f.src.defaultValue = none ∧ f.src.defaultValueT.isNone = true)
  defaultStr : ∀ s, f.defaultValue = some (.parseStr s) ↔ f.src.defaultValue = some s
  defaultExpr : ∀ v shown, f.src.defaultValueT = some (.explicit (v, shown)) → f.defaultValue = some (.valueExpr v shown)
  defaultReq : f.defaultValue.isSome = true → f.src.required = false
  ignoreCase : f.src.ignoreCase = true → f.kind ≠ .bool ∧ ∃ d, f.parser = .valueEnum d ∧ d.noUpperCase = true
  excl : f.exclusive = f.src.exclusive
  deps : f.dependencies = f.src.requires
  confs : f.conflicts = f.src.conflictsWith
  docSrc : f.doc = f.src.doc
  hideSrc : f.hide = f.src.hide
  descOk : ∀ c ∈ f.description, isAsciiControl c = false
  desc : f.description = label cx f

theorem FieldPre.noNul {cx : Cx V} {f : FieldInfo V} (h : FieldPre cx f) : nul ∉ f.description :=
  fun hc => absurd (h.descOk _ hc) (by decide)

/-- A field at index `i`. -/
structure FieldWF (cx : Cx V) (f : FieldInfo V) (i : Nat) : Prop extends FieldPre cx f where
  idx : f.attrs.getIndex = i

/-- References to other fields were resolved to their indexes. -/
def ResolvedOk (c : Core V) (ids : List Str) (o : Option (List Nat)) : Prop :=
  (ids = [] ∧ o = none) ∨
    ∃ ns, o = some ns ∧ ns.length = ids.length ∧
      ∀ (k : Nat) (x : Str) (n : Nat), ids[k]? = some x → ns[k]? = some n → ∃ g : FieldInfo V, c.fields[n]? = some g ∧ g.ident = x

/-- A struct. -/
structure CoreWF (cx : Cx V) (c : Core V) : Prop where
  len : c.fields.length ≤ 254
  fields : ∀ i f, c.fields[i]? = some f → FieldWF cx f i
  cnt : c.namedCnt ≤ c.fields.length
  named : ∀ f ∈ c.fields.take c.namedCnt, isOption f = true
  layout : ∃ ps va la, c.fields.drop c.namedCnt = ps ++ Option.toList va ++ Option.toList la
    ∧ (∀ f ∈ ps, isOption f = false ∧ isMulti f = false ∧ f.src.last = false)
    ∧ (∀ f ∈ va, isOption f = false ∧ isMulti f = true ∧ f.src.last = false)
    ∧ (∀ f ∈ la, isOption f = false ∧ f.src.last = true)
  nodup : (c.fields.flatMap (·.encNames)).Nodup
  idents : (c.fields.map (·.ident)).Nodup
  depsOk : ∀ f ∈ c.fields, ResolvedOk c f.dependencies f.dependenciesIdx
  confsOk : ∀ f ∈ c.fields, ResolvedOk c f.conflicts f.conflictsIdx

mutual
/-- A definition tree. -/
def WFArgs (cx : Cx V) : ArgsDef V → Prop
  | .mk core flats sub =>
    CoreWF cx core ∧ WFFlats cx flats ∧ WFSub cx sub
      ∧ ((∃ f ∈ core.fields, f.exclusive = true) → flats = .nil)
def WFFlats (cx : Cx V) : Flats V → Prop
  | .nil => True
  | .cons _ d rest =>
    WFArgs cx d ∧ (coreOf d).positional = [] ∧ subOf d = .none ∧ WFFlats cx rest
def WFSub (cx : Cx V) : SubField V → Prop
  | .none => True
  | .some _ _ vs => WFVariants cx vs
def WFVariants (cx : Cx V) : Variants V → Prop
  | .nil => True
  | .cons v rest => WFVariant cx v ∧ WFVariants cx rest
def WFVariant (cx : Cx V) : Variant V → Prop
  | .unit _ _ _ => True
  | .args _ _ d => WFArgs cx d
end

end Palc
