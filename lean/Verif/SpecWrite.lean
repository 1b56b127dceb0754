import Verif.Spec
/-!
# Writing command lines

The plain way to write an occurrence of an option: an argument of its own, with the value (if any) after `=`.
-/

namespace Palc.Spec

variable {V : Type}

/-- The argument for an option: `--name=VALUE`, `--name`, `-c=VALUE` or `-c`. -/
def optToken : Name → Option Bytes → Bytes
  | .long n, some v => enc (lit "--" ++ n) ++ eqSign :: v
  | .long n, none => enc (lit "--" ++ n)
  | .short c, some v => enc (lit "-" ++ [c]) ++ eqSign :: v
  | .short c, none => enc (lit "-" ++ [c])

/-- Can an option be given by this name with (without) a value?  An `Option<Option<T>>` option takes a value after its long name
only (finding 1). -/
def Takes (f : FieldInfo V) : Name → Option Bytes → Prop
  | .long _, some _ => f.kind ≠ .bool
  | .short _, some _ => f.kind ≠ .bool ∧ f.kind ≠ .optionOption
  | _, none => f.kind = .bool ∨ f.kind = .optionOption

/-- An option to be written: by which name, with which value. -/
abbrev Written := Name × Option Bytes

/-- When the given commands have been entered, this is the option at address `a`. -/
def Means (cx : Cx V) (st : List (Entry V)) (w : Written) (a : Addr) : Prop :=
  ∃ f, Resolves cx st w.1 a f ∧ Takes f w.1 w.2

/-- Readings of arguments in which every occurrence of an option is written plainly.  Compare with `Reads`. -/
inductive ReadsPlain (cx : Cx V) : Ctx V → List Bytes → List Event → Ctx V → Prop
  | done {κ} : ReadsPlain cx κ [] [] κ
  | option {st k w a toks evs κ'} (hw : Means cx st w a) (h : ReadsPlain cx ⟨st, k, .opts⟩ toks evs κ') :
      ReadsPlain cx ⟨st, k, .opts⟩ (optToken w.1 w.2 :: toks) ((a, w.2) :: evs) κ'
  | sub {i d st k v toks evs κ'} (hv : Selected d v) (hp : Plain (enc v.name))
      (h : ReadsPlain cx ⟨(⟨variantIdent v, v.name⟩, variantDef v) :: (i, d) :: st, 0, .opts⟩ toks evs κ') :
      ReadsPlain cx ⟨(i, d) :: st, k, .opts⟩ (enc v.name :: toks) evs κ'
  | positional {i d st k tok x toks evs κ'} (hp : Plain tok)
      (hns : ∀ v ∈ subVariants d, enc v.name ≠ tok) (hx : posTarget d k = some x)
      (h : ReadsPlain cx ⟨(i, d) :: st, k + 1, modeAfter x .opts⟩ toks evs κ') :
      ReadsPlain cx ⟨(i, d) :: st, k, .opts⟩ (tok :: toks) ((⟨st.length, 0, x.2⟩, some tok) :: evs) κ'
  | dashdash {st k toks evs κ'} (h : ReadsPlain cx ⟨st, k, .dashed⟩ toks evs κ') :
      ReadsPlain cx ⟨st, k, .opts⟩ ([dash, dash] :: toks) evs κ'
  | last {i d st k tok x toks evs κ'} (hx : lastArg d = some x)
      (h : ReadsPlain cx ⟨(i, d) :: st, k, .dashed⟩ toks evs κ') :
      ReadsPlain cx ⟨(i, d) :: st, k, .dashed⟩ (tok :: toks) ((⟨st.length, 0, x.2⟩, some tok) :: evs) κ'
  | dashed {i d st k tok x toks evs κ'} (hl : lastArg d = none) (hx : posTarget d k = some x)
      (h : ReadsPlain cx ⟨(i, d) :: st, k + 1, modeAfter x .dashed⟩ toks evs κ') :
      ReadsPlain cx ⟨(i, d) :: st, k, .dashed⟩ (tok :: toks) ((⟨st.length, 0, x.2⟩, some tok) :: evs) κ'
  | trailing {i d st k tok j toks evs κ'}
      (h : ReadsPlain cx ⟨(i, d) :: st, k, .trailing j⟩ toks evs κ') :
      ReadsPlain cx ⟨(i, d) :: st, k, .trailing j⟩ (tok :: toks) ((⟨st.length, 0, j⟩, some tok) :: evs) κ'

end Palc.Spec
