import Verif.SpecExtend
import Verif.SpecLegal
/-!
# Structs with added fields

What may be added to a struct without breaking its users (C66), in terms of the declared fields.
-/

namespace Palc.Spec

variable {V : Type}

/-- Can an argument of this type, with these attributes, be left out?  It must not be required, and unless it is a `bool`, `Option`
or `Vec`, it must have a default; a default given as text must be a valid value. -/
inductive CanOmit (cx : Cx V) (ty : Ty V) (m : ArgMeta V) : Prop
  | absent (hr : m.required = false) (h1 : m.defaultValue = none) (h2 : m.defaultValueT.isNone = true) (h3 : ∀ v, ty ≠ .other v)
  | value (h1 : m.defaultValueT.isSome = true)
  | text {s p v} (h1 : m.defaultValue = some s) (h2 : ty ≠ .bool) (h3 : m.valueDelimiter = none)
      (h4 : ParsesWith cx (valueType ty) p) (h5 : p.parse (enc s) = .ok v)

/-- Does a flattened field of the struct bring an argument of that name? -/
def FlatDeclares (cx : Cx V) (ds : List (FieldDecl V)) (n : Name) : Prop :=
  ∃ i e c f, FieldDecl.flatten i e ∈ ds ∧ c ∈ structs e ∧ f ∈ c.fields ∧ declares cx f n = true

/-- The fields `ds'` are those of `ds` (apart from the subcommand) and further ones: options that can be left out and have a name of their
own, flattened structs of such options (after the others), and positional arguments that can be left out (after the others).  The
names `G` are taken by global arguments of enclosing commands. -/
structure AddedFields (cx : Cx V) (G : Name → Prop) (ds ds' : List (FieldDecl V)) : Prop where
  kept : ∀ x ∈ ds, isSubDecl x = false → x ∈ ds'
  positionals : ds.filter (fun x => isSinglePos x || isManyPos x) <+: ds'.filter (fun x => isSinglePos x || isManyPos x)
  last : ∀ x ∈ ds', isLastPos x = true → x ∈ ds
  args : ∀ i ty m, FieldDecl.arg i ty m ∈ ds' → FieldDecl.arg i ty m ∈ ds ∨ (CanOmit cx ty m
    ∧ ∀ n ∈ requestedNames cx (.arg i ty m), ¬ G n ∧ ¬ FlatDeclares cx ds n)
  flats : ∃ more, flattenFields ds' = flattenFields ds ++ more ∧ ∀ x ∈ more, ∀ c ∈ structs x.2, ∀ f ∈ c.fields, Omissible f
    ∧ ∀ n, declares cx f n = true → ¬ G n ∧ ¬ FlatDeclares cx ds n ∧ ∀ x ∈ ds, n ∉ requestedNames cx x

/-- `d'` is a later version of `d`: fields have been added, to the struct or to those of subcommands; subcommands have been added, if their
names are not in `T`; a subcommand need not be given any more. -/
inductive Evolved (cx : Cx V) (T : Bytes → Prop) : (Name → Prop) → ArgsDef V → ArgsDef V → Prop
  | same {G d} : Evolved cx T G d d
  | struct {G cm cm' ds ds' d d'} (hd : deriveArgs cx cm ds = .ok d) (hd' : deriveArgs cx cm' ds' = .ok d') (fields : AddedFields cx G ds ds')
      (required : subRequired d' = true → subRequired d = true)
      (unique : ((subVariants d').map Variant.name).Nodup)
      (C : Variant V → Variant V)
      (kept : ∀ v ∈ subVariants d, C v ∈ subVariants d' ∧ (C v).name = v.name ∧ variantIdent (C v) = variantIdent v)
      (added : ∀ v' ∈ subVariants d', T (enc v'.name) → ∃ v ∈ subVariants d, v.name = v'.name)
      (subs : ∀ v ∈ subVariants d, Evolved cx T
        (fun n => G n ∨ ∃ p f, argAt d p = some f ∧ f.src.global = true ∧ declares cx f n = true) (variantDef v) (variantDef (C v))) :
      Evolved cx T G d d'

end Palc.Spec
