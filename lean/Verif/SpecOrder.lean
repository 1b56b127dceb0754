import Verif.SpecEvolve
import Verif.SpecErr
/-!
# Declarations in another order

Which declarations may change places without a difference (C79), in a struct and in the structs of its subcommands.
-/

namespace Palc.Spec

variable {V : Type}

/-- `d'` is derived from the declarations of `d` in another order: the fields of the struct may be permuted as long as positional arguments
and flattened structs each keep their order, the subcommands may be permuted, and so on in the struct of each subcommand; if there is a subcommand field, it remains as required as it was.  `C` maps the
subcommands of the one to those of the other. -/
inductive Rearranged (cx : Cx V) : ArgsDef V → ArgsDef V → Prop
  | same {d} : Rearranged cx d d
  | struct {cm cm' : Option CommandMeta} {ds ds' : List (FieldDecl V)} {d d' : ArgsDef V}
      (hd : deriveArgs cx cm ds = .ok d) (hd' : deriveArgs cx cm' ds' = .ok d')
      (fields : (ds.filter (fun x => !isSubDecl x)).Perm (ds'.filter (fun x => !isSubDecl x)))
      (positionals : ds.filter (fun x => isSinglePos x || isManyPos x) = ds'.filter (fun x => isSinglePos x || isManyPos x))
      (flattened : flattenFields ds = flattenFields ds') (required : subRequired d' = subRequired d)
      (subcommand : hasSub d' = hasSub d)
      (unique : ((subVariants d).map Variant.name).Nodup)
      (C : Variant V → Variant V) (subcommands : ((subVariants d).map C).Perm (subVariants d'))
      (names : ∀ v ∈ subVariants d, (C v).name = v.name ∧ variantIdent (C v) = variantIdent v)
      (subs : ∀ v ∈ subVariants d, Rearranged cx (variantDef v) (variantDef (C v))) :
      Rearranged cx d d'

/-- A failure found after all arguments have been read: a violated constraint, or a panic because of an invalid default value. -/
inductive AtEnd : Fail → Prop
  | panic : AtEnd .panic
  | error {e : Error} (h : e.kind = .missingRequiredArgument ∨ e.kind = .missingRequiredSubcommand ∨ e.kind = .constraintRequired
      ∨ e.kind = .constraintExclusive ∨ e.kind = .constraintConflict) : AtEnd (.error e)

end Palc.Spec
