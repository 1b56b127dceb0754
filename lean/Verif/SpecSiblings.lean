import Verif.SpecErr
import Verif.Derive
/-!
# Programs that differ in other subcommands

When do two definitions differ only in subcommands that are not used (C84)?
-/

namespace Palc.Spec

variable {V : Type}

/-- `d'` is declared as `d`, except for subcommands whose names are not in `T` (the arguments of interest): those may have been added,
removed or given other arguments, at this level and in the subcommands that remain. -/
inductive OtherSubs (cx : Cx V) (T : Bytes → Prop) : ArgsDef V → ArgsDef V → Prop
  | same {d} : OtherSubs cx T d d
  | struct {cm : Option CommandMeta} {ds more : List (FieldDecl V)} {i : Str} {o : Bool} {vs vs' : Variants V} {d d' : ArgsDef V}
      (hd : deriveArgs cx cm (ds ++ .subcommand i o vs :: more) = .ok d)
      (hd' : deriveArgs cx cm (ds ++ .subcommand i o vs' :: more) = .ok d')
      (unique : ((variantList vs).map Variant.name).Nodup) (unique' : ((variantList vs').map Variant.name).Nodup)
      (C : Variant V → Variant V)
      (kept : ∀ v ∈ variantList vs, T (enc v.name) → C v ∈ variantList vs' ∧ (C v).name = v.name ∧ variantIdent (C v) = variantIdent v)
      (added : ∀ v' ∈ variantList vs', T (enc v'.name) → ∃ v ∈ variantList vs, v.name = v'.name)
      (subs : ∀ v ∈ variantList vs, T (enc v.name) → OtherSubs cx T (variantDef v) (variantDef (C v))) :
      OtherSubs cx T d d'

/-- A request for the help of the same command; its text is the same unless the command has subcommands. -/
def BothHelp (r r' : R (Out V)) : Prop :=
  ∃ (i : CmdId) (e e' : ArgsDef V) (st st' : List (Entry V)), r = errR (helpRequest ((i, e) :: st)) ∧ r' = errR (helpRequest ((i, e') :: st'))
    ∧ st'.map (·.1) = st.map (·.1) ∧ structs e' = structs e ∧ (hasSub e = false → r' = r)

end Palc.Spec
