import Verif.SpecRelax
/-!
# Structs with value types that accept more

What changes when types of values accept more, for example value enums with more variants (C98).
-/

namespace Palc.Spec

variable {V : Type}

/-- What `p` accepts is accepted by `p'` with the same meaning. -/
def AcceptsMore (p p' : ValueParser V) : Prop := ∀ b x, p.parse b = .ok x → p'.parse b = .ok x

/-- Both types have a parser, the second accepts what the first accepts, and the value of `Default` is the same. -/
structure WiderVal (v v' : ValTy V) : Prop where
  default : v'.default = v.default
  parser : ∃ p p', v.parser = some p ∧ v'.parser = some p' ∧ AcceptsMore p p'

/-- The same for types of fields. -/
inductive WiderTy : Ty V → Ty V → Prop
  | bool : WiderTy .bool .bool
  | option {t t' : Ty V} (h : WiderTy t t') : WiderTy (.option t) (.option t')
  | vec {t t' : Ty V} (h : WiderTy t t') : WiderTy (.vec t) (.vec t')
  | other {v v' : ValTy V} (h : WiderVal v v') : WiderTy (.other v) (.other v')

mutual
/-- `d'` is derived from the same struct as `d`, with types of arguments that accept more, also in flattened structs and in
subcommands. The attributes of commands are arbitrary. -/
inductive Widened (cx : Cx V) : ArgsDef V → ArgsDef V → Prop
  | mk {cm cm' : Option CommandMeta} {ds ds' : List (FieldDecl V)} {d d' : ArgsDef V} (fields : WidenedDecls cx ds ds')
      (hd : deriveArgs cx cm ds = .ok d) (hd' : deriveArgs cx cm' ds' = .ok d') : Widened cx d d'
/-- The same for the declared fields. -/
inductive WidenedDecls (cx : Cx V) : List (FieldDecl V) → List (FieldDecl V) → Prop
  | nil : WidenedDecls cx [] []
  | arg {i : Str} {ty ty' : Ty V} {m : ArgMeta V} {ds ds' : List (FieldDecl V)} (ht : WiderTy ty ty') (h : WidenedDecls cx ds ds') :
      WidenedDecls cx (.arg i ty m :: ds) (.arg i ty' m :: ds')
  | flatten {i : Str} {d d' : ArgsDef V} {ds ds' : List (FieldDecl V)} (he : Widened cx d d') (h : WidenedDecls cx ds ds') :
      WidenedDecls cx (.flatten i d :: ds) (.flatten i d' :: ds')
  | subcommand {i : Str} {o : Bool} {vs vs' : Variants V} {ds ds' : List (FieldDecl V)} (hv : WidenedVariants cx vs vs')
      (h : WidenedDecls cx ds ds') : WidenedDecls cx (.subcommand i o vs :: ds) (.subcommand i o vs' :: ds')
/-- The same for subcommands. -/
inductive WidenedVariants (cx : Cx V) : Variants V → Variants V → Prop
  | nil : WidenedVariants cx .nil .nil
  | unit {i n : Str} {cm cm' : Option CommandMeta} {vs vs' : Variants V} (h : WidenedVariants cx vs vs') :
      WidenedVariants cx (.cons (.unit i n cm) vs) (.cons (.unit i n cm') vs')
  | args {i n : Str} {d d' : ArgsDef V} {vs vs' : Variants V} (hd : Widened cx d d') (h : WidenedVariants cx vs vs') :
      WidenedVariants cx (.cons (.args i n d) vs) (.cons (.args i n d') vs')
end

end Palc.Spec
