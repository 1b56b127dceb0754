import Verif.SpecRelax
/-!
# Structs with other container attributes where they are flattened

What `#[command(..)]` and the documentation of a struct mean if the struct is used by `#[command(flatten)]` (C88).
-/

namespace Palc.Spec

variable {V : Type}

mutual
/-- `d'` is derived from the same struct as `d`, where the structs used by `command(flatten)`, also in subcommands, may have other
container attributes and other documentation.  `flat`: the struct is itself used in this way. -/
inductive Retitled (cx : Cx V) : (flat : Bool) → ArgsDef V → ArgsDef V → Prop
  | mk {flat : Bool} {cm cm' : Option CommandMeta} {ds ds' : List (FieldDecl V)} {d d' : ArgsDef V} (own : flat = false → cm' = cm)
      (fields : RetitledDecls cx ds ds') (hd : deriveArgs cx cm ds = .ok d) (hd' : deriveArgs cx cm' ds' = .ok d') : Retitled cx flat d d'
/-- The same for the declared fields. -/
inductive RetitledDecls (cx : Cx V) : List (FieldDecl V) → List (FieldDecl V) → Prop
  | nil : RetitledDecls cx [] []
  | arg {i : Str} {ty : Ty V} {m : ArgMeta V} {ds ds' : List (FieldDecl V)} (h : RetitledDecls cx ds ds') :
      RetitledDecls cx (.arg i ty m :: ds) (.arg i ty m :: ds')
  | flatten {i : Str} {d d' : ArgsDef V} {ds ds' : List (FieldDecl V)} (he : Retitled cx true d d') (h : RetitledDecls cx ds ds') :
      RetitledDecls cx (.flatten i d :: ds) (.flatten i d' :: ds')
  | subcommand {i : Str} {o : Bool} {vs vs' : Variants V} {ds ds' : List (FieldDecl V)} (hv : RetitledVariants cx vs vs')
      (h : RetitledDecls cx ds ds') : RetitledDecls cx (.subcommand i o vs :: ds) (.subcommand i o vs' :: ds')
/-- The same for subcommands. -/
inductive RetitledVariants (cx : Cx V) : Variants V → Variants V → Prop
  | nil : RetitledVariants cx .nil .nil
  | unit {i n : Str} {cm : Option CommandMeta} {vs vs' : Variants V} (h : RetitledVariants cx vs vs') :
      RetitledVariants cx (.cons (.unit i n cm) vs) (.cons (.unit i n cm) vs')
  | args {i n : Str} {d d' : ArgsDef V} {vs vs' : Variants V} (hd : Retitled cx false d d') (h : RetitledVariants cx vs vs') :
      RetitledVariants cx (.cons (.args i n d) vs) (.cons (.args i n d') vs')
end

end Palc.Spec
