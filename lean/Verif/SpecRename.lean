import Verif.SpecRelax
/-!
# Structs with other field names

The names of the fields of a struct are used for the names of options and of values that are not given explicitly.  What a struct with
renamed fields is otherwise (C87).
-/

namespace Palc.Spec

variable {V : Type}

/-- The long name of an argument: the one given, or the name of the field. -/
def longWritten (cx : Cx V) (ident : Str) (m : ArgMeta V) : Option Str :=
  m.long.map (fun
    | .explicit s => s
    | .inherit => cx.kebab ident)

/-- The short name of an argument: the one given, or the first letter of the field. -/
def shortWritten (ident : Str) (m : ArgMeta V) : Option (Option Char) :=
  m.short.map (fun
    | .explicit c => some c
    | .inherit => ident.head?)

/-- The name of the value: the one given, or the name of the field. -/
def valueWritten (cx : Cx V) (ident : Str) (m : ArgMeta V) : Str :=
  match m.valueName with
  | some s => s
  | none => cx.shoutySnake ident

/-- The attributes of the field `i` when the fields of its struct are renamed by `ρ`: the argument has the same names, written
explicitly where they would change, and refers to the same arguments. -/
structure RenamedArg (cx : Cx V) (ρ : Str → Str) (i : Str) (m m' : ArgMeta V) : Prop where
  long : longWritten cx (ρ i) m' = longWritten cx i m
  short : shortWritten (ρ i) m' = shortWritten i m
  valueName : valueWritten cx (ρ i) m' = valueWritten cx i m
  requires : m'.requires = m.requires.map ρ
  conflictsWith : m'.conflictsWith = m.conflictsWith.map ρ
  rest : m' = { m with long := m'.long, short := m'.short, valueName := m'.valueName, requires := m'.requires, conflictsWith := m'.conflictsWith }

mutual
/-- `d'` is derived from the same struct as `d` with the fields renamed, also those of flattened structs and of subcommands.  Each struct
can be renamed in its own way.  `N i i'` holds if some field (or variant) `i` has become `i'`. -/
inductive Renamed (cx : Cx V) (N : Str → Str → Prop) : ArgsDef V → ArgsDef V → Prop
  | mk {ρ : Str → Str} {cm : Option CommandMeta} {ds ds' : List (FieldDecl V)} {d d' : ArgsDef V} (fields : RenamedDecls cx N ρ ds ds')
      (hd : deriveArgs cx cm ds = .ok d) (hd' : deriveArgs cx cm ds' = .ok d') : Renamed cx N d d'
/-- The same for the declared fields. -/
inductive RenamedDecls (cx : Cx V) (N : Str → Str → Prop) : (ρ : Str → Str) → List (FieldDecl V) → List (FieldDecl V) → Prop
  | nil {ρ : Str → Str} : RenamedDecls cx N ρ [] []
  | arg {ρ : Str → Str} {i : Str} {ty : Ty V} {m m' : ArgMeta V} {ds ds' : List (FieldDecl V)} (hi : N i (ρ i)) (ha : RenamedArg cx ρ i m m')
      (h : RenamedDecls cx N ρ ds ds') : RenamedDecls cx N ρ (.arg i ty m :: ds) (.arg (ρ i) ty m' :: ds')
  | flatten {ρ : Str → Str} {i : Str} {d d' : ArgsDef V} {ds ds' : List (FieldDecl V)} (hi : N i (ρ i)) (he : Renamed cx N d d')
      (h : RenamedDecls cx N ρ ds ds') : RenamedDecls cx N ρ (.flatten i d :: ds) (.flatten (ρ i) d' :: ds')
  | subcommand {ρ : Str → Str} {i : Str} {o : Bool} {vs vs' : Variants V} {ds ds' : List (FieldDecl V)} (hi : N i (ρ i))
      (hv : RenamedVariants cx N vs vs') (h : RenamedDecls cx N ρ ds ds') :
      RenamedDecls cx N ρ (.subcommand i o vs :: ds) (.subcommand (ρ i) o vs' :: ds')
/-- The same for subcommands, which keep the names to be typed. -/
inductive RenamedVariants (cx : Cx V) (N : Str → Str → Prop) : Variants V → Variants V → Prop
  | nil : RenamedVariants cx N .nil .nil
  | unit {i i' n : Str} {cm : Option CommandMeta} {vs vs' : Variants V} (hi : N i i') (h : RenamedVariants cx N vs vs') :
      RenamedVariants cx N (.cons (.unit i n cm) vs) (.cons (.unit i' n cm) vs')
  | args {i i' n : Str} {d d' : ArgsDef V} {vs vs' : Variants V} (hi : N i i') (hd : Renamed cx N d d') (h : RenamedVariants cx N vs vs') :
      RenamedVariants cx N (.cons (.args i n d) vs) (.cons (.args i' n d') vs')
end

mutual
/-- The same value, with the names of fields and variants changed. -/
inductive RenamedOut (N : Str → Str → Prop) : Out V → Out V → Prop
  | field {v : FieldOut V} : RenamedOut N (.field v) (.field v)
  | struct {l l' : List (Str × Out V)} (h : RenamedFields N l l') : RenamedOut N (.struct l) (.struct l')
  | variant {i i' : Str} {o o' : Out V} (hi : N i i') (h : RenamedOut N o o') : RenamedOut N (.variant i o) (.variant i' o')
  | none : RenamedOut N (.optSub .none) (.optSub .none)
  | some {o o' : Out V} (h : RenamedOut N o o') : RenamedOut N (.optSub (.some o)) (.optSub (.some o'))
/-- The same for the fields of a struct, in their order. -/
inductive RenamedFields (N : Str → Str → Prop) : List (Str × Out V) → List (Str × Out V) → Prop
  | nil : RenamedFields N [] []
  | cons {i i' : Str} {o o' : Out V} {l l' : List (Str × Out V)} (hi : N i i') (ho : RenamedOut N o o') (h : RenamedFields N l l') :
      RenamedFields N ((i, o) :: l) ((i', o') :: l')
end

end Palc.Spec
