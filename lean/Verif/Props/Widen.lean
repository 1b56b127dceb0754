import Verif.Lemmas.Widen
import Verif.Props.NoPanic
import Verif.Props.Macros
/-!
# Types of values that accept more (C98)
-/

namespace Palc

open Spec

section
variable {V : Type} {cx : Cx V} {d d' : ArgsDef V} {argv0 : Bytes} {toks : List Bytes} {out : Out V}

/-- C98: a command line accepted by a program is accepted, with the same result, if the types of its arguments accept more values. -/
theorem C98_accepted (hd : DerivedArgs cx d) (hd' : DerivedArgs cx d') (h : Widened cx d d')
    (hok : tryParseFrom d (argv0 :: toks) = .ok out) : tryParseFrom d' (argv0 :: toks) = .ok out :=
  (C23_accepts_iff hd' argv0 toks out).2 (accepts_wider (widened_loose h) ((C23_accepts_iff hd argv0 toks out).1 hok))

/-- C98: a command line rejected with the types that accept more was rejected before. -/
theorem C98_rejected (hd : DerivedArgs cx d) (hd' : DerivedArgs cx d') (h : Widened cx d d')
    {e : Fail} (hno : tryParseFrom d' (argv0 :: toks) = .error e) : ∃ e', tryParseFrom d (argv0 :: toks) = .error e' := by
  cases hp : tryParseFrom d (argv0 :: toks) with
  | error e' => exact ⟨e', rfl⟩
  | ok o => rw [C98_accepted hd hd' h hp] at hno; cases hno
end

/-- C98: value enums with more variants, wherever they are put, are such types. -/
theorem C98_variants {V : Type} {cx : SrcCx V} {attrs : List (Attr Unit)} {vs vs' : List (EnumVariant V)} {e e' : EnumDef V}
    (he : expandValueEnum cx attrs (some vs) = .ok e) (he' : expandValueEnum cx attrs (some vs') = .ok e') (h : ∀ v ∈ vs, v ∈ vs')
    {t t' : ValTy V} (ht : t.valueEnum = some e) (ht' : t'.valueEnum = some e') (hdef : t'.default = t.default) : WiderVal t t' := by
  have key : ∀ {t : ValTy V} {e : EnumDef V}, t.valueEnum = some e → t.parser = some (.valueEnum e) := by
    intro t e ht
    simp [ValTy.parser, ValTy.lookup, ValTy.implAt, ht]
  refine ⟨hdef, _, _, key ht, key ht', fun b x hx => ?_⟩
  obtain ⟨_, style, _, hv, hs, _⟩ := C57_accepted_iff.1 ⟨e, he⟩
  obtain ⟨v, hm, n, h1, h2, h3⟩ := (C57_parse he hs b x).1 hx
  exact (C57_parse he' hs b x).2 ⟨v, h v hm, n, h1, h2, h3⟩

namespace Sample

/-- A value enum with the given variants. -/
def paintVariants (ns : List String) : List (EnumVariant Val) := ns.map fun n => { ident := lit n, value := lit n }

def paintEnum (ns : List String) : Option (EnumDef Val) :=
  match expandValueEnum srcCx [] (some (paintVariants ns)) with
  | .ok e => some e
  | _ => none

/-- `--paint` with a value of it, and a list of them. -/
def paintDecls (ns : List String) : List (FieldDecl Val) :=
  [ .arg (lit "paint") (.option (.other { valueEnum := paintEnum ns })) { long := some .inherit, ignoreCase := true },
    .arg (lit "more") (.vec (.other { valueEnum := paintEnum ns })) { valueDelimiter := some ',' } ]

def paintCli (ns : List String) : ArgsDef Val := get (deriveArgs Sample.cx none (paintDecls ns))

theorem paint_wider {ns ns' : List String} (h : (paintEnum ns).isSome = true) (h' : (paintEnum ns').isSome = true)
    (hn : ∀ n ∈ ns, n ∈ ns') : WiderVal (V := Val) { valueEnum := paintEnum ns } { valueEnum := paintEnum ns' } := by
  have key : ∀ {ns : List String}, (paintEnum ns).isSome = true →
      ∃ e, expandValueEnum srcCx [] (some (paintVariants ns)) = .ok e ∧ paintEnum ns = some e := by
    intro ns h
    unfold paintEnum at h ⊢
    split at h
    · rename_i e he
      exact ⟨e, he, rfl⟩
    · cases h
  obtain ⟨e, h1, h2⟩ := key h
  obtain ⟨e', h1', h2'⟩ := key h'
  refine C98_variants h1 h1' ?_ h2 h2' rfl
  intro v hv
  obtain ⟨n, hm, rfl⟩ := List.mem_map.1 hv
  exact List.mem_map.2 ⟨n, hn n hm, rfl⟩

/-- A variant more, in the middle. -/
theorem paint_accepted {toks : List Bytes} {out : Out Val}
    (hok : tryParseFrom (paintCli ["Red", "Blue"]) (blit "paint" :: toks) = .ok out) :
    tryParseFrom (paintCli ["Red", "Green", "Blue"]) (blit "paint" :: toks) = .ok out := by
  have h1 : isOk (deriveArgs Sample.cx none (paintDecls ["Red", "Blue"])) = true := by decide +kernel
  have h2 : isOk (deriveArgs Sample.cx none (paintDecls ["Red", "Green", "Blue"])) = true := by decide +kernel
  have hw := paint_wider (ns := ["Red", "Blue"]) (ns' := ["Red", "Green", "Blue"]) (by decide +kernel) (by decide +kernel) (by decide)
  refine C98_accepted (derived_leaf h1 rfl) (derived_leaf h2 rfl) ?_ hok
  refine .mk (ds := paintDecls ["Red", "Blue"]) (ds' := paintDecls ["Red", "Green", "Blue"]) ?_ (get_ok h1) (get_ok h2)
  exact .arg (.option (.other hw)) (.arg (.vec (.other hw)) .nil)

example : (value (tryParseFrom (paintCli ["Red", "Blue"]) [blit "paint", blit "--paint=BLUE", blit "red,blue"]) ["paint"]).isSome = true
    ∧ failure (tryParseFrom (paintCli ["Red", "Blue"]) [blit "paint", blit "red,green"]) ≠ none
    ∧ failure (tryParseFrom (paintCli ["Red", "Green", "Blue"]) [blit "paint", blit "red,green"]) = none := by
  decide +kernel

end Sample

end Palc
