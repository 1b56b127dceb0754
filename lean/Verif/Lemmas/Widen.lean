import Verif.SpecWiden
import Verif.Lemmas.Relax
/-! Values of a definition with types that accept more. -/

namespace Palc

open Spec

variable {V : Type} {cx : Cx V}

/-- Types that accept more, with the same attributes. -/
abbrev Change.wider : Change V := ⟨fun _ m m' => m' = m, AcceptsMore⟩

theorem sameArg_relaxed {m m' : ArgMeta V} (h : m' = m) : RelaxedArg m m' := by
  subst h
  exact ⟨rfl, rfl, rfl, rfl, rfl, rfl, rfl, rfl, rfl, rfl, rfl, id, id, id, .inl, id, fun _ => id, fun _ => id⟩

instance : Relaxing (V := V) (fun _ m m' => m' = m) := ⟨fun h => (sameArg_relaxed h).butNames⟩

instance : SameDefault (V := V) (fun _ m m' => m' = m) := ⟨fun h => by subst h; exact ⟨rfl, rfl⟩⟩

instance : Naming cx (Change.wider (V := V)) where
  kept _ h _ := declares_same h.ident (sameArg_relaxed h.src) _
  scope h hg := by rw [h.src, hg]
  apart _ h _ _ h1 h2 := by rw [h.src, h1] at h2; cases h2

/-! ## The generated definition -/

theorem classify_wider {ty ty' : Ty V} (h : WiderTy ty ty') :
    (classify ty').1 = (classify ty).1 ∧ WiderTy (classify ty).2 (classify ty').2 := by
  cases h with
  | bool => exact ⟨rfl, .bool⟩
  | other h => exact ⟨rfl, .other h⟩
  | vec h => exact ⟨rfl, h⟩
  | option h =>
    cases h with
    | bool => exact ⟨rfl, .bool⟩
    | other h => exact ⟨rfl, .other h⟩
    | vec h => exact ⟨rfl, h⟩
    | option h => exact ⟨rfl, h⟩

theorem fieldParser_wider {ty ty' : Ty V} (h : WiderTy ty ty') (k : MagicKind) (q : ValueParser V) :
    AcceptsMore ((fieldParser cx k ty).getD q) ((fieldParser cx k ty').getD q) := by
  unfold fieldParser
  split
  · exact fun _ _ => id
  · cases h with
    | other h =>
      obtain ⟨p, p', h1, h2, h3⟩ := h.parser
      simpa [inferParser, h1, h2] using h3
    | _ => exact fun _ _ => id

theorem fieldDefault_wider {ty ty' : Ty V} (h : WiderTy ty ty') (k : MagicKind) (m : ArgMeta V) :
    fieldDefault cx k ty' m = fieldDefault cx k ty m := by
  have hd : defaultOf cx k ty' = defaultOf cx k ty := by
    cases h with
    | other h => simp [defaultOf, h.default]
    | _ => rfl
  unfold fieldDefault
  rw [hd]

theorem argField_wider {i : Str} {ty ty' : Ty V} {m : ArgMeta V} (h : WiderTy ty ty') :
    LooseField Change.wider (argField cx i ty m).2 (argField cx i ty' m).2 := by
  obtain ⟨h1, h2⟩ := classify_wider h
  have hp := fieldParser_wider (cx := cx) h2 (classify ty).1 (.fromStr cx.boolFromStr)
  have hd := congrArg Prod.snd (fieldDefault_wider (cx := cx) h2 (classify ty).1 m)
  unfold argField
  simp only [h1]
  split
  · exact ⟨rfl, rfl, hp, rfl, fun _ _ => hd, rfl⟩
  · exact ⟨rfl, rfl, hp, rfl, fun _ _ => hd, rfl⟩

mutual
theorem widened_loose {d d' : ArgsDef V} : Widened cx d d' → LooseArgs Change.wider d d'
  | .mk fields hd hd' => loose_of_state (widenedDecls_loose fields {} {} ⟨.nil, .nil, .nil, .nil, .nil, .none⟩) hd hd'
theorem widenedDecls_loose {ds ds' : List (FieldDecl V)} : WidenedDecls cx ds ds' → ∀ s s' : DState V, LooseState Change.wider s s' →
    LooseState Change.wider (ds.foldl (deriveStep cx) s) (ds'.foldl (deriveStep cx) s')
  | .nil, _, _, h => h
  | .arg ht t, s, s', h => widenedDecls_loose t _ _ (step_arg_loose h rfl (argField_wider ht))
  | .flatten (i := i) he t, s, s', h => by
    refine widenedDecls_loose t _ _ ?_
    exact ⟨h.named, h.positional, h.varArg, h.last, looseFlats_snoc h.flats (widened_loose he), h.sub⟩
  | .subcommand (vs := vs) (vs' := vs') hv t, s, s', h => by
    refine widenedDecls_loose t _ _ ?_
    have hv' := widenedVariants_loose hv
    obtain ⟨h1, h2, h3, h4, h5, h6⟩ := h
    cases s
    cases s'
    simp only at h1 h2 h3 h4 h5 h6
    cases h6 with
    | none => exact ⟨h1, h2, h3, h4, h5, .some hv'⟩
    | some q => exact ⟨h1, h2, h3, h4, h5, .some q⟩
theorem widenedVariants_loose {vs vs' : Variants V} : WidenedVariants cx vs vs' → LooseVariants Change.wider vs vs'
  | .nil => .nil
  | .unit h => .unit (widenedVariants_loose h)
  | .args hd h => .args (widened_loose hd) (widenedVariants_loose h)
end

/-! ## Values -/

namespace LooseField
variable {f f' : FieldInfo V} (h : LooseField Change.wider f f')
include h

theorem parsed_wider {b : Bytes} {x : V} (hx : parsed f b = some x) : parsed f' b = some x := by
  unfold parsed at hx ⊢
  cases e : f.parser.parse b with
  | error _ => rw [e] at hx; cases hx
  | ok y => rw [e] at hx; rw [h.parser_src b y e]; exact hx

theorem parsedAll_wider {bs : List Bytes} {xs : List V} (hx : parsedAll f bs = some xs) : parsedAll f' bs = some xs := by
  induction bs generalizing xs with
  | nil => exact hx
  | cons b bs ih =>
    rw [parsedAll] at hx ⊢
    split at hx
    · rename_i v vs h1 h2
      rw [h.parsed_wider h1, ih h2]
      exact hx
    · cases hx

theorem content_wider {os : List (Option Bytes)} {x : Value V} (hx : Spec.content f os = some x) : Spec.content f' os = some x := by
  have hpc : pieces f' = pieces f := by funext b; simp [pieces, h.delimiter]
  unfold Spec.content at hx ⊢
  rw [h.kind, hpc]
  split
  · exact hx
  · simp only at hx
    have one {b : Bytes} {g : V → Value V} (hy : (parsed f b).map g = some x) : (parsed f' b).map g = some x := by
      obtain ⟨v, h1, h2⟩ := Option.map_eq_some_iff.1 hy
      rw [h.parsed_wider h1, Option.map_some, h2]
    have many {bs : List Bytes} {g : List V → Value V} (hy : (parsedAll f bs).map g = some x) : (parsedAll f' bs).map g = some x := by
      obtain ⟨v, h1, h2⟩ := Option.map_eq_some_iff.1 hy
      rw [h.parsedAll_wider h1, Option.map_some, h2]
    cases hk : f.kind <;> simp only [hk] at hx ⊢
    · exact hx
    all_goals
      split at hx
      · first | exact one hx | exact many hx | exact hx
      · first | exact one hx | exact hx | cases hx
      all_goals first | exact one hx | cases hx

theorem given_wider {os : List (Option Bytes)} {x : Value V} (hx : Spec.given f os = some x) : Spec.given f' os = some x := by
  have hn : normalise f' = normalise f := by funext b; simp [normalise, h.rel.ignoreCase]
  unfold Spec.given at hx ⊢
  rw [hn]
  exact h.content_wider hx

theorem fieldOut_wider {os : List (Option Bytes)} {x : FieldOut V} (hx : Spec.fieldOut f os = some x) : Spec.fieldOut f' os = some x := by
  unfold Spec.fieldOut at hx ⊢
  rw [h.toField]
  split at hx
  · obtain ⟨y, h1, h2⟩ := Option.bind_eq_some_iff.1 hx
    have : defaultContent f' = some y := by
      unfold defaultContent at h1 ⊢
      rw [h.default]
      split at h1 <;> first | exact h1 | exact h.content_wider h1
    simp only [this, Option.bind_some, h2]
  · obtain ⟨y, h1, h2⟩ := Option.bind_eq_some_iff.1 hx
    simp only [h.given_wider h1, Option.bind_some, h2]
end LooseField

theorem allOk_wider {st st' : List (Entry V)} (h : All₂ (LooseEntry Change.wider) st st') {evs : List Event} {sub : Bool}
    (ha : AllOk evs st sub) : AllOk evs st' sub := by
  induction h generalizing sub with
  | nil => exact ha
  | @cons x x' l l' h t ih =>
    obtain ⟨i, d⟩ := x
    obtain ⟨i', d'⟩ := x'
    rw [AllOk, t.length]
    refine ⟨⟨?_, ?_, fun hr => ha.1.subcommand (by rw [← subRequired_loose h.2]; exact hr)⟩, ih ha.2⟩
    · intro s c' hc' i f' hf'
      obtain ⟨c, hc, h1⟩ := (structs_loose h.2).get_some' hc'
      obtain ⟨f, hf, h2⟩ := h1.get_some' hf'
      have := ha.1.values s c hc i f hf
      cases e : given f (occs evs ⟨l.length, s, i⟩) with
      | none => exact (this e).elim
      | some y => rw [h2.given_wider e]; exact fun hn => nomatch hn
    · intro s c' hc'
      obtain ⟨c, hc, h1⟩ := (structs_loose h.2).get_some' hc'
      exact structOk_loose h1 (ha.1.structs s c hc)

theorem outFields_wider {fs fs' : List (FieldInfo V)} (h : All₂ (LooseField Change.wider) fs fs') {os : Nat → List (Option Bytes)} {k : Nat}
    {r : List (Str × Out V)} (hx : outFields os k fs = some r) : outFields os k fs' = some r := by
  induction h generalizing k r with
  | nil => exact hx
  | cons h _ ih =>
    rw [outFields] at hx ⊢
    split at hx
    · rename_i o r' h1 h2
      rw [h.fieldOut_wider h1, ih h2, h.ident]
      exact hx
    · cases hx

mutual
theorem outArgs_wider {d d' : ArgsDef V} : LooseArgs Change.wider d d' → ∀ {os : Nat → Nat → List (Option Bytes)} {s : Nat}
    {sub : Option (Out V)} {r : Out V}, outArgs os s sub d = some r → outArgs os s sub d' = some r
  | .mk hc hf hs, os, s, sub, r, hx => by
    rw [outArgs] at hx ⊢
    rw [outSub_loose hs]
    split at hx
    · rename_i h1 h2 h3
      rw [outFields_wider hc h1, outFlats_wider hf h2, h3]
      exact hx
    · cases hx
theorem outFlats_wider {fl fl' : Flats V} : LooseFlats Change.wider fl fl' → ∀ {os : Nat → Nat → List (Option Bytes)} {s : Nat}
    {r : List (Str × Out V)}, outFlats os s fl = some r → outFlats os s fl' = some r
  | .nil, _, _, _, hx => hx
  | .cons h hr, os, s, r, hx => by
    rw [outFlats] at hx ⊢
    rw [(structs_loose h).length]
    split at hx
    · rename_i h1 h2
      rw [outArgs_wider h h1, outFlats_wider hr h2]
      exact hx
    · cases hx
end

theorem outAll_wider {st st' : List (Entry V)} (h : All₂ (LooseEntry Change.wider) st st') {evs : List Event} {sub : Option (Out V)}
    {r : Out V} (hx : outAll evs st sub = some r) : outAll evs st' sub = some r := by
  induction h generalizing sub with
  | nil => exact hx
  | @cons x x' l l' h t ih =>
    obtain ⟨i, d⟩ := x
    obtain ⟨i', d'⟩ := x'
    obtain ⟨rfl, hd⟩ := h
    rw [outAll] at hx ⊢
    rw [t.length]
    split at hx
    · rename_i h1
      rw [outArgs_wider hd h1]
      cases t with
      | nil => exact hx
      | cons h t => exact ih hx
    · cases hx

theorem accepts_wider {d d' : ArgsDef V} (h : LooseArgs Change.wider d d') {argv0 : Bytes} {toks : List Bytes} {out : Out V}
    (ha : Accepts cx d argv0 toks out) : Accepts cx d' argv0 toks out := by
  obtain ⟨evs, κ, hr, hok, ho⟩ := ha
  obtain ⟨κ', hr', hl⟩ := reads_loose hr (start argv0 d') ⟨.cons ⟨rfl, h⟩ .nil⟩
  exact ⟨evs, κ', hr', allOk_wider hl.stack hok, outAll_wider hl.stack ho⟩

end Palc
