import Verif.SpecGiven
import Verif.Lemmas.Style
/-! Constraints and values of a definition with other defaults. -/

namespace Palc

open Spec

variable {V : Type} {cx : Cx V} {S : Str → Prop}

theorem _root_.Palc.Spec.OtherDefaultArg.butNames {i : Str} {m m' : ArgMeta V} (h : OtherDefaultArg S i m m') : RelaxedButNames m m' := by
  rw [h.same]
  exact ⟨rfl, rfl, rfl, rfl, rfl, id, id, id, .inl, id, fun _ => id, fun _ => id⟩

instance : Relaxing (V := V) (OtherDefaultArg S) := ⟨OtherDefaultArg.butNames⟩

theorem LooseField.declares_default {f f' : FieldInfo V} (h : LooseField (.of (OtherDefaultArg S)) f f') (n : Name) :
    Spec.declares cx f' n = Spec.declares cx f n := by
  have hs := h.src.same
  cases n <;> simp only [Spec.declares, Spec.isOption, longNames, shortNames, h.ident] <;> rw [hs]

theorem LooseField.global_default {f f' : FieldInfo V} (h : LooseField (.of (OtherDefaultArg S)) f f') : f'.src.global = f.src.global := by
  rw [h.src.same]

instance : Naming (V := V) cx (.of (OtherDefaultArg S)) where
  kept _ h _ := h.declares_default _
  scope h hg := by rw [h.global_default, hg]
  apart _ h _ _ h1 h2 := by rw [h.global_default, h1] at h2; cases h2

theorem LooseField.default_or {f f' : FieldInfo V} (h : LooseField (.of (OtherDefaultArg S)) f f') :
    S f.ident ∨ f'.defaultValue = f.defaultValue :=
  h.src.only.imp id fun hx => h.default_src hx.1 hx.2

/-! ## The relation is symmetric -/

theorem All₂.symm {α : Type} {R R' : α → α → Prop} (hr : ∀ x y, R x y → R' y x) {l l' : List α} (h : All₂ R l l') : All₂ R' l' l := by
  induction h with
  | nil => exact .nil
  | cons h _ ih => exact .cons (hr _ _ h) ih

theorem LooseField.symm {f f' : FieldInfo V} (h : LooseField (.of (OtherDefaultArg S)) f f') : LooseField (.of (OtherDefaultArg S)) f' f where
  ident := h.ident.symm
  kind := h.kind.symm
  parser_src := h.parser.symm
  delimiter := h.delimiter.symm
  default_src h1 h2 := (h.default_src h1.symm h2.symm).symm
  src := by
    rw [h.ident]
    refine ⟨?_, h.src.only.imp id fun hx => ⟨hx.1.symm, hx.2.symm⟩⟩
    have hs := h.src.same
    revert hs
    generalize f'.src = m'
    generalize f.src = m
    rintro hs
    rw [hs]

mutual
theorem LooseArgs.symm {d d' : ArgsDef V} : LooseArgs (.of (OtherDefaultArg S)) d d' → LooseArgs (.of (OtherDefaultArg S)) d' d
  | .mk hc hf hs => .mk (All₂.symm (fun _ _ h => h.symm) hc) (LooseFlats.symm hf) (LooseSub.symm hs)
theorem LooseFlats.symm {fl fl' : Flats V} : LooseFlats (.of (OtherDefaultArg S)) fl fl' → LooseFlats (.of (OtherDefaultArg S)) fl' fl
  | .nil => .nil
  | .cons h hr => .cons (LooseArgs.symm h) (LooseFlats.symm hr)
theorem LooseSub.symm {s s' : SubField V} : LooseSub (.of (OtherDefaultArg S)) s s' → LooseSub (.of (OtherDefaultArg S)) s' s
  | .none => .none
  | .some h => .some (LooseVariants.symm h)
theorem LooseVariants.symm {vs vs' : Variants V} : LooseVariants (.of (OtherDefaultArg S)) vs vs' → LooseVariants (.of (OtherDefaultArg S)) vs' vs
  | .nil => .nil
  | .unit h => .unit (LooseVariants.symm h)
  | .args hd h => .args (LooseArgs.symm hd) (LooseVariants.symm h)
end

/-! ## Constraints and values -/

/-- The arguments with identifiers in `S` are given. -/
def GivenIn (S : Str → Prop) (c : Core V) (os : Nat → List (Option Bytes)) : Prop :=
  ∀ i f, c.fields[i]? = some f → S f.ident → os i ≠ []

/-- The same for all entered commands. -/
def GivenAll (S : Str → Prop) (st : List (Entry V)) (evs : List Event) : Prop :=
  ∀ a f, fieldAt st a = some f → S f.ident → occs evs a ≠ []

theorem GivenAll.here {i : CmdId} {d : ArgsDef V} {st : List (Entry V)} {evs : List Event} (h : GivenAll S ((i, d) :: st) evs) {s : Nat}
    {c : Core V} (hc : (structs d)[s]? = some c) : GivenIn S c (fun k => occs evs ⟨st.length, s, k⟩) := by
  intro k f hf hs
  refine h ⟨st.length, s, k⟩ f ?_ hs
  rw [fieldAt, if_pos rfl]
  simp only [hc]
  exact hf

theorem GivenAll.tail {x : Entry V} {st : List (Entry V)} {evs : List Event} (h : GivenAll S (x :: st) evs) : GivenAll S st evs :=
  fun a f hf => h a f (fieldAt_ext_some (ext := [x]) hf)

theorem structOk_given {c c' : Core V} (h : LooseCore (.of (OtherDefaultArg S)) c c') {os : Nat → List (Option Bytes)} {sub : Bool}
    (hg : GivenIn S c os) (hs : StructOk c os sub) : StructOk c' os sub where
  required i f' hf' hr := by
    obtain ⟨f, hf, hl⟩ := h.get_some' hf'
    rcases hl.default_or with hx | hx
    · exact hg i f hf hx
    · exact hs.required i f hf (hl.isRequired_of hx hr)
  requires i f' hf' ho x hx := by
    obtain ⟨f, hf, hl⟩ := h.get_some' hf'
    obtain ⟨j, g, hg, hi, hj⟩ := hs.requires i f hf ho x (hl.rel.requires x hx)
    obtain ⟨g', hg', hlg⟩ := h.get_some hg
    exact ⟨j, g', hg', by rw [hlg.ident, hi], hj⟩
  conflicts i f' hf' ho x hx j g' hg' hi := by
    obtain ⟨f, hf, hl⟩ := h.get_some' hf'
    obtain ⟨g, hg, hlg⟩ := h.get_some' hg'
    exact hs.conflicts i f hf ho x (hl.rel.conflictsWith x hx) j g hg (by rw [← hlg.ident, hi])
  exclusive i f' hf' ho he := by
    obtain ⟨f, hf, hl⟩ := h.get_some' hf'
    have := hs.exclusive i f hf ho (hl.rel.exclusive he)
    rw [h.length]
    exact this

theorem allOk_given {st st' : List (Entry V)} (h : All₂ (LooseEntry (.of (OtherDefaultArg S))) st st') {evs : List Event} {sub : Bool}
    (hg : GivenAll S st evs) (ha : AllOk evs st sub) : AllOk evs st' sub := by
  induction h generalizing sub with
  | nil => exact ha
  | @cons x x' l l' h t ih =>
    obtain ⟨i, d⟩ := x
    obtain ⟨i', d'⟩ := x'
    rw [AllOk, t.length]
    refine ⟨⟨?_, ?_, fun hr => ha.1.subcommand (by rw [← subRequired_loose h.2]; exact hr)⟩, ih hg.tail ha.2⟩
    · intro s c' hc' i f' hf'
      obtain ⟨c, hc, h1⟩ := (structs_loose h.2).get_some' hc'
      obtain ⟨f, hf, h2⟩ := h1.get_some' hf'
      rw [h2.given]
      exact ha.1.values s c hc i f hf
    · intro s c' hc'
      obtain ⟨c, hc, h1⟩ := (structs_loose h.2).get_some' hc'
      exact structOk_given h1 (hg.here hc) (ha.1.structs s c hc)

theorem outFields_given {fs fs' : List (FieldInfo V)} (h : All₂ (LooseField (.of (OtherDefaultArg S))) fs fs') (os : Nat → List (Option Bytes))
    (k : Nat) (hg : ∀ i f, fs[i]? = some f → S f.ident → os (k + i) ≠ []) : outFields os k fs' = outFields os k fs := by
  induction h generalizing k with
  | nil => rfl
  | @cons f f' l l' h _ ih =>
    have h1 : fieldOut f' (os k) = fieldOut f (os k) := by
      rcases h.default_or with hx | hx
      · exact h.fieldOut_given (hg 0 f rfl hx)
      · exact h.fieldOut_of hx _
    rw [outFields, outFields, h1, h.ident, ih (k + 1) (fun i f hf hs => by
      have := hg (i + 1) f (by simpa using hf) hs
      rwa [show k + (i + 1) = k + 1 + i by omega] at this)]

mutual
theorem outArgs_given {d d' : ArgsDef V} : LooseArgs (.of (OtherDefaultArg S)) d d' → ∀ (os : Nat → Nat → List (Option Bytes)) (s : Nat)
    (sub : Option (Out V)), (∀ j c, (structs d)[j]? = some c → GivenIn S c (os (s + j))) → outArgs os s sub d' = outArgs os s sub d
  | .mk (c := c) (fl := fl) hc hf hs, os, s, sub, hg => by
    have h0 := hg 0 c (by simp [structs])
    have h1 : ∀ j c, (flatStructs fl)[j]? = some c → GivenIn S c (os (s + 1 + j)) := by
      intro j c hc
      have := hg (j + 1) c (by simpa [structs] using hc)
      rwa [show s + (j + 1) = s + 1 + j by omega] at this
    rw [outArgs, outArgs, outFields_given hc _ _ (fun i f hf hx => by simpa using h0 i f hf hx), outFlats_given hf os (s + 1) h1, outSub_loose hs]
theorem outFlats_given {fl fl' : Flats V} : LooseFlats (.of (OtherDefaultArg S)) fl fl' → ∀ (os : Nat → Nat → List (Option Bytes)) (s : Nat),
    (∀ j c, (flatStructs fl)[j]? = some c → GivenIn S c (os (s + j))) → outFlats os s fl' = outFlats os s fl
  | .nil, _, _, _ => rfl
  | .cons (d := d) (r := r) h hr, os, s, hg => by
    have h0 : ∀ j c, (structs d)[j]? = some c → GivenIn S c (os (s + j)) := by
      intro j c hc
      have hj : j < (structs d).length := (List.getElem?_eq_some_iff.1 hc).1
      exact hg j c (by rw [flatStructs, List.getElem?_append_left hj, hc])
    have h1 : ∀ j c, (flatStructs r)[j]? = some c → GivenIn S c (os (s + (structs d).length + j)) := by
      intro j c hc
      have := hg ((structs d).length + j) c (by rw [flatStructs, List.getElem?_append_right (by omega)]; simpa using hc)
      rwa [← Nat.add_assoc] at this
    rw [outFlats, outFlats, outArgs_given h os s none h0, (structs_loose h).length, outFlats_given hr os _ h1]
end

theorem outAll_given {st st' : List (Entry V)} (h : All₂ (LooseEntry (.of (OtherDefaultArg S))) st st') (evs : List Event) (hg : GivenAll S st evs)
    (sub : Option (Out V)) : outAll evs st' sub = outAll evs st sub := by
  induction h generalizing sub with
  | nil => rfl
  | @cons x x' l l' h t ih =>
    obtain ⟨i, d⟩ := x
    obtain ⟨i', d'⟩ := x'
    obtain ⟨rfl, hd⟩ := h
    rw [outAll, outAll, t.length, outArgs_given hd _ _ _ (fun j c hc => by simpa using hg.here hc)]
    cases outArgs (fun s i => occs evs ⟨l.length, s, i⟩) 0 sub d with
    | none => rfl
    | some o =>
      cases t with
      | nil => rfl
      | cons h t => exact ih hg.tail _

theorem accepts_given {d d' : ArgsDef V} (h : LooseArgs (.of (OtherDefaultArg S)) d d') {argv0 : Bytes} {toks : List Bytes} {out : Out V}
    {evs : List Event} {κ : Ctx V} (hr : Reads cx (start argv0 d) toks evs κ) (hg : GivenAll S κ.stack evs)
    (ha : Accepts cx d argv0 toks out) : Accepts cx d' argv0 toks out := by
  obtain ⟨evs', κ', hr', hok, ho⟩ := ha
  obtain ⟨rfl, rfl⟩ := reads_det hr hr'
  obtain ⟨κ1, hr1, hl⟩ := reads_loose hr (start argv0 d') ⟨.cons ⟨rfl, h⟩ .nil⟩
  exact ⟨evs, κ1, hr1, allOk_given hl.stack hg hok, by rw [outAll_given hl.stack _ hg]; exact ho⟩

end Palc
