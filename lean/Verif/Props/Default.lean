import Verif.Props.Language
import Verif.Lemmas.Extra
/-!
# Giving a default value explicitly (C73)
-/

namespace Palc

open Spec

variable {V : Type} {cx : Cx V} {d : ArgsDef V} {argv0 : Bytes} {pre post : List Bytes} {evs more : List Event}
  {st : List (Entry V)} {k : Nat} {a : Addr} {f : FieldInfo V} {v : Bytes}

/-- The argument `a` is not constrained by any argument `g` of the same struct: none is exclusive, none requires `a` or
conflicts with it, and `a` itself requires nothing and conflicts with nothing. -/
def Unconstrained (st : List (Entry V)) (a : Addr) (f : FieldInfo V) : Prop :=
  f.src.requires = [] ∧ f.src.conflictsWith = []
  ∧ ∀ b g, fieldAt st b = some g → b.level = a.level → b.struct = a.struct →
      g.src.exclusive = false ∧ f.ident ∉ g.src.requires ∧ f.ident ∉ g.src.conflictsWith

/-- The argument is not given in `pre`, nor in `post` as far as that can be read. -/
def NotGiven (cx : Cx V) (κ : Ctx V) (evs : List Event) (post : List Bytes) (a : Addr) : Prop :=
  occs evs a = [] ∧ ∃ more, occs more a = []
    ∧ ((∃ κ', Reads cx κ post more κ') ∨ ∃ κ' e, Halts cx κ post more κ' e)

theorem redundant (hd : DerivedArgs cx d) (hpre : Reads cx (start argv0 d) pre evs ⟨st, k, .opts⟩) {w : List Bytes}
    (hw : Steps cx ⟨st, k, .opts⟩ (w ++ post) [(a, some v)] ⟨st, k, .opts⟩ post) (hfa : fieldAt st a = some f)
    (hdef : f.defaultValue ≠ none) (hne : fieldOut f [] ≠ none) (hv : fieldOut f [some v] = fieldOut f [])
    (hng : NotGiven cx ⟨st, k, .opts⟩ evs post a) (hu : Unconstrained st a f) :
    tryParseFrom d (argv0 :: (pre ++ (w ++ post))) = tryParseFrom d (argv0 :: (pre ++ post)) := by
  obtain ⟨h0, more, hm, hmore⟩ := hng
  symm
  refine outcome_extra hd.wf (steps_append (reads_steps hpre) post)
    (steps_trans (steps_append (reads_steps hpre) (w ++ post)) hw) hmore h0 hm hfa hv ?_ ?_
  · intro hg
    rw [← hv] at hne
    exact hne (by simp [fieldOut, hg])
  · intro p i e outer c hst hl hc
    simp only at hst
    have hfc : c.fields[a.field]? = some f := by
      obtain ⟨p', i', e', outer', c', hst', hl', hc', hf'⟩ := fieldAt_split hfa
      have hlen : outer'.length = outer.length := by omega
      rw [hst] at hst'
      obtain ⟨_, he⟩ := List.append_inj' hst' (by simp [hlen])
      cases he
      rw [hc] at hc'
      cases hc'
      exact hf'
    have hall : ∀ g ∈ c.fields, g.src.exclusive = false ∧ f.ident ∉ g.src.requires ∧ f.ident ∉ g.src.conflictsWith := by
      intro g hg
      obtain ⟨n, hn⟩ := List.mem_iff_getElem?.1 hg
      refine hu.2.2 ⟨a.level, a.struct, n⟩ g ?_ rfl rfl
      rw [hst, fieldAt_ext (by simp [hl])]
      simp [fieldAt, hl, hc, hn]
    refine ⟨hfc, fun g hg => (hall g hg).1, hu.1, hu.2.1, fun g hg => (hall g hg).2.1, fun g hg => (hall g hg).2.2, ?_⟩
    unfold unsetFail isRequired
    cases hx : f.defaultValue with
    | none => exact absurd hx hdef
    | some x =>
      cases hy : fieldOut f [] with
      | none => exact absurd hy hne
      | some y => simp

/-- C73: an option whose value is the one it has by default can be left out: the outcome is the same, be it a value, an error
or a help text. -/
theorem C73_long (hd : DerivedArgs cx d) (hpre : Reads cx (start argv0 d) pre evs ⟨st, k, .opts⟩) {n : Str}
    (hr : Resolves cx st (.long n) a f) (hk : f.kind ≠ .bool) (hdef : f.defaultValue ≠ none) (hne : fieldOut f [] ≠ none)
    (hv : fieldOut f [some v] = fieldOut f []) (hng : NotGiven cx ⟨st, k, .opts⟩ evs post a) (hu : Unconstrained st a f) :
    tryParseFrom d (argv0 :: (pre ++ (enc ('-' :: '-' :: n) ++ eqSign :: v) :: post)) = tryParseFrom d (argv0 :: (pre ++ post)) :=
  redundant (w := [_]) hd hpre (.step (.longEq hr ((stack_wf hd.wf (reads_steps hpre)).1.long hr).2 hk) .refl) (resolves_fieldAt hr)
    hdef hne hv hng hu

/-- C73: the same for the short form. -/
theorem C73_short (hd : DerivedArgs cx d) (hpre : Reads cx (start argv0 d) pre evs ⟨st, k, .opts⟩) {c : Char}
    (hr : Resolves cx st (.short c) a f) (ht : takesValue f = true) (hdef : f.defaultValue ≠ none) (hne : fieldOut f [] ≠ none)
    (hv : fieldOut f [some v] = fieldOut f []) (hng : NotGiven cx ⟨st, k, .opts⟩ evs post a) (hu : Unconstrained st a f) :
    tryParseFrom d (argv0 :: (pre ++ (dash :: (encChar c ++ eqSign :: v)) :: post)) = tryParseFrom d (argv0 :: (pre ++ post)) := by
  obtain ⟨hc1, hc2⟩ := (stack_wf hd.wf (reads_steps hpre)).1.short hr
  exact redundant (w := [_]) hd hpre (.step (.cluster (encChar_head_ne_dash hc1 _) (.eq hr ht)) .refl) (resolves_fieldAt hr)
    hdef hne hv hng hu

theorem default_same {s : Str} (hs : f.defaultValue = some (.parseStr s))
    (hi : f.src.ignoreCase = true → asciiLower (enc s) = enc s) : fieldOut f [some (enc s)] = fieldOut f [] := by
  have : normalise f (enc s) = enc s := by
    unfold normalise
    split
    · rename_i h; exact hi h
    · rfl
  simp [fieldOut, given, defaultContent, hs, this]

/-- C73: in particular an option with `default_value = "s"` can be given the value `s`, if `ignore_case` does not change it. -/
theorem C73_default_value_partial (hd : DerivedArgs cx d) (hpre : Reads cx (start argv0 d) pre evs ⟨st, k, .opts⟩) {n s : Str}
    (hr : Resolves cx st (.long n) a f) (hk : f.kind ≠ .bool) (hs : f.defaultValue = some (.parseStr s))
    (hne : fieldOut f [] ≠ none) (hi : f.src.ignoreCase = true → asciiLower (enc s) = enc s)
    (hng : NotGiven cx ⟨st, k, .opts⟩ evs post a) (hu : Unconstrained st a f) :
    tryParseFrom d (argv0 :: (pre ++ (enc ('-' :: '-' :: n) ++ eqSign :: enc s) :: post))
      = tryParseFrom d (argv0 :: (pre ++ post)) :=
  C73_long hd hpre hr hk (by rw [hs]; simp) hne (default_same hs hi) hng hu

namespace Sample

/-- `struct Conv { #[arg(long, ignore_case = true, default_value = "JSON")] format: Format }`. -/
def convDecls : List (FieldDecl Val) :=
  [.arg (lit "format") format { long := some .inherit, ignoreCase := true, defaultValue := some (lit "JSON") }]

def conv : ArgsDef Val := get (deriveArgs Sample.cx none convDecls)

theorem conv_derived : DerivedArgs Sample.cx conv := derived_leaf (by decide) (by decide)

end Sample

/-- C73: it is not so for a default with upper-case letters and `ignore_case`: `--format=JSON` is accepted, but the default
`JSON`, which is not converted to lower case, is not, and the program panics without the option. -/
theorem C73_ignore_case_default :
    DerivedArgs Sample.cx Sample.conv ∧ Sample.isOk (tryParseFrom Sample.conv [blit "app", blit "--format=JSON"]) = true
      ∧ Sample.failure (tryParseFrom Sample.conv [blit "app"]) = some .panic :=
  ⟨Sample.conv_derived, by decide +kernel, by decide +kernel⟩

namespace Sample

/-- `-v --jobs=1 -q` and `-v -q`. -/
example : tryParseFrom cli [blit "app", blit "-v", blit "--jobs=1", blit "-q"] = tryParseFrom cli [blit "app", blit "-v", blit "-q"] := by
  obtain ⟨f, hr, hp⟩ := resolve (fun f => decide (f.kind = .value) && decide (f.src.requires = []) && decide (f.src.conflictsWith = [])
      && !f.src.ignoreCase && decide (f.ident = lit "jobs")
      && (match f.defaultValue with | some (.parseStr s) => decide (s = lit "1") | _ => false) && (fieldOut f []).isSome)
    (st := [root]) (n := .long (lit "jobs")) (a := ⟨0, 0, 2⟩) (by decide +kernel)
  simp only [Bool.and_eq_true, decide_eq_true_eq, Bool.not_eq_true'] at hp
  obtain ⟨⟨⟨⟨⟨⟨hk, hq⟩, hc⟩, hi⟩, hid⟩, hdv⟩, hs⟩ := hp
  have hdef : f.defaultValue = some (.parseStr (lit "1")) := by
    split at hdv
    · rename_i s h
      simp only [decide_eq_true_eq] at hdv
      rw [h, hdv]
    · cases hdv
  have hquiet : Reads Sample.cx ⟨[root], 0, .opts⟩ [blit "-q"] [(⟨0, 1, 0⟩, none)] ⟨[root], 0, .opts⟩ := by
    obtain ⟨f, hr, hp⟩ := resolve (fun f => !takesValue f) (st := [root]) (n := .short 'q') (a := ⟨0, 1, 0⟩) (by decide +kernel)
    exact .cluster (b := encChar 'q') (evs := [_]) (by decide) (.bare hr (by simpa using hp)) .done
  refine C73_default_value_partial (pre := [blit "-v"]) (post := [blit "-q"]) (s := lit "1") cli_derived reads_v hr (by rw [hk]; decide)
    hdef (by intro h; rw [h] at hs; cases hs) (by rw [hi]; intro h; cases h) ⟨by decide, _, by decide, .inl ⟨_, hquiet⟩⟩ ⟨hq, hc, ?_⟩
  intro b g hb h1 h2
  have hm : ∀ g ∈ (coreOf cli).fields, g.src.exclusive = false ∧ lit "jobs" ∉ g.src.requires ∧ lit "jobs" ∉ g.src.conflictsWith := by
    decide +kernel
  rw [hid]
  refine hm g ?_
  obtain ⟨l, s, n⟩ := b
  simp only at h1 h2
  subst h1 h2
  have hs0 : (structs cli)[0]? = some (coreOf cli) := rfl
  simp only [fieldAt, List.length_nil, ↓reduceIte, hs0] at hb
  exact List.mem_of_getElem? hb

example : isOk (parse ["app", "-v", "--jobs=1", "-q"]) = true := by decide +kernel

end Sample

end Palc
