import Verif.Lemmas.Local
import Verif.Lemmas.After
import Verif.Example
/-!
# Values only influence their own argument (C76)
-/

namespace Palc

open Spec

variable {V : Type} {cx : Cx V} {d : ArgsDef V} {argv0 : Bytes} {evs : List Event} {κ κ' : Ctx V}

/-- C76: let arguments be replaced by others that are read as the same occurrences, except for some values which are acceptable before
and after.  Then the parser fails as before, with the same error, or it succeeds as before, enters the same commands, and every argument
whose values have not been replaced has the value it had before. -/
theorem C76_local (hd : DerivedArgs cx d) {pre xs xs' : List Bytes} {ex ex' : List Event} (hpre : Reads cx (start argv0 d) pre evs κ)
    (hx : Reads cx κ xs ex κ') (hx' : Reads cx κ xs' ex' κ') (h : AllRevalued κ'.stack ex ex') (post : List Bytes) :
    (∃ x, tryParseFrom d (argv0 :: (pre ++ xs ++ post)) = .error x ∧ tryParseFrom d (argv0 :: (pre ++ xs' ++ post)) = .error x)
    ∨ ∃ E κ'' out out', Parsed cx d argv0 (pre ++ xs ++ post) (evs ++ ex ++ E) κ'' out
      ∧ Parsed cx d argv0 (pre ++ xs' ++ post) (evs ++ ex' ++ E) κ'' out'
      ∧ ∀ (b : Addr) (g : FieldInfo V), fieldAt κ''.stack b = some g → occs ex b = occs ex' b →
        outAt κ''.stack out' b = outAt κ''.stack out b := by
  have h1 := reads_append hpre hx
  have h2 := reads_append hpre hx'
  rcases outcome_revalued hd.wf (steps_append (reads_steps h1) post) (steps_append (reads_steps h2) post)
    ((AllRevalued.refl evs).append h) with hf | ⟨E, κ'', out, out', hr, ho, ho'⟩
  · exact .inl hf
  · have p1 : Parsed cx d argv0 (pre ++ xs ++ post) (evs ++ ex ++ E) κ'' out := ⟨hd, reads_append h1 hr, ho⟩
    have p2 : Parsed cx d argv0 (pre ++ xs' ++ post) (evs ++ ex' ++ E) κ'' out' := ⟨hd, reads_append h2 hr, ho'⟩
    refine .inr ⟨E, κ'', out, out', p1, p2, fun b g hb he => ?_⟩
    obtain ⟨w, hw, hv⟩ := p1.field hb
    obtain ⟨w', hw', hv'⟩ := p2.field hb
    have : occs (evs ++ ex ++ E) b = occs (evs ++ ex' ++ E) b := by simp only [occs_append, he]
    rw [this, hw'] at hw
    cases hw
    rw [hv, hv']

/-- C76: in particular the value of an option after `=`. -/
theorem C76_long (hd : DerivedArgs cx d) {pre : List Bytes} {st : List (Entry V)} {k : Nat}
    (hpre : Reads cx (start argv0 d) pre evs ⟨st, k, .opts⟩) {n : Str} {a : Addr} {f : FieldInfo V} {v v' : Bytes}
    (hr : Resolves cx st (.long n) a f) (hn : '=' ∉ n) (hv : ValidValue f v) (hv' : ValidValue f v') (post : List Bytes) :
    (∃ x, tryParseFrom d (argv0 :: (pre ++ [enc ('-' :: '-' :: n) ++ eqSign :: v] ++ post)) = .error x
      ∧ tryParseFrom d (argv0 :: (pre ++ [enc ('-' :: '-' :: n) ++ eqSign :: v'] ++ post)) = .error x)
    ∨ ∃ E κ'' out out', Parsed cx d argv0 (pre ++ [enc ('-' :: '-' :: n) ++ eqSign :: v] ++ post) (evs ++ [(a, some v)] ++ E) κ'' out
      ∧ Parsed cx d argv0 (pre ++ [enc ('-' :: '-' :: n) ++ eqSign :: v'] ++ post) (evs ++ [(a, some v')] ++ E) κ'' out'
      ∧ ∀ (b : Addr) (g : FieldInfo V), fieldAt κ''.stack b = some g → b ≠ a → outAt κ''.stack out' b = outAt κ''.stack out b := by
  have hk : f.kind ≠ .bool := fun hk => hv (by simp [given, content, hk])
  rcases C76_local hd hpre (.longEq hr hn hk .done) (.longEq hr hn hk .done) (.cons (.value (resolves_fieldAt hr) hv hv') .nil) post
    with hf | ⟨E, κ'', out, out', h1, h2, h3⟩
  · exact .inl hf
  · refine .inr ⟨E, κ'', out, out', h1, h2, fun b g hb hne => h3 b g hb ?_⟩
    rw [occs_single, occs_single, if_neg hne, if_neg hne]

/-- `--jobs=3 ..` and `--jobs=4 ..`, whatever follows: the same error, or the same values of all arguments but `jobs`. -/
example (post : List Bytes) :
    (∃ x, tryParseFrom Sample.cli (blit "app" :: ([] ++ [blit "--jobs=3"] ++ post)) = .error x
      ∧ tryParseFrom Sample.cli (blit "app" :: ([] ++ [blit "--jobs=4"] ++ post)) = .error x)
    ∨ ∃ E κ'' out out', Parsed Sample.cx Sample.cli (blit "app") ([] ++ [blit "--jobs=3"] ++ post) ([] ++ [(⟨0, 0, 2⟩, some (blit "3"))] ++ E) κ'' out
      ∧ Parsed Sample.cx Sample.cli (blit "app") ([] ++ [blit "--jobs=4"] ++ post) ([] ++ [(⟨0, 0, 2⟩, some (blit "4"))] ++ E) κ'' out'
      ∧ ∀ (b : Addr) (g : FieldInfo Sample.Val), fieldAt κ''.stack b = some g → b ≠ ⟨0, 0, 2⟩ →
        outAt κ''.stack out' b = outAt κ''.stack out b := by
  have h0 : Reads Sample.cx (start (blit "app") Sample.cli) [] [] ⟨[Sample.root], 0, .opts⟩ := by rw [Sample.start_app]; exact .done
  obtain ⟨f, hr, hp⟩ := Sample.resolve (fun f => (given f [some (blit "3")]).isSome && (given f [some (blit "4")]).isSome)
    (st := [Sample.root]) (n := .long (lit "jobs")) (a := ⟨0, 0, 2⟩) (by decide +kernel)
  simp only [Bool.and_eq_true, Option.isSome_iff_ne_none] at hp
  exact C76_long Sample.cli_derived h0 hr (by decide) hp.1 hp.2 post

example : Sample.failure (Sample.parse ["app", "--jobs=3", "add"]) = Sample.failure (Sample.parse ["app", "--jobs=4", "add"])
    ∧ (Sample.failure (Sample.parse ["app", "--jobs=3", "add"])).isSome = true
    ∧ Sample.isOk (Sample.parse ["app", "--jobs=3", "add", "p"]) = true
    ∧ Sample.isOk (Sample.parse ["app", "--jobs=4", "add", "p"]) = true := by decide +kernel

/-- C76: … and a positional argument, as long as it looks neither like an option nor like a subcommand. -/
theorem C76_positional (hd : DerivedArgs cx d) {pre : List Bytes} {i : CmdId} {e : ArgsDef V} {st : List (Entry V)} {k : Nat}
    (hpre : Reads cx (start argv0 d) pre evs ⟨(i, e) :: st, k, .opts⟩) {x : FieldInfo V × Nat} {v v' : Bytes}
    (hx : posTarget e k = some x) (hp : Plain v) (hp' : Plain v') (hs : ∀ w ∈ subVariants e, enc w.name ≠ v)
    (hs' : ∀ w ∈ subVariants e, enc w.name ≠ v') (hv : ValidValue x.1 v) (hv' : ValidValue x.1 v') (post : List Bytes) :
    (∃ y, tryParseFrom d (argv0 :: (pre ++ [v] ++ post)) = .error y ∧ tryParseFrom d (argv0 :: (pre ++ [v'] ++ post)) = .error y)
    ∨ ∃ E κ'' out out', Parsed cx d argv0 (pre ++ [v] ++ post) (evs ++ [(⟨st.length, 0, x.2⟩, some v)] ++ E) κ'' out
      ∧ Parsed cx d argv0 (pre ++ [v'] ++ post) (evs ++ [(⟨st.length, 0, x.2⟩, some v')] ++ E) κ'' out'
      ∧ ∀ (b : Addr) (g : FieldInfo V), fieldAt κ''.stack b = some g → b ≠ ⟨st.length, 0, x.2⟩ →
        outAt κ''.stack out' b = outAt κ''.stack out b := by
  have hf : fieldAt ((i, e) :: st) ⟨st.length, 0, x.2⟩ = some x.1 := fieldAt_main (posTarget_field hx).2.2
  rcases C76_local hd hpre (.positional hp hs hx .done) (.positional hp' hs' hx .done) (.cons (.value hf hv hv') .nil) post
    with hf | ⟨E, κ'', out, out', h1, h2, h3⟩
  · exact .inl hf
  · refine .inr ⟨E, κ'', out, out', h1, h2, fun b g hb hne => h3 b g hb ?_⟩
    rw [occs_single, occs_single, if_neg hne, if_neg hne]

/-- The file in `app a ..` and `app b ..`. -/
example (post : List Bytes) : ∃ a,
    (∃ y, tryParseFrom Sample.cli (blit "app" :: ([] ++ [blit "a"] ++ post)) = .error y
      ∧ tryParseFrom Sample.cli (blit "app" :: ([] ++ [blit "b"] ++ post)) = .error y)
    ∨ ∃ E κ'' out out', Parsed Sample.cx Sample.cli (blit "app") ([] ++ [blit "a"] ++ post) ([] ++ [(a, some (blit "a"))] ++ E) κ'' out
      ∧ Parsed Sample.cx Sample.cli (blit "app") ([] ++ [blit "b"] ++ post) ([] ++ [(a, some (blit "b"))] ++ E) κ'' out'
      ∧ ∀ (b : Addr) (g : FieldInfo Sample.Val), fieldAt κ''.stack b = some g → b ≠ a →
        outAt κ''.stack out' b = outAt κ''.stack out b := by
  have h0 : Reads Sample.cx (start (blit "app") Sample.cli) [] [] ⟨[Sample.root], 0, .opts⟩ := by rw [Sample.start_app]; exact .done
  have hx : (posTarget Sample.cli 0).any (fun x => (given x.1 [some (blit "a")]).isSome && (given x.1 [some (blit "b")]).isSome) = true := by
    decide +kernel
  cases hp : posTarget Sample.cli 0 with
  | none => rw [hp] at hx; cases hx
  | some x =>
    rw [hp] at hx
    simp only [Option.any_some, Bool.and_eq_true, Option.isSome_iff_ne_none] at hx
    exact ⟨_, C76_positional Sample.cli_derived h0 hp (.inl (by decide)) (.inl (by decide)) (by decide) (by decide) hx.1 hx.2 post⟩

/-- C76: an unacceptable value of an option is reported as such, whatever follows (if nothing was wrong before it). -/
theorem C76_invalid (hd : DerivedArgs cx d) {pre : List Bytes} {st : List (Entry V)} {k : Nat}
    (hpre : Reads cx (start argv0 d) pre evs ⟨st, k, .opts⟩) (hacc : Acceptable st evs) {n : Str} {a : Addr} {f : FieldInfo V} {v : Bytes}
    (hr : Resolves cx st (.long n) a f) (hn : '=' ∉ n) (hk : f.kind ≠ .bool) (ho : occs evs a = [] ∨ isMulti f = true)
    (hv : ¬ ValidValue f v) :
    ∃ e, e.kind = .invalidValue ∧ e.argDesc = some f.description
      ∧ ∀ post, tryParseFrom d (argv0 :: (pre ++ [enc ('-' :: '-' :: n) ++ eqSign :: v] ++ post)) = .error (.error e) := by
  have hf := resolves_fieldAt hr
  have ho' : isOption f = true := by
    have := List.find?_some hr
    simp only [declares, Bool.and_eq_true] at this
    exact this.1
  have h1 := reads_append hpre (.longEq (v := v) hr hn hk .done)
  have hna : ¬ Acceptable st (evs ++ [(a, some v)]) := by
    intro ha
    have := ha a f hf
    rw [occs_append, occs_single, if_pos rfl] at this
    rcases ho with ho | hm
    · rw [ho] at this; exact hv this
    · exact hv ((given_multi_ne hm _).1 this _ (by simp))
  rcases steps_sound (reads_steps h1) (root_sim hd.wf argv0) with ⟨ls, S, _⟩ | ⟨e, _, hb⟩
  · exact absurd S.given_ne (by simpa using hna)
  · have hout := fun post => outcome_steps hd.wf (steps_append (reads_steps h1) post) hb
    obtain ⟨p, b, o, q, g, e0, heq, hg, hac, hbad, rfl⟩ := hb
    rw [List.nil_append] at hac hbad
    have hq : q = [] ∧ p = evs ∧ b = a ∧ o = some v := by
      rcases List.eq_nil_or_concat q with rfl | ⟨q', z, rfl⟩
      · have := List.append_inj' (s₁ := evs) (s₂ := p) heq rfl
        simp only [List.cons.injEq, Prod.mk.injEq, and_true] at this
        exact ⟨rfl, this.1.symm, this.2.1.symm, this.2.2.symm⟩
      · exfalso
        have h2 : evs ++ [(a, some v)] = (p ++ (b, o) :: q') ++ [z] := by simpa using heq
        have h3 := (List.append_inj' h2 rfl).1
        have h4 := hacc b g hg
        rw [h3] at h4
        rw [occs_append, occs_cons, if_pos rfl] at h4
        exact h4 (by simpa using hbad.given_none (occs q' b))
    obtain ⟨rfl, rfl, rfl, rfl⟩ := hq
    rw [show (⟨st, k, Mode.opts⟩ : Ctx V).stack = st from rfl, hf] at hg
    cases hg
    refine ⟨about f e0, ?_, by simp [about, ho'], fun post => hout post⟩
    have hk0 : (about f e0).kind = e0.kind := by simp [about, ho']
    rw [hk0]
    cases hbad with
    | flagValue hb => exact absurd hb hk
    | duplicate hm _ hne =>
      rcases ho with ho | h
      · exact absurd ho hne
      · rw [hm] at h; cases h
    | invalid _ _ _ hp => exact (parse_kind hp).1
    | piece _ _ _ hp => exact (parse_kind hp).1

/-- `--jobs=x ..` is an error whatever follows. -/
example : ∃ e, e.kind = .invalidValue
    ∧ ∀ post, tryParseFrom Sample.cli (blit "app" :: ([] ++ [blit "--jobs=x"] ++ post)) = .error (.error e) := by
  have h0 : Reads Sample.cx (start (blit "app") Sample.cli) [] [] ⟨[Sample.root], 0, .opts⟩ := by rw [Sample.start_app]; exact .done
  obtain ⟨f, hr, hp⟩ := Sample.resolve (fun f => (given f [some (blit "x")]).isNone && decide (f.kind ≠ .bool))
    (st := [Sample.root]) (n := .long (lit "jobs")) (a := ⟨0, 0, 2⟩) (by decide +kernel)
  simp only [Bool.and_eq_true, Option.isNone_iff_eq_none, decide_eq_true_eq] at hp
  obtain ⟨e, h1, _, h2⟩ := C76_invalid Sample.cli_derived h0 (fun a f _ => by simp [occs, given, content]) hr (by decide) hp.2 (.inl rfl)
    (v := blit "x") (fun h => h hp.1)
  exact ⟨e, h1, h2⟩

end Palc
