import Verif.Lemmas.Exchange
import Verif.Example
/-!
# Different spellings of the same thing (C01, C02, C03)
-/

namespace Palc

open Spec

variable {V : Type}

/-- C01: after any arguments `pre` that leave the parser recognising options, `--n=v` and `--n v` have the same
outcome, whatever follows. -/
theorem C01_long_inline_separate {cx : Cx V} {d : ArgsDef V} (hd : DerivedArgs cx d)
    {argv0 : Bytes} {pre : List Bytes} {evs : List Event} {st : List (Entry V)} {k : Nat}
    (hpre : Reads cx (start argv0 d) pre evs ⟨st, k, .opts⟩)
    {n : Str} {a : Addr} {f : FieldInfo V} (hr : Resolves cx st (.long n) a f)
    (ht : takesValue f = true) (hq : f.src.requireEquals = false)
    {v : Bytes} (hs : Standalone f v) (post : List Bytes) :
    tryParseFrom d (argv0 :: pre ++ (enc ('-' :: '-' :: n) ++ eqSign :: v) :: post)
      = tryParseFrom d (argv0 :: pre ++ enc ('-' :: '-' :: n) :: v :: post) := by
  have hwf := (stack_wf hd.wf (reads_steps hpre)).1
  obtain ⟨hne, hneq⟩ := hwf.long hr
  have hk : f.kind ≠ .bool := by intro h; simp [takesValue, h] at ht
  have hp := fun T => steps_append (reads_steps hpre) T
  exact outcome_ext hd.wf
    (steps_trans (hp _) (.step (.longEq hr hneq hk) .refl))
    (steps_trans (hp _) (.step (.longSep hr hneq hne ht hq hs) .refl))

/-- `app -v add --config=a=b ..` and `app -v add --config a=b ..`: the hypotheses hold for a global option used below a
subcommand. -/
example (post : List Bytes) :
    tryParseFrom Sample.cli (blit "app" :: [blit "-v", blit "add"] ++ blit "--config=a=b" :: post)
      = tryParseFrom Sample.cli (blit "app" :: [blit "-v", blit "add"] ++ blit "--config" :: blit "a=b" :: post) := by
  obtain ⟨f, hr, hp⟩ := Sample.resolve (fun f => takesValue f && !f.src.requireEquals)
    (st := [Sample.entry "Add" "add" Sample.add, Sample.root]) (n := .long (lit "config")) (a := ⟨0, 0, 1⟩) (by decide +kernel)
  simp only [Bool.and_eq_true, Bool.not_eq_true'] at hp
  exact C01_long_inline_separate Sample.cli_derived Sample.reads_add hr hp.1 hp.2
    (v := blit "a=b") (.inl (.inl (by decide))) post

example : Sample.value (Sample.parse ["app", "-v", "add", "--config=a=b", "x"]) ["config"]
    = some (.option (some (lit "a=b"))) := by decide +kernel

/-- C02: `-cV`, `-c=V` and `-c V` have the same outcome; the option may follow bundled flags `fl`. -/
theorem C02_short_attached_eq_separate {cx : Cx V} {d : ArgsDef V} (hd : DerivedArgs cx d)
    {argv0 : Bytes} {pre : List Bytes} {evs : List Event} {st : List (Entry V)} {k : Nat}
    (hpre : Reads cx (start argv0 d) pre evs ⟨st, k, .opts⟩)
    {fl : List Char} (hfl : ∀ x ∈ fl, PureFlag cx st x)
    {c : Char} {a : Addr} {f : FieldInfo V} (hr : Resolves cx st (.short c) a f)
    (ht : takesValue f = true) (hq : f.src.requireEquals = false) (v : Bytes) (post : List Bytes) :
    (v ≠ [] → v.head? ≠ some eqSign →
      tryParseFrom d (argv0 :: pre ++ (dash :: (enc fl ++ (encChar c ++ v))) :: post)
        = tryParseFrom d (argv0 :: pre ++ (dash :: (enc fl ++ (encChar c ++ eqSign :: v))) :: post))
    ∧ (Standalone f v →
      tryParseFrom d (argv0 :: pre ++ (dash :: (enc fl ++ (encChar c ++ eqSign :: v))) :: post)
        = tryParseFrom d (argv0 :: pre ++ (dash :: (enc fl ++ encChar c)) :: v :: post)) := by
  have hwf := (stack_wf hd.wf (reads_steps hpre)).1
  obtain ⟨hc1, hc2⟩ := hwf.short hr
  obtain ⟨evs0, h1, _⟩ := bundle_flags hwf hfl
  have hp := fun T => steps_append (reads_steps hpre) T
  have hdash : ∀ r, (enc fl ++ (encChar c ++ r)).head? ≠ some dash :=
    fun r => bundle_head hwf hfl (encChar_head_ne_dash hc1 r)
  have hdash0 : (enc fl ++ encChar c).head? ≠ some dash := by simpa using hdash []
  have heq : Steps cx ⟨st, k, .opts⟩ ((dash :: (enc fl ++ (encChar c ++ eqSign :: v))) :: post)
      ((evs0 ++ [(a, some v)]) ++ []) ⟨st, k, .opts⟩ post :=
    .step (.cluster (hdash _) (h1 (encChar_head_ne_eq hc2 _) (.eq hr ht))) .refl
  constructor
  · intro hne hhead
    exact outcome_ext hd.wf
      (steps_trans (hp _) (.step (.cluster (hdash _)
        (h1 (encChar_head_ne_eq hc2 _) (.attached hr ht hq hne hhead))) .refl))
      (steps_trans (hp _) heq)
  · intro hs
    refine outcome_ext hd.wf (steps_trans (hp _) heq)
      (steps_trans (hp _) (.step (.clusterSep hdash0
        (h1 ?_ (.sep hr ht hq rfl hs))) .refl))
    simpa using encChar_head_ne_eq hc2 []

/-- `-vcx`, `-vc=x` and `-vc x`. -/
example (post : List Bytes) :
    tryParseFrom Sample.cli (blit "app" :: [blit "-v", blit "add"] ++ blit "-vcx" :: post)
      = tryParseFrom Sample.cli (blit "app" :: [blit "-v", blit "add"] ++ blit "-vc=x" :: post)
    ∧ tryParseFrom Sample.cli (blit "app" :: [blit "-v", blit "add"] ++ blit "-vc=x" :: post)
      = tryParseFrom Sample.cli (blit "app" :: [blit "-v", blit "add"] ++ blit "-vc" :: blit "x" :: post) := by
  obtain ⟨f, hr, hp⟩ := Sample.resolve (fun f => takesValue f && !f.src.requireEquals)
    (st := [Sample.entry "Add" "add" Sample.add, Sample.root]) (n := .short 'c') (a := ⟨0, 0, 1⟩) (by decide +kernel)
  obtain ⟨g, hg, hq⟩ := Sample.resolve (fun f => !takesValue f && !f.src.requireEquals)
    (st := [Sample.entry "Add" "add" Sample.add, Sample.root]) (n := .short 'v') (a := ⟨0, 0, 0⟩) (by decide +kernel)
  simp only [Bool.and_eq_true, Bool.not_eq_true'] at hp hq
  have := C02_short_attached_eq_separate Sample.cli_derived Sample.reads_add (fl := ['v'])
    (by simp only [List.mem_singleton]; rintro _ rfl; exact ⟨_, _, hg, hq.1, hq.2⟩) hr hp.1 hp.2 (blit "x") post
  exact ⟨this.1 (by decide) (by decide), this.2 (.inl (.inl (by decide)))⟩

example : Sample.value (Sample.parse ["app", "-cx"]) ["config"] = some (.option (some (lit "x"))) := by decide +kernel

/-- C03: a flag followed by more in the same argument is the same as two arguments, whatever the rest is; the flag
may itself follow other bundled flags `fl`. -/
theorem C03_bundle_split {cx : Cx V} {d : ArgsDef V} (hd : DerivedArgs cx d)
    {argv0 : Bytes} {pre : List Bytes} {evs : List Event} {st : List (Entry V)} {k : Nat}
    (hpre : Reads cx (start argv0 d) pre evs ⟨st, k, .opts⟩)
    {fl : List Char} (hfl : ∀ x ∈ fl, PureFlag cx st x) (hne0 : fl ≠ [])
    {r : Bytes} (hne : r ≠ []) (heq : r.head? ≠ some eqSign) (hdash : r.head? ≠ some dash) (post : List Bytes) :
    tryParseFrom d (argv0 :: pre ++ (dash :: (enc fl ++ r)) :: post)
      = tryParseFrom d (argv0 :: pre ++ (dash :: enc fl) :: (dash :: r) :: post) := by
  have hwf := (stack_wf hd.wf (reads_steps hpre)).1
  -- all but the last flag
  obtain ⟨fl', c, rfl⟩ : ∃ fl' c, fl = fl' ++ [c] := ⟨_, _, (List.dropLast_concat_getLast hne0).symm⟩
  obtain ⟨evs0, h1, h2, _⟩ := bundle_flags hwf (fl := fl') (fun x hx => hfl x (by simp [hx]))
  obtain ⟨a, f, hr, ht, hq⟩ := hfl c (by simp)
  obtain ⟨hc1, hc2⟩ := hwf.short hr
  have henc : enc (fl' ++ [c]) = enc fl' ++ encChar c := by rw [enc_append, enc_cons, enc_nil, List.append_nil]
  have hd0 : (enc (fl' ++ [c])).head? ≠ some dash := by
    simpa using bundle_head hwf hfl (r := []) (by simp)
  have hd1 : (enc (fl' ++ [c]) ++ r).head? ≠ some dash := bundle_head hwf hfl hdash
  have hp := fun T => steps_append (reads_steps hpre) T
  have hfirst : ∀ next, Cluster cx st next (enc (fl' ++ [c])) (evs0 ++ [(a, none)]) false := by
    intro next
    rw [henc]
    exact h1 (by simpa using encChar_head_ne_eq hc2 []) (.bare hr ht)
  have hflag : Steps cx ⟨st, k, .opts⟩ ((dash :: enc (fl' ++ [c])) :: (dash :: r) :: post)
      ((evs0 ++ [(a, none)]) ++ []) ⟨st, k, .opts⟩ ((dash :: r) :: post) :=
    .step (.cluster hd0 (hfirst _)) .refl
  rw [List.append_nil] at hflag
  have hmore : ∀ {next evs' took}, Cluster cx st next r evs' took →
      Cluster cx st next (enc (fl' ++ [c]) ++ r) ((evs0 ++ [(a, none)]) ++ evs') took := by
    intro next evs' took hc
    rw [henc, List.append_assoc, List.append_assoc]
    exact h1 (encChar_head_ne_eq hc2 _) (.more hr ht hq hne heq hc)
  rcases reach hd.wf (reads_steps hpre) with ⟨ls, S⟩ | ⟨e, hb⟩
  · rcases cluster_progress cx st post.head? r hne with ⟨evs', hc⟩ | ⟨evs', v, hv, hc⟩ | ⟨evs', e, hc⟩
    · refine outcome_ext hd.wf (steps_trans (hp _) (.step (.cluster hd1 (hmore hc)) .refl))
        (steps_trans (hp _) ?_)
      rw [List.append_assoc]
      exact steps_trans hflag (.step (.cluster hdash hc) .refl)
    · obtain ⟨v', post', rfl⟩ : ∃ v' post', post = v' :: post' := by
        cases post with
        | nil => simp at hv
        | cons x y => exact ⟨x, y, rfl⟩
      refine outcome_ext hd.wf (steps_trans (hp _) (.step (.clusterSep hd1 (hmore hc)) .refl))
        (steps_trans (hp _) ?_)
      rw [List.append_assoc]
      exact steps_trans hflag (.step (.clusterSep hdash hc) .refl)
    · refine outcome_halts_ext hd.wf (evs := evs ++ ((evs0 ++ [(a, none)]) ++ evs')) (κ := ⟨st, k, .opts⟩) (e := e)
        ⟨evs, _, _, hp _, .cluster hd1 ?_, rfl⟩ ⟨_, _, _, steps_trans (hp _) hflag, .cluster hdash hc, ?_⟩
      · rw [henc, List.append_assoc, List.append_assoc]
        exact h2 (by simp [hne]) (encChar_head_ne_eq hc2 _) (.more hr ht hq hne heq hc)
      · simp only [List.append_assoc]
  · rw [List.cons_append, outcome_steps hd.wf (hp _) hb, List.cons_append, outcome_steps hd.wf (hp _) hb]

/-- `-vREST` and `-v -REST` below a subcommand, for any REST. -/
example (r : Bytes) (hne : r ≠ []) (heq : r.head? ≠ some eqSign) (hdash : r.head? ≠ some dash) (post : List Bytes) :
    tryParseFrom Sample.cli (blit "app" :: [blit "-v", blit "add"] ++ (blit "-v" ++ r) :: post)
      = tryParseFrom Sample.cli (blit "app" :: [blit "-v", blit "add"] ++ blit "-v" :: (dash :: r) :: post) := by
  obtain ⟨g, hg, hq⟩ := Sample.resolve (fun f => !takesValue f && !f.src.requireEquals)
    (st := [Sample.entry "Add" "add" Sample.add, Sample.root]) (n := .short 'v') (a := ⟨0, 0, 0⟩) (by decide +kernel)
  simp only [Bool.and_eq_true, Bool.not_eq_true'] at hq
  exact C03_bundle_split Sample.cli_derived Sample.reads_add (fl := ['v'])
    (by simp only [List.mem_singleton]; rintro _ rfl; exact ⟨_, _, hg, hq.1, hq.2⟩) (by simp) hne heq hdash post

example : Sample.value (Sample.parse ["app", "-vqcx"]) ["output", "quiet"] = some (.bool true) := by decide +kernel

end Palc
