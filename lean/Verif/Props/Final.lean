import Verif.Lemmas.Final
import Verif.Props.Errors
import Verif.Props.Constraints
/-!
# C67: what can and what cannot be repaired by further arguments
-/

namespace Palc

open Spec

variable {V : Type} {cx : Cx V} {d : ArgsDef V} {argv0 : Bytes} {toks : List Bytes} {e : Error} {out : Out V}

/-- C67: the parser reads from left to right.  An error that is neither about a constraint nor about a missing value is reported whatever
follows. -/
theorem C67_final (hd : DerivedArgs cx d) (h : tryParseFrom d (argv0 :: toks) = .error (.error e))
    (hk : e.kind ≠ .missingValue ∧ e.kind ≠ .missingRequiredArgument ∧ e.kind ≠ .missingRequiredSubcommand ∧ e.kind ≠ .constraintRequired
      ∧ e.kind ≠ .constraintExclusive ∧ e.kind ≠ .constraintConflict) (rest : List Bytes) :
    tryParseFrom d (argv0 :: toks ++ rest) = .error (.error e) := by
  refine (C23_rejects_iff hd argv0 (toks ++ rest) _).2 ?_
  have hc : e.kind.ofConstraint = false := by
    obtain ⟨_, h1, h2, h3, h4, h5⟩ := hk
    cases hk : e.kind <;> rw [hk] at h1 h2 h3 h4 h5 <;> first | rfl | exact absurd rfl ‹_›
  cases (C23_rejects_iff hd argv0 toks _).1 h with
  | value h hb => exact .value (steps_append h rest) hb
  | @valueStuck evs κ _ e' h hb =>
    obtain ⟨evs1, evs2, r, hs, hst, rfl⟩ := h
    cases rest with
    | nil => exact .valueStuck ⟨evs1, evs2, r, by simpa using hs, hst, rfl⟩ hb
    | cons v rest =>
      rcases stuck_append hst with h | ⟨_, a, f, _, _, h⟩
      · exact .valueStuck ⟨evs1, evs2, _, steps_append hs _, h v rest, rfl⟩ hb
      · by_cases hv : Standalone f v
        · refine .value (steps_trans (steps_append hs _) (.step ((h v).1 hv rest) .refl)) ?_
          simpa using firstBad_append hb [(a, some v)]
        · exact .valueStuck ⟨evs1, evs2, _, steps_append hs _, (h v).2 hv rest, rfl⟩ hb
  | stuck h ha =>
    obtain ⟨evs1, evs2, r, hs, hst, rfl⟩ := h
    cases rest with
    | nil => exact .stuck ⟨evs1, evs2, r, by simpa using hs, hst, rfl⟩ ha
    | cons v rest =>
      rcases stuck_append hst with h | ⟨_, _, _, _, rfl, _⟩
      · exact .stuck ⟨evs1, evs2, _, steps_append hs _, h v rest, rfl⟩ ha
      · exact absurd rfl hk.1
  | invalid _ _ hf =>
    have := allFail_kind hf
    simp only [Fail.ofConstraint] at this
    rw [hc] at this; cases this

/-- C67: an error about a missing value stays, whatever follows; or the arguments end with the option `f` the error is about, and the next
argument decides: if it can be the value of `f` it is, and parsing goes on after it; otherwise the error stays. -/
theorem C67_missing_value (hd : DerivedArgs cx d) (h : tryParseFrom d (argv0 :: toks) = .error (.error e)) (hk : e.kind = .missingValue) :
    (∀ rest, tryParseFrom d (argv0 :: toks ++ rest) = .error (.error e))
    ∨ ∃ evs κ a f, fieldAt κ.stack a = some f ∧ e.argDesc = some f.description
      ∧ ∀ v, (Standalone f v → After cx d argv0 (toks ++ [v]) (evs ++ [(a, some v)]) κ)
        ∧ (¬ Standalone f v → ∀ rest, tryParseFrom d (argv0 :: toks ++ v :: rest) = .error (.error e)) := by
  have hv : ¬ e.kind.ofValue = true := by rw [hk]; decide
  have hstay : ∀ {evs1 evs2 : List Event} {κ : Ctx V} {r : List Bytes}, Steps cx (start argv0 d) toks evs1 κ r →
      Acceptable κ.stack (evs1 ++ evs2) → ∀ {post}, Stuck cx κ (r ++ post) evs2 e →
      tryParseFrom d (argv0 :: toks ++ post) = .error (.error e) := by
    intro evs1 evs2 κ r hs ha post hst
    exact (C23_rejects_iff hd argv0 (toks ++ post) _).2 (.stuck ⟨evs1, evs2, _, steps_append hs _, hst, rfl⟩ ha)
  cases (C23_rejects_iff hd argv0 toks _).1 h with
  | value h hb => exact absurd (firstBad_kind hb) hv
  | valueStuck h hb => exact absurd (firstBad_kind hb) hv
  | @stuck _ κ _ h0 ha =>
    obtain ⟨evs1, evs2, r, hs, hst, rfl⟩ := h0
    rcases stuck_append hst with h1 | ⟨⟨t, rfl⟩, a, f, h1, rfl, h2⟩
    · left
      intro rest
      cases rest with
      | nil => simpa using h
      | cons v rest => exact hstay hs ha (h1 v rest)
    · refine .inr ⟨evs1 ++ evs2, κ, a, f, h1, rfl, fun v => ⟨fun hv => after_reads hd ?_, fun hv rest => hstay hs ha ((h2 v).2 hv rest)⟩⟩
      have := steps_reads (steps_append hs [v]) (step_reads ((h2 v).1 hv []) .done)
      simpa using this
  | invalid _ _ hf =>
    have := allFail_kind hf
    simp only [Fail.ofConstraint, hk] at this
    cases this

/-- C67: no further arguments make conflicting arguments acceptable. -/
theorem C67_conflict (hd : DerivedArgs cx d) (h : tryParseFrom d (argv0 :: toks) = .error (.error e))
    (hk : e.kind = .constraintConflict ∨ e.kind = .constraintExclusive) (rest : List Bytes) (out : Out V) :
    tryParseFrom d (argv0 :: toks ++ rest) ≠ .ok out := by
  intro hok
  obtain ⟨evs, κ, hr, _, pre, i, d', outer, k, c, hst, hc, hv, _⟩ :=
    C43_first_violation hd h (by rcases hk with hk | hk <;> simp [hk])
  obtain ⟨E, κ', hp⟩ := Parsed.of_ok hd (show tryParseFrom d (argv0 :: (toks ++ rest)) = .ok out from hok)
  have hs := steps_append (reads_steps hr) rest
  obtain ⟨evs', rfl, hr'⟩ := steps_reads_det hs hp.reads
  obtain ⟨ext, hext⟩ := steps_stack (reads_steps hr')
  have hat : ∀ {n : Nat} {f : FieldInfo V}, c.fields[n]? = some f → fieldAt κ'.stack ⟨outer.length, k, n⟩ = some f := by
    intro n f hf
    rw [hext, hst]
    exact fieldAt_ext_some (fieldAt_of_struct hc hf)
  have hocc : ∀ {n : Nat}, occs evs ⟨outer.length, k, n⟩ ≠ [] → ∃ w, ((⟨outer.length, k, n⟩ : Addr), w) ∈ evs ++ evs' := by
    intro n hn
    obtain ⟨w, hw⟩ := occs_ne_nil.1 hn
    exact ⟨w, List.mem_append_left _ hw⟩
  cases hv with
  | exclusive hf hg hx ho =>
    obtain ⟨w, hw⟩ := hocc hg
    obtain ⟨h1, h2⟩ := C20_exclusive_alone hp (hat hf) hx hw
    rcases ho with ho | ⟨j, g, _, hne, hj⟩
    · rw [Bool.and_eq_true, decide_eq_true_eq, decide_eq_true_eq] at ho
      have := h2 ho.2
      rw [hext, hst] at this
      have hl : pre.length ≠ 0 := by simpa using ho.1
      simp only [List.length_append, List.length_cons] at this
      omega
    · obtain ⟨u, hu⟩ := hocc hj
      exact hne (h1 j u hu)
  | requires => rcases hk with hk | hk <;> cases hk
  | conflict hf hg hj hx hn =>
    exact C18_conflicts_exclusive hp (hat hf) (hat hj) (.inl hx) ⟨hocc hg, hocc hn⟩
  | missing => rcases hk with hk | hk <;> cases hk
  | subcommand => rcases hk with hk | hk <;> cases hk

/-- C67: every beginning of an accepted command line is accepted, or fails because something is still missing: a value, an argument, a
subcommand. -/
theorem C67_prefix {rest : List Bytes} (hd : DerivedArgs cx d) (h : tryParseFrom d (argv0 :: toks ++ rest) = .ok out) :
    (∃ out', tryParseFrom d (argv0 :: toks) = .ok out')
    ∨ tryParseFrom d (argv0 :: toks) = .error .panic
    ∨ ∃ e, tryParseFrom d (argv0 :: toks) = .error (.error e)
        ∧ (e.kind = .missingValue ∨ e.kind = .missingRequiredArgument ∨ e.kind = .missingRequiredSubcommand
          ∨ e.kind = .constraintRequired) := by
  cases hp : tryParseFrom d (argv0 :: toks) with
  | ok out' => exact .inl ⟨out', rfl⟩
  | error x =>
    cases x with
    | panic => exact .inr (.inl rfl)
    | error e =>
      refine .inr (.inr ⟨e, rfl, ?_⟩)
      by_cases hc : e.kind = .constraintConflict ∨ e.kind = .constraintExclusive
      · exact absurd h (C67_conflict hd hp hc rest out)
      · refine Classical.byContradiction fun hn => ?_
        simp only [not_or] at hn hc
        rw [C67_final hd hp ⟨hn.1, hn.2.1, hn.2.2.1, hn.2.2.2, hc.2, hc.1⟩ rest] at h
        cases h

/-! ### Examples -/

/-- The rest does not matter after an unknown option. -/
example (rest : List Bytes) : tryParseFrom Sample.cli (blit "app" :: [blit "-v", blit "--nope=1"] ++ rest)
    = .error (.error { kind := .unknownNamedArgument, input := some (blit "--nope") }) :=
  C67_final Sample.cli_derived (Sample.fails ["app", "-v", "--nope=1"] (by decide +kernel)) (by simp) rest

/-- The same after a repeated option, although the bundle it is in ends with an option waiting for its value. -/
example (rest : List Bytes) : tryParseFrom Sample.cli (blit "app" :: [blit "-vvc"] ++ rest)
    = .error (.error { kind := .duplicatedNamedArgument, argDesc := some (lit "-v, --verbose") }) :=
  C67_final Sample.cli_derived (Sample.fails ["app", "-vvc"] (by decide +kernel)) (by simp) rest

/-- `--level` and `--offset` conflict, now and later. -/
example (rest : List Bytes) (out : Out Sample.Val) :
    tryParseFrom Sample.cli (blit "app" :: [blit "--offset", blit "1", blit "--level=2"] ++ rest) ≠ .ok out :=
  C67_conflict Sample.cli_derived
    (Sample.fails ["app", "--offset", "1", "--level=2"] (e := .error { kind := .constraintConflict, argDesc := some (lit "--offset <OFFSET>") })
      (by decide +kernel)) (.inl rfl) rest out

/-- `drop --all -s`: exclusive, now and later. -/
example (rest : List Bytes) (out : Out Sample.Val) :
    tryParseFrom Sample.cli (blit "app" :: [blit "drop", blit "--all", blit "-s"] ++ rest) ≠ .ok out :=
  C67_conflict Sample.cli_derived
    (Sample.fails ["app", "drop", "--all", "-s"] (e := .error { kind := .constraintExclusive, argDesc := some (lit "--all") })
      (by decide +kernel)) (.inr rfl) rest out

/-- `-vc` waits for a value: `x` is one, `-x` is not. -/
example : (Sample.failure (Sample.parse ["app", "-vc"])).map Fail.kind? = some (some .missingValue)
    ∧ Sample.failure (Sample.parse ["app", "-vc", "x"]) = none
    ∧ Sample.failure (Sample.parse ["app", "-vc", "-x"]) = Sample.failure (Sample.parse ["app", "-vc"]) := by decide +kernel

/-- A missing value that stays missing: the argument after `-c` is already there. -/
example : (Sample.failure (Sample.parse ["app", "-c", "-v"])).map Fail.kind? = some (some .missingValue) := by decide +kernel

/-- The beginnings of `run x` and `--pattern p -c x`: something is missing. -/
example : (Sample.failure (Sample.parse ["app", "run", "x"])) = none
    ∧ (Sample.failure (Sample.parse ["app", "run"])).map Fail.kind? = some (some .missingRequiredArgument)
    ∧ (Sample.failure (Sample.parse ["app", "--pattern", "p", "-c", "x"])) = none
    ∧ (Sample.failure (Sample.parse ["app", "--pattern", "p", "-c"])).map Fail.kind? = some (some .missingValue)
    ∧ (Sample.failure (Sample.parse ["app", "--pattern", "p"])).map Fail.kind? = some (some .constraintRequired) := by decide +kernel

end Palc
