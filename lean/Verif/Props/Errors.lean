import Verif.Lemmas.Violate
import Verif.Props.Language
import Verif.Props.ValueProps
/-!
# What errors are about and which one is reported (C26, C40, C43)
-/

namespace Palc

open Spec

variable {V : Type} {cx : Cx V} {d : ArgsDef V} {argv0 : Bytes} {toks : List Bytes} {evs : List Event} {κ : Ctx V}
  {out : Out V} {e : Error}

theorem parse_argDesc {p : ValueParser V} {v : Bytes} (h : p.parse v = .error e) : e.argDesc = none := by
  cases p with
  | valueEnum d =>
    simp only [ValueParser.parse] at h
    split at h
    · split at h
      · cases h
      · cases h; rfl
    · cases h; rfl
  | tryFromOsStr f =>
    simp only [ValueParser.parse] at h
    split at h
    · cases h
    · cases h; rfl
  | fromStr f =>
    simp only [ValueParser.parse] at h
    split at h
    · split at h
      · cases h
      · cases h; rfl
    · cases h; rfl

/-- The kind of a failure, if it is an error. -/
def Fail.kind? : Fail → Option ErrorKind
  | .error e => some e.kind
  | .panic => none

/-! ## C43 -/

theorem clusterStuck_kind {st : List (Entry V)} {next : Option Bytes} {b : Bytes} (h : ClusterStuck cx st next b evs e) :
    e.kind.ofConstraint = false ∧ e.kind ≠ .invalidValue ∧ e.kind ≠ .duplicatedNamedArgument := by
  induction h with
  | more _ _ _ _ _ _ ih => exact ih
  | unknown | help | invalid | optionalValue => simp [unexpected, helpRequest, ErrorKind.ofConstraint]
  | missingEqAttached | missingEq | missingValue | flagValue => simp [about_kind, ErrorKind.ofConstraint]

theorem stuck_kind {κ : Ctx V} (h : Stuck cx κ toks evs e) :
    e.kind.ofConstraint = false ∧ e.kind ≠ .invalidValue ∧ e.kind ≠ .duplicatedNamedArgument := by
  cases h with
  | longUnknown | longHelp => simp [unexpected, helpRequest, ErrorKind.ofConstraint]
  | flagValue | missingEq | missingValue => simp [about_kind, ErrorKind.ofConstraint]
  | cluster _ hc => exact clusterStuck_kind hc
  | surplus _ _ _ => unfold surplus; split <;> simp [ErrorKind.ofConstraint]
  | dashed _ _ => unfold surplus; split <;> simp [ErrorKind.ofConstraint]

theorem ofValue_not_constraint {k : ErrorKind} (h : k.ofValue = true) : k.ofConstraint = false := by
  cases k <;> simp [ErrorKind.ofValue, ErrorKind.ofConstraint] at h ⊢

/-- C43: an error about a constraint is reported only if the whole command line could be read and all values are acceptable;
it is about the innermost command having a violation: everything holds for all commands inside it; and about the first
struct of this command in the order "flattened before containing": everything holds for all structs before it.  Within
the struct, missing arguments are reported only if the constraints on the given ones hold, and a missing subcommand only
if all constraints of the struct hold (`Violates`). -/
theorem C43_first_violation (hd : DerivedArgs cx d)
    (h : tryParseFrom d (argv0 :: toks) = .error (.error e))
    (hk : e.kind = .missingRequiredArgument ∨ e.kind = .missingRequiredSubcommand ∨ e.kind = .constraintRequired
      ∨ e.kind = .constraintExclusive ∨ e.kind = .constraintConflict) :
    ∃ (evs : List Event) (κ : Ctx V), Reads cx (start argv0 d) toks evs κ ∧ Acceptable κ.stack evs
    ∧ ∃ (pre : List (Entry V)) (i : CmdId) (d' : ArgsDef V) (outer : List (Entry V)) (k : Nat) (c : Core V),
      κ.stack = pre ++ (i, d') :: outer ∧ (structs d')[k]? = some c
      ∧ Violates c (fun n => occs evs ⟨outer.length, k, n⟩) (decide (pre ≠ []) && decide (k = 0)) (subRequired d' && decide (k = 0)) e
      ∧ (∀ (j : Nat) (c' : Core V), (structs d')[j]? = some c' → Before d' j k →
          StructOk c' (fun n => occs evs ⟨outer.length, j, n⟩) (decide (pre ≠ []) && decide (j = 0)))
      ∧ ∀ (pre' : List (Entry V)) (i' : CmdId) (d'' : ArgsDef V) (mid : List (Entry V)), pre = pre' ++ (i', d'') :: mid →
          (∀ (j : Nat) (c' : Core V), (structs d'')[j]? = some c' →
            StructOk c' (fun n => occs evs ⟨(mid ++ (i, d') :: outer).length, j, n⟩) (decide (pre' ≠ []) && decide (j = 0)))
          ∧ (subRequired d'' = true → pre' ≠ []) := by
  have hc : e.kind.ofConstraint = true := by rcases hk with hk | hk | hk | hk | hk <;> rw [hk] <;> rfl
  have hsub : ∀ pre : List (Entry V), (if pre = [] then false else true) = decide (pre ≠ []) := by
    intro pre; cases pre <;> rfl
  have hrej := (C23_rejects_iff hd argv0 toks _).1 h
  cases hrej with
  | value _ hb => rw [ofValue_not_constraint (firstBad_kind hb)] at hc; cases hc
  | valueStuck _ hb => rw [ofValue_not_constraint (firstBad_kind hb)] at hc; cases hc
  | stuck hh _ =>
    obtain ⟨_, _, _, _, hs, _⟩ := hh
    rw [(stuck_kind hs).1] at hc; cases hc
  | @invalid evs κ _ hr ha hf =>
    refine ⟨evs, κ, hr, ha, ?_⟩
    obtain ⟨pre, i, d', outer, k, c, h1, h2, h3, h4, h5⟩ := allFail_some (stack_wf hd.wf (reads_steps hr)).1 hf
    refine ⟨pre, i, d', outer, k, c, h1, h2, ?_, ?_, ?_⟩
    · cases h3 with
      | error h3 => rw [hsub] at h3; exact h3
    · intro j c' hj hb
      have := (h4 j c' hj hb).1
      rw [hsub] at this; exact this
    · intro pre' i' d'' mid he
      obtain ⟨q1, q2⟩ := h5 pre' i' d'' mid he
      rw [hsub] at q2
      refine ⟨fun j c' hj => ?_, fun hs => by simpa using q2 hs⟩
      have := (q1 j c' hj).1
      rw [hsub] at this; exact this

/-- C43: if an argument cannot be read, or a value is not acceptable, the error is not about a constraint, whatever constraints
are violated. -/
theorem C43_reading_first (hd : DerivedArgs cx d)
    (h : (∃ evs κ e, Halts cx (start argv0 d) toks evs κ e)
      ∨ ∃ evs κ rest, Steps cx (start argv0 d) toks evs κ rest ∧ ¬ Acceptable κ.stack evs) :
    ∃ e, tryParseFrom d (argv0 :: toks) = .error (.error e) ∧ e.kind ≠ .missingRequiredArgument
      ∧ e.kind ≠ .missingRequiredSubcommand ∧ e.kind ≠ .constraintRequired ∧ e.kind ≠ .constraintExclusive
      ∧ e.kind ≠ .constraintConflict := by
  have key : ∃ e, tryParseFrom d (argv0 :: toks) = .error (.error e) ∧ e.kind.ofConstraint = false := by
    rcases h with ⟨evs, κ, e, h⟩ | ⟨evs, κ, rest, h, hb⟩
    · rcases outcome_halts hd.wf h with ⟨_, h2⟩ | ⟨e', h1, h2⟩
      · obtain ⟨_, _, _, _, hs, _⟩ := h
        exact ⟨e, h2, (stuck_kind hs).1⟩
      · exact ⟨e', h2, ofValue_not_constraint (firstBad_kind h1)⟩
    · rcases reach hd.wf h with ⟨ls, S⟩ | ⟨e', h1⟩
      · exact absurd S.given_ne hb
      · exact ⟨e', outcome_steps hd.wf h h1, ofValue_not_constraint (firstBad_kind h1)⟩
  obtain ⟨e, h1, h2⟩ := key
  refine ⟨e, h1, ?_⟩
  cases hk : e.kind <;> rw [hk] at h2 <;> simp [ErrorKind.ofConstraint] at h2 ⊢

/-- The outer command violates a conflict, the inner one misses a required argument: the inner one is reported.  Alone, the
outer one is. -/
example : (Sample.failure (Sample.parse ["app", "--offset", "1", "--level=2", "add"])).map Fail.kind?
      = some (some .missingRequiredArgument)
    ∧ (Sample.failure (Sample.parse ["app", "--offset", "1", "--level=2", "add", "x"])).map Fail.kind?
      = some (some .constraintConflict)
    ∧ (Sample.failure (Sample.parse ["app", "--offset", "1", "--level=2", "add", "--nope"])).map Fail.kind?
      = some (some .unknownNamedArgument) := by decide +kernel

/-! ## C26 -/

/-- An argument mentions an option: as `--name…` or as one of the characters of a cluster. -/
def Mentions (n : Name) (tok : Bytes) : Prop :=
  match n with
  | .long s => enc ('-' :: '-' :: s) <+: tok
  | .short c => ∃ p r, tok = dash :: (p ++ encChar c ++ r)

theorem clusterStuck_about {st : List (Entry V)} {next : Option Bytes} {b : Bytes} (h : ClusterStuck cx st next b evs e)
    (hk : e.kind = .missingValue ∨ e.kind = .missingEq ∨ e.kind = .unexpectedInlineValue) :
    ∃ c a f, Resolves cx st (.short c) a f ∧ (∃ p r, b = p ++ encChar c ++ r) ∧ e.argDesc = some f.description := by
  have hopt : ∀ {n : Name} {a : Addr} {f : FieldInfo V} (e0 : Error), Resolves cx st n a f →
      (about f e0).argDesc = some f.description := by
    intro n a f e0 hr
    rw [about, if_pos (resolves_option hr)]
  induction h with
  | @more c a f rest evs e hr ht hq hne heq h ih =>
    obtain ⟨c', a', f', h1, ⟨p, r, rfl⟩, h3⟩ := ih hk
    exact ⟨c', a', f', h1, ⟨encChar c ++ p, r, by simp⟩, h3⟩
  | unknown | help | invalid | optionalValue =>
    simp [unexpected, helpRequest] at hk
  | missingEqAttached hr | missingEq hr | missingValue hr =>
    exact ⟨_, _, _, hr, ⟨[], _, by simp <;> rfl⟩, hopt _ hr⟩
  | flagValue hr => exact ⟨_, _, _, hr, ⟨[], _, by simp <;> rfl⟩, hopt _ hr⟩

theorem cluster_values {st : List (Entry V)} {next : Option Bytes} {b : Bytes} {took : Bool} (h : Cluster cx st next b evs took) :
    ∀ x ∈ evs, ∃ f, fieldAt st x.1 = some f ∧ (x.2 ≠ none → f.kind ≠ .bool) := by
  have ht : ∀ {f : FieldInfo V}, takesValue f = true → f.kind ≠ .bool := by
    intro f h hk; simp [takesValue, hk] at h
  induction h with
  | bare hr => intro x hx; rw [List.mem_singleton] at hx; subst hx; exact ⟨_, resolves_fieldAt hr, by simp⟩
  | eq hr h | attached hr h | sep hr h =>
    intro x hx; rw [List.mem_singleton] at hx; subst hx; exact ⟨_, resolves_fieldAt hr, fun _ => ht h⟩
  | more hr _ _ _ _ _ ih =>
    intro x hx
    rcases List.mem_cons.1 hx with rfl | hx
    · exact ⟨_, resolves_fieldAt hr, by simp⟩
    · exact ih x hx

theorem clusterStuck_values {st : List (Entry V)} {next : Option Bytes} {b : Bytes} (h : ClusterStuck cx st next b evs e) :
    ∀ x ∈ evs, ∃ f, fieldAt st x.1 = some f ∧ (x.2 ≠ none → f.kind ≠ .bool) := by
  induction h with
  | more hr _ _ _ _ _ ih =>
    intro x hx
    rcases List.mem_cons.1 hx with rfl | hx
    · exact ⟨_, resolves_fieldAt hr, by simp⟩
    · exact ih x hx
  | optionalValue hr hk =>
    intro x hx; rw [List.mem_singleton] at hx; subst hx; exact ⟨_, resolves_fieldAt hr, fun _ => by rw [hk]; simp⟩
  | _ => simp

/-- No option that is a flag is recorded with a value. -/
theorem step_values {κ κ1 : Ctx V} {rest : List Bytes} (h : Step cx κ toks evs κ1 rest) (hm : ModeOk κ) :
    ∀ x ∈ evs, ∃ f, fieldAt κ.stack x.1 = some f ∧ (x.2 ≠ none → isOption f = true → f.kind ≠ .bool) := by
  have htv : ∀ {f : FieldInfo V}, takesValue f = true → f.kind ≠ .bool := by
    intro f h hk; simp [takesValue, hk] at h
  intro x hx
  cases h with
  | longEq hr hn ht => rw [List.mem_singleton] at hx; subst hx; exact ⟨_, resolves_fieldAt hr, fun _ _ => ht⟩
  | longBare hr => rw [List.mem_singleton] at hx; subst hx; exact ⟨_, resolves_fieldAt hr, by simp⟩
  | longSep hr hn hne ht => rw [List.mem_singleton] at hx; subst hx; exact ⟨_, resolves_fieldAt hr, fun _ _ => htv ht⟩
  | cluster hb hc | clusterSep hb hc =>
    obtain ⟨f, h1, h2⟩ := cluster_values hc x hx
    exact ⟨f, h1, fun h _ => h2 h⟩
  | sub | dashdash => simp at hx
  | positional hp hns ht =>
    rw [List.mem_singleton] at hx; subst hx
    exact ⟨_, fieldAt_main (posTarget_field ht).2.2, fun _ ho => by rw [(posTarget_field ht).2.1] at ho; cases ho⟩
  | dashed hl ht =>
    rw [List.mem_singleton] at hx; subst hx
    exact ⟨_, fieldAt_main (posTarget_field ht).2.2, fun _ ho => by rw [(posTarget_field ht).2.1] at ho; cases ho⟩
  | last ht =>
    rw [List.mem_singleton] at hx; subst hx
    exact ⟨_, fieldAt_main (lastArg_field ht).2.2, fun _ ho => by rw [(lastArg_field ht).2.1] at ho; cases ho⟩
  | trailing =>
    rw [List.mem_singleton] at hx; subst hx
    obtain ⟨i, d, st, y, k, h1, h2, _, h3⟩ := hm _ rfl
    simp only at h1
    cases h1
    exact ⟨y.1, fieldAt_main (h2 ▸ (posTarget_field h3).2.2), fun _ ho => by rw [(posTarget_field h3).2.1] at ho; cases ho⟩

theorem steps_values {κ κ1 : Ctx V} {rest : List Bytes} (h : Steps cx κ toks evs κ1 rest) (hm : ModeOk κ) :
    ∀ x ∈ evs, ∃ f, fieldAt κ1.stack x.1 = some f ∧ (x.2 ≠ none → isOption f = true → f.kind ≠ .bool) := by
  induction h with
  | refl => simp
  | step h hs ih =>
    intro x hx
    rcases List.mem_append.1 hx with hx | hx
    · obtain ⟨f, hf, h2⟩ := step_values h hm x hx
      obtain ⟨e1, q1⟩ := step_stack h
      obtain ⟨e2, q2⟩ := steps_stack hs
      rw [q2, q1]
      exact ⟨f, fieldAt_ext_some (fieldAt_ext_some hf), h2⟩
    · exact ih (step_mode h hm) x hx

theorem halts_values (h : Halts cx (start argv0 d) toks evs κ e) :
    ∀ x ∈ evs, ∃ f, fieldAt κ.stack x.1 = some f ∧ (x.2 ≠ none → isOption f = true → f.kind ≠ .bool) := by
  obtain ⟨evs1, evs2, rest, hs, hst, rfl⟩ := h
  intro x hx
  rcases List.mem_append.1 hx with hx | hx
  · exact steps_values hs (start_mode argv0 d) x hx
  · cases hst with
    | cluster _ hc =>
      obtain ⟨f, h1, h2⟩ := clusterStuck_values hc x hx
      exact ⟨f, h1, fun h _ => h2 h⟩
    | _ => simp at hx

/-- C26: an error that a value or a '=' is missing names the option that the offending argument mentions.  So does an error
that a flag was given a value, unless it is about a positional argument: then nothing is named. -/
theorem C26_syntax (hd : DerivedArgs cx d) (h : tryParseFrom d (argv0 :: toks) = .error (.error e))
    (hk : e.kind = .missingValue ∨ e.kind = .missingEq ∨ e.kind = .unexpectedInlineValue) :
    (∃ (evs : List Event) (κ : Ctx V) (tok : Bytes) (rest : List Bytes) (n : Name) (a : Addr) (f : FieldInfo V),
      Steps cx (start argv0 d) toks evs κ (tok :: rest) ∧ Mentions n tok ∧ Resolves cx κ.stack n a f
      ∧ e.argDesc = some f.description)
    ∨ e.kind = .unexpectedInlineValue ∧ ∃ (evs : List Event) (κ : Ctx V) (a : Addr) (v : Bytes) (f : FieldInfo V),
      ((∃ rest, Steps cx (start argv0 d) toks evs κ rest) ∨ ∃ e', Halts cx (start argv0 d) toks evs κ e')
      ∧ (a, some v) ∈ evs ∧ fieldAt κ.stack a = some f ∧ isOption f = false ∧ f.kind = .bool
      ∧ e.argDesc = none := by
  have hv : e.kind.ofConstraint = false := by
    rcases hk with hk | hk | hk <;> rw [hk] <;> rfl
  have key : ∀ {evs : List Event} {κ : Ctx V}, FirstBad κ.stack [] evs e →
      (∀ x ∈ evs, ∃ f, fieldAt κ.stack x.1 = some f ∧ (x.2 ≠ none → isOption f = true → f.kind ≠ .bool)) →
      e.kind = .unexpectedInlineValue
      ∧ ∃ a v f, (a, some v) ∈ evs ∧ fieldAt κ.stack a = some f ∧ isOption f = false ∧ f.kind = .bool
        ∧ e.argDesc = none := by
    rintro evs κ ⟨pre, a, o, post, f, e0, h1, h2, h3, h4, rfl⟩ hfl
    rw [about_kind] at hk ⊢
    have hmem : (a, o) ∈ evs := by rw [h1]; simp
    cases o with
    | none =>
      generalize ho : Option.map (normalise f) none = o at h4
      cases h4 with
      | flagValue => cases ho
      | duplicate => rcases hk with hk | hk | hk <;> cases hk
      | invalid => cases ho
      | piece => cases ho
    | some b =>
      rw [Option.map_some] at h4
      cases h4 with
      | flagValue hb =>
        have hopt : isOption f = false := by
          obtain ⟨f', hf', h5⟩ := hfl _ hmem
          rw [h2] at hf'
          cases hf'
          cases hopt : isOption f
          · rfl
          · exact absurd hb (h5 (by simp) hopt)
        exact ⟨rfl, a, b, f, hmem, h2, hopt, hb, by simp [about, hopt]⟩
      | duplicate => rcases hk with hk | hk | hk <;> cases hk
      | invalid _ _ _ hp => rw [(parse_kind hp).1] at hk; rcases hk with hk | hk | hk <;> cases hk
      | piece _ _ _ hp => rw [(parse_kind hp).1] at hk; rcases hk with hk | hk | hk <;> cases hk
  have hrej := (C23_rejects_iff hd argv0 toks _).1 h
  cases hrej with
  | value hs hb =>
    obtain ⟨h1, a, v, f, h2⟩ := key hb (steps_values hs (start_mode argv0 d))
    exact .inr ⟨h1, _, _, a, v, f, .inl ⟨_, hs⟩, h2⟩
  | valueStuck hs hb =>
    obtain ⟨h1, a, v, f, h2⟩ := key hb (halts_values hs)
    exact .inr ⟨h1, _, _, a, v, f, .inr ⟨_, hs⟩, h2⟩
  | invalid _ _ hf => have := allFail_kind hf; simp [Fail.ofConstraint, hv] at this
  | stuck hh _ =>
    left
    obtain ⟨evs1, evs2, rest, hs, hst, -⟩ := hh
    have hopt : ∀ {st : List (Entry V)} {n : Name} {a : Addr} {f : FieldInfo V} (e0 : Error), Resolves cx st n a f →
        (about f e0).argDesc = some f.description := by
      intro st n a f e0 hr
      rw [about, if_pos (resolves_option hr)]
    cases hst with
    | longUnknown | longHelp => simp [unexpected, helpRequest] at hk
    | flagValue hr hne => exact ⟨_, _, _, _, .long _, _, _, hs, List.prefix_append _ _, hr, hopt _ hr⟩
    | missingEq hr hne => exact ⟨_, _, _, _, .long _, _, _, hs, List.prefix_refl _, hr, hopt _ hr⟩
    | missingValue hr hne => exact ⟨_, _, _, _, .long _, _, _, hs, List.prefix_refl _, hr, hopt _ hr⟩
    | cluster hb hc =>
      obtain ⟨c, a, f, h1, ⟨p, r, h2⟩, h3⟩ := clusterStuck_about hc hk
      exact ⟨_, _, _, _, .short c, a, f, hs, ⟨p, r, by rw [h2]⟩, h1, h3⟩
    | surplus => unfold Spec.surplus at hk; simp only at hk; split at hk <;> simp at hk
    | dashed => unfold Spec.surplus at hk; simp only at hk; split at hk <;> simp at hk

/-- C26: an error about a value names the option whose occurrence is not acceptable: up to there all occurrences were
acceptable.  Full statement: the same for positional arguments.  Missing: for them it is false, the error has no description
(`C26_positional_value`). -/
theorem C26_value_partial (hd : DerivedArgs cx d) (h : tryParseFrom d (argv0 :: toks) = .error (.error e))
    (hk : e.kind = .invalidValue ∨ e.kind = .duplicatedNamedArgument) :
    ∃ (evs : List Event) (κ : Ctx V) (pre post : List Event) (a : Addr) (o : Option Bytes) (f : FieldInfo V),
      ((∃ rest, Steps cx (start argv0 d) toks evs κ rest) ∨ ∃ e', Halts cx (start argv0 d) toks evs κ e')
      ∧ evs = pre ++ (a, o) :: post ∧ fieldAt κ.stack a = some f
      ∧ Acceptable κ.stack pre ∧ ¬ Acceptable κ.stack (pre ++ [(a, o)])
      ∧ (e.kind = .duplicatedNamedArgument → ∃ o', (a, o') ∈ pre)
      ∧ e.argDesc = if isOption f then some f.description else none := by
  have hv : e.kind.ofConstraint = false := by rcases hk with hk | hk <;> rw [hk] <;> rfl
  have key : ∀ {evs : List Event} {κ : Ctx V}, FirstBad κ.stack [] evs e →
      ∃ (pre post : List Event) (a : Addr) (o : Option Bytes) (f : FieldInfo V), evs = pre ++ (a, o) :: post
      ∧ fieldAt κ.stack a = some f ∧ Acceptable κ.stack pre ∧ ¬ Acceptable κ.stack (pre ++ [(a, o)])
      ∧ (e.kind = .duplicatedNamedArgument → ∃ o', (a, o') ∈ pre)
      ∧ e.argDesc = if isOption f then some f.description else none := by
    rintro evs κ ⟨pre, a, o, post, f, e0, h1, h2, h3, h4, rfl⟩
    rw [List.nil_append] at h3 h4
    refine ⟨pre, post, a, o, f, h1, h2, h3, ?_, ?_, ?_⟩
    · intro hacc
      apply hacc a f h2
      rw [occs_at]
      exact h4.given_none _
    · rw [about_kind]
      intro hdup
      generalize Option.map (normalise f) o = o2 at h4
      cases h4 with
      | flagValue => cases hdup
      | duplicate hm ho hne => exact occs_ne_nil.1 hne
      | invalid hm hk' hos hp => rw [(parse_kind hp).1] at hdup; cases hdup
      | piece hm hp hxs hv => rw [(parse_kind hv).1] at hdup; cases hdup
    · have hnone : e0.argDesc = none := by
        generalize Option.map (normalise f) o = o2 at h4
        cases h4 with
        | flagValue => rfl
        | duplicate => rfl
        | invalid _ _ _ hp => exact parse_argDesc hp
        | piece _ _ _ hp => exact parse_argDesc hp
      unfold about
      split <;> simp_all
  have hrej := (C23_rejects_iff hd argv0 toks _).1 h
  cases hrej with
  | value hs hb =>
    obtain ⟨pre, post, a, o, f, h1⟩ := key hb
    exact ⟨_, _, pre, post, a, o, f, .inl ⟨_, hs⟩, h1⟩
  | valueStuck hs hb =>
    obtain ⟨pre, post, a, o, f, h1⟩ := key hb
    exact ⟨_, _, pre, post, a, o, f, .inr ⟨_, hs⟩, h1⟩
  | invalid _ _ hf => have := allFail_kind hf; simp [Fail.ofConstraint, hv] at this
  | stuck hh _ =>
    obtain ⟨_, _, _, _, hs, _⟩ := hh
    have := stuck_kind hs
    rcases hk with hk | hk
    · exact absurd hk this.2.1
    · exact absurd hk this.2.2

/-- C26: the description of an error about a constraint is the description of the field concerned: the missing required
field; the exclusive field given with others; the missing field that a given one requires; the given field that conflicts
with another given one.  All these are fields of one struct of one entered command. -/
theorem C26_constraint (hd : DerivedArgs cx d) (h : tryParseFrom d (argv0 :: toks) = .error (.error e))
    (hk : e.kind = .missingRequiredArgument ∨ e.kind = .constraintRequired ∨ e.kind = .constraintExclusive
      ∨ e.kind = .constraintConflict) :
    ∃ (evs : List Event) (κ : Ctx V) (a : Addr) (f : FieldInfo V), Reads cx (start argv0 d) toks evs κ
      ∧ fieldAt κ.stack a = some f ∧ e.argDesc = some f.description
      ∧ (e.kind = .missingRequiredArgument → isRequired f = true ∧ ∀ v, (a, v) ∉ evs)
      ∧ (e.kind = .constraintRequired → (∀ v, (a, v) ∉ evs) ∧ ∃ j g v, fieldAt κ.stack { a with field := j } = some g
          ∧ ({ a with field := j }, v) ∈ evs ∧ f.ident ∈ g.src.requires)
      ∧ (e.kind = .constraintExclusive → f.src.exclusive = true ∧ (∃ v, (a, v) ∈ evs)
          ∧ (κ.stack.length > a.level + 1 ∨ ∃ j v, j ≠ a.field ∧ ({ a with field := j }, v) ∈ evs))
      ∧ (e.kind = .constraintConflict → (∃ v, (a, v) ∈ evs) ∧ ∃ j g v, fieldAt κ.stack { a with field := j } = some g
          ∧ ({ a with field := j }, v) ∈ evs ∧ g.ident ∈ f.src.conflictsWith) := by
  obtain ⟨evs, κ, hr, ha, pre, i, d', outer, k, c, h1, h2, h3, -, -⟩ := C43_first_violation hd h
    (by rcases hk with hk | hk | hk | hk <;> simp [hk])
  have hfield : ∀ (n : Nat) (f : FieldInfo V), c.fields[n]? = some f → fieldAt κ.stack ⟨outer.length, k, n⟩ = some f := by
    intro n f hf
    rw [h1, fieldAt_ext (by simp)]
    simp [fieldAt, h2, hf]
  have hno : ∀ {a : Addr}, occs evs a = [] → ∀ v, (a, v) ∉ evs := by
    intro a hn v hv
    exact occs_ne_nil.2 ⟨v, hv⟩ hn
  cases h3 with
  | @exclusive n f hf hg hx ho =>
    refine ⟨evs, κ, ⟨outer.length, k, n⟩, f, hr, hfield n f hf, rfl, by simp, by simp, ?_, by simp⟩
    intro _
    refine ⟨hx, occs_ne_nil.1 hg, ?_⟩
    rcases ho with ho | ⟨j, g, hj, hne, hgj⟩
    · rw [Bool.and_eq_true, decide_eq_true_eq] at ho
      left
      have : 0 < pre.length := List.length_pos_iff.2 ho.1
      rw [h1]; simp; omega
    · obtain ⟨v, hv⟩ := occs_ne_nil.1 hgj
      exact .inr ⟨j, v, hne, hv⟩
  | @requires n f j g hf hg hj hx hnone =>
    obtain ⟨v, hv⟩ := occs_ne_nil.1 hg
    refine ⟨evs, κ, ⟨outer.length, k, j⟩, g, hr, hfield j g hj, rfl, by simp, ?_, by simp, by simp⟩
    intro _
    exact ⟨hno hnone, n, f, v, hfield n f hf, hv, hx⟩
  | @conflict n f j g hf hg hj hx hgj =>
    obtain ⟨v, hv⟩ := occs_ne_nil.1 hgj
    refine ⟨evs, κ, ⟨outer.length, k, n⟩, f, hr, hfield n f hf, rfl, by simp, by simp, by simp, ?_⟩
    intro _
    exact ⟨occs_ne_nil.1 hg, j, g, v, hfield j g hj, hv, hx⟩
  | @missing n f hf hreq hnone =>
    refine ⟨evs, κ, ⟨outer.length, k, n⟩, f, hr, hfield n f hf, rfl, ?_, by simp, by simp, by simp⟩
    intro _
    exact ⟨hreq, hno hnone⟩
  | subcommand => rcases hk with hk | hk | hk | hk <;> cases hk

/-- C21: default values do not trigger errors about conflicts, dependencies and exclusiveness: the arguments concerned were given on
the command line, both the one with the constraint and the one that violates it. -/
theorem C21_inert (hd : DerivedArgs cx d) (h : tryParseFrom d (argv0 :: toks) = .error (.error e))
    (hk : e.kind = .constraintRequired ∨ e.kind = .constraintExclusive ∨ e.kind = .constraintConflict) :
    ∃ (evs : List Event) (κ : Ctx V) (a : Addr) (f : FieldInfo V) (v : Option Bytes), Reads cx (start argv0 d) toks evs κ
      ∧ fieldAt κ.stack a = some f ∧ (a, v) ∈ evs
      ∧ ((e.kind = .constraintRequired ∧ ∃ x ∈ f.src.requires, ∃ j g, fieldAt κ.stack { a with field := j } = some g
            ∧ g.ident = x ∧ ∀ w, ({ a with field := j }, w) ∉ evs)
        ∨ (e.kind = .constraintExclusive ∧ f.src.exclusive = true
            ∧ (κ.stack.length > a.level + 1 ∨ ∃ j w, j ≠ a.field ∧ ({ a with field := j }, w) ∈ evs))
        ∨ (e.kind = .constraintConflict ∧ ∃ x ∈ f.src.conflictsWith, ∃ j g w, fieldAt κ.stack { a with field := j } = some g
            ∧ g.ident = x ∧ ({ a with field := j }, w) ∈ evs)) := by
  obtain ⟨evs, κ, a, f, hr, hf, -, -, h1, h2, h3⟩ := C26_constraint hd h (.inr hk)
  rcases hk with hk | hk | hk
  · obtain ⟨hno, j, g, v, hg, hv, hx⟩ := h1 hk
    exact ⟨evs, κ, { a with field := j }, g, v, hr, hg, hv, .inl ⟨hk, f.ident, hx, a.field, f, hf, rfl, hno⟩⟩
  · obtain ⟨hx, ⟨v, hv⟩, ho⟩ := h2 hk
    exact ⟨evs, κ, a, f, v, hr, hf, hv, .inr (.inl ⟨hk, hx, ho⟩)⟩
  · obtain ⟨⟨v, hv⟩, j, g, w, hg, hw, hx⟩ := h3 hk
    exact ⟨evs, κ, a, f, v, hr, hf, hv, .inr (.inr ⟨hk, g.ident, hx, j, g, w, hg, rfl, hw⟩)⟩

namespace Sample

/-- `struct { #[arg(long, default_value = "1", conflicts_with = "fast", requires = "out")] jobs: String,
#[arg(long)] fast: bool, #[arg(long, exclusive = true, default_value = "x")] out: String }`: absent arguments with defaults. -/
def inertCli : ArgsDef Val := get (deriveArgs Sample.cx none
  [.arg (lit "jobs") string { long := some .inherit, defaultValue := some (lit "1"), conflictsWith := [lit "fast"], requires := [lit "out"] },
   .arg (lit "fast") .bool { long := some .inherit },
   .arg (lit "out") string { long := some .inherit, exclusive := true, defaultValue := some (lit "x") }])

/-- `struct { count: Number }`, `count` positional. -/
def countCli : ArgsDef Val := get (deriveArgs Sample.cx none [.arg (lit "count") number {}])

end Sample

/-- The defaults of `jobs` and `out` are no conflict with `--fast`, need nothing and exclude nothing; when given they do. -/
example : Sample.isOk (tryParseFrom Sample.inertCli (["app", "--fast"].map blit)) = true
    ∧ Sample.isOk (tryParseFrom Sample.inertCli (["app", "--out=1"].map blit)) = true
    ∧ (Sample.failure (tryParseFrom Sample.inertCli (["app", "--jobs=1"].map blit)))
      = some (.error { kind := .constraintRequired, argDesc := some (lit "--out <OUT>") })
    ∧ (Sample.failure (tryParseFrom Sample.inertCli (["app", "--fast", "--out=1"].map blit)))
      = some (.error { kind := .constraintExclusive, argDesc := some (lit "--out <OUT>") }) := by decide +kernel

/-- C26, finding 8: the error for an invalid value of a positional argument has no description. -/
theorem C26_positional_value : DerivedArgs Sample.cx Sample.countCli
    ∧ (Sample.failure (tryParseFrom Sample.countCli (["app", "x"].map blit))
        = some (.error { kind := .invalidValue, input := some (blit "x"), source := some (.user (lit "invalid digit found in string")) }))
    ∧ Sample.isOk (tryParseFrom Sample.countCli (["app", "7"].map blit)) = true :=
  ⟨Sample.derived_leaf (by decide) (by decide), by decide +kernel, by decide +kernel⟩

/-- Errors of the sample CLI with the description they carry. -/
def Sample.described (args : List String) : Option (ErrorKind × Option String) :=
  match Sample.failure (Sample.parse args) with
  | some (.error e) => some (e.kind, e.argDesc.map String.ofList)
  | _ => none

example : Sample.described ["app", "-v", "--config"] = some (.missingValue, some "-c, --config <CONFIG>") := by decide +kernel
example : Sample.described ["app", "-vc"] = some (.missingValue, some "-c, --config <CONFIG>") := by decide +kernel
example : Sample.described ["app", "--level"] = some (.missingEq, some "--level=<LEVEL>") := by decide +kernel
example : Sample.described ["app", "--verbose=1"] = some (.unexpectedInlineValue, some "-v, --verbose") := by decide +kernel
example : Sample.described ["app", "--jobs=x"] = some (.invalidValue, some "-j, --jobs <JOBS>") := by decide +kernel
example : Sample.described ["app", "-v", "--verbose"] = some (.duplicatedNamedArgument, some "-v, --verbose") := by decide +kernel
example : Sample.described ["app", "add"] = some (.missingRequiredArgument, some "<PATHS>...") := by decide +kernel
example : Sample.described ["app", "--pattern=x"] = some (.constraintRequired, some "-c, --config <CONFIG>") := by decide +kernel
example : Sample.described ["app", "--offset=1", "--level=2"] = some (.constraintConflict, some "--offset <OFFSET>") := by
  decide +kernel
example : Sample.described ["app", "drop", "--all", "x"] = some (.constraintExclusive, some "--all") := by decide +kernel

/-! ## C40, on the command line -/

/-- C40: an invalid-value error reported for a command line is the error of the value parser of the field for one of the
pieces of a given value (lower-cased for `ignore_case`), with the exact input and the source. -/
theorem C40_reported (hd : DerivedArgs cx d) (h : tryParseFrom d (argv0 :: toks) = .error (.error e))
    (hk : e.kind = .invalidValue) :
    ∃ (evs : List Event) (κ : Ctx V) (a : Addr) (b x : Bytes) (f : FieldInfo V) (e0 : Error),
      ((∃ rest, Steps cx (start argv0 d) toks evs κ rest) ∨ ∃ e', Halts cx (start argv0 d) toks evs κ e')
      ∧ (a, some b) ∈ evs ∧ fieldAt κ.stack a = some f
      ∧ x ∈ splitValue f.src.valueDelimiter (if f.src.ignoreCase then asciiLower b else b)
      ∧ f.parser.parse x = .error e0 ∧ e.input = some x ∧ e.source = e0.source
      ∧ e.contextualHelp = e0.contextualHelp := by
  have key : ∀ {evs : List Event} {κ : Ctx V}, StackWF cx κ.stack → FirstBad κ.stack [] evs e →
      ∃ (a : Addr) (b x : Bytes) (f : FieldInfo V) (e0 : Error), (a, some b) ∈ evs ∧ fieldAt κ.stack a = some f
      ∧ x ∈ splitValue f.src.valueDelimiter (if f.src.ignoreCase then asciiLower b else b)
      ∧ f.parser.parse x = .error e0 ∧ e.input = some x ∧ e.source = e0.source
      ∧ e.contextualHelp = e0.contextualHelp := by
    rintro evs κ hwf ⟨pre, a, o, post, f, e0, h1, h2, h3, h4, rfl⟩
    have hw := (hwf.field h2).toFieldPre
    rw [about_kind] at hk
    have hin : ∀ e0 : Error, (about f e0).input = e0.input ∧ (about f e0).source = e0.source
        ∧ (about f e0).contextualHelp = e0.contextualHelp := by
      intro e0; unfold about; split <;> simp
    rw [(hin e0).1, (hin e0).2.1, (hin e0).2.2]
    cases o with
    | none =>
      generalize ho : Option.map (normalise f) none = o at h4
      cases h4 with
      | flagValue => cases hk
      | duplicate => cases hk
      | invalid => cases ho
      | piece => cases ho
    | some b =>
      rw [Option.map_some] at h4
      have hb : (a, some b) ∈ evs := by rw [h1]; simp
      cases h4 with
      | flagValue => cases hk
      | duplicate => cases hk
      | invalid hm hk' hos hp =>
        refine ⟨a, b, _, f, e0, hb, h2, ?_, hp, (parse_kind hp).2, rfl, rfl⟩
        have : f.src.valueDelimiter = none := by
          cases hd : f.src.valueDelimiter with
          | none => rfl
          | some c =>
            have := hw.delimMulti (by rw [hw.delim, hd]; rfl)
            rw [hm] at this; cases this
        rw [this]
        exact List.mem_singleton.2 rfl
      | @piece _ xs x ys _ hm hp hxs hv =>
        refine ⟨a, b, x, f, e0, hb, h2, ?_, hv, (parse_kind hv).2, rfl, rfl⟩
        rw [pieces_eq hw] at hp
        unfold normalise at hp
        rw [hp]
        simp
  have hv : e.kind.ofConstraint = false := by rw [hk]; rfl
  have hrej := (C23_rejects_iff hd argv0 toks _).1 h
  cases hrej with
  | value hs hb =>
    obtain ⟨a, b, x, f, e0, h1⟩ := key (stack_wf hd.wf hs).1 hb
    exact ⟨_, _, a, b, x, f, e0, .inl ⟨_, hs⟩, h1⟩
  | valueStuck hs hb =>
    obtain ⟨_, _, _, hs', _, _⟩ := id hs
    obtain ⟨a, b, x, f, e0, h1⟩ := key (stack_wf hd.wf hs').1 hb
    exact ⟨_, _, a, b, x, f, e0, .inr ⟨_, hs⟩, h1⟩
  | invalid _ _ hf => have := allFail_kind hf; simp [Fail.ofConstraint, hv] at this
  | stuck hh _ =>
    obtain ⟨_, _, _, _, hs, _⟩ := hh
    exact absurd hk (stuck_kind hs).2.1

end Palc
