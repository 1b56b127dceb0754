import Verif.Props.Values
import Verif.Lemmas.After
/-!
# Options with and without values (C30, C31, C32, C33)
-/

namespace Palc

open Spec

variable {V : Type} {cx : Cx V} {d : ArgsDef V} {argv0 : Bytes} {toks : List Bytes} {evs : List Event} {κ : Ctx V}
  {out : Out V}

/-- Ways to write an option, without a value: `--name`, or `-xyc` with flags `x`, `y` before it. -/
inductive Written (cx : Cx V) (st : List (Entry V)) (a : Addr) (f : FieldInfo V) : Bytes → Prop
  | long {n} (hr : Resolves cx st (.long n) a f) : Written cx st a f (enc ('-' :: '-' :: n))
  | short {fl c} (hfl : ∀ x ∈ fl, PureFlag cx st x) (hr : Resolves cx st (.short c) a f) :
      Written cx st a f (dash :: (enc fl ++ encChar c))

/-- Only the short forms. -/
inductive WrittenShort (cx : Cx V) (st : List (Entry V)) (a : Addr) (f : FieldInfo V) : Bytes → Prop
  | short {fl c} (hfl : ∀ x ∈ fl, PureFlag cx st x) (hr : Resolves cx st (.short c) a f) :
      WrittenShort cx st a f (dash :: (enc fl ++ encChar c))

/-- The field named in error messages is the one referred to. -/
theorem about_resolved {st : List (Entry V)} {n : Name} {a : Addr} {f : FieldInfo V} (hr : Resolves cx st n a f) (e : Error) :
    about f e = { e with argDesc := some f.description } := by
  rw [about, if_pos (resolves_option hr)]

/-- What makes a cluster fail also makes it fail after flags. -/
theorem short_stuck (hd : DerivedArgs cx d) {pre : List Bytes} {evs1 : List Event} {st : List (Entry V)} {k : Nat}
    (hpre : Reads cx (start argv0 d) pre evs1 ⟨st, k, .opts⟩) {fl : List Char} (hfl : ∀ x ∈ fl, PureFlag cx st x) {r : Bytes}
    {e : Error} {E : List Event} {ts : List Bytes} (hne : r ≠ []) (h1 : r.head? ≠ some dash) (h2 : r.head? ≠ some eqSign)
    (hc : ClusterStuck cx st ts.head? r E e) :
    ∃ flags : List Event, (∀ x ∈ flags, x.2 = none) ∧ Stuck cx ⟨st, k, .opts⟩ ((dash :: (enc fl ++ r)) :: ts) (flags ++ E) e := by
  have hwf := (stack_wf hd.wf (reads_steps hpre)).1
  obtain ⟨evs0, _, h3, _, h0⟩ := bundle_flags hwf hfl
  exact ⟨evs0, h0, .cluster (bundle_head hwf hfl h1) (h3 hne h2 hc)⟩

/-- What is read as a cluster is also read after flags. -/
theorem short_reads (hd : DerivedArgs cx d) {pre : List Bytes} {evs1 : List Event} {st : List (Entry V)} {k : Nat}
    (hpre : Reads cx (start argv0 d) pre evs1 ⟨st, k, .opts⟩) {fl : List Char} (hfl : ∀ x ∈ fl, PureFlag cx st x) {r : Bytes}
    {E : List Event} (h1 : r.head? ≠ some dash) (h2 : r.head? ≠ some eqSign) (hc : ∀ next, Cluster cx st next r E false) :
    ∃ flags : List Event, (∀ x ∈ flags, x.2 = none) ∧ ∀ ts : List Bytes,
      Step cx ⟨st, k, .opts⟩ ((dash :: (enc fl ++ r)) :: ts) (flags ++ E) ⟨st, k, .opts⟩ ts := by
  have hwf := (stack_wf hd.wf (reads_steps hpre)).1
  obtain ⟨evs0, h3, _, _, h0⟩ := bundle_flags hwf hfl
  exact ⟨evs0, h0, fun ts => .cluster (bundle_head hwf hfl h1) (h3 h2 (hc _))⟩

/-! ## C30 -/

/-- C30: an option with `require_equals` that needs a value, written without '=': parsing fails, whatever follows; if the
values before are acceptable, with the error that '=' is missing for that option. -/
theorem C30_missing_eq (hd : DerivedArgs cx d) {pre ts : List Bytes} {tok : Bytes} {evs1 : List Event}
    {st : List (Entry V)} {k : Nat} (hpre : Reads cx (start argv0 d) pre evs1 ⟨st, k, .opts⟩) {a : Addr} {f : FieldInfo V}
    (hw : Written cx st a f tok) (ht : takesValue f = true) (hq : f.src.requireEquals = true) :
    ∃ flags e, (∀ x ∈ flags, x.2 = none) ∧ tryParseFrom d (argv0 :: pre ++ tok :: ts) = .error (.error e)
      ∧ (Acceptable st (evs1 ++ flags) → e = { kind := .missingEq, argDesc := some f.description }) := by
  have hwf := (stack_wf hd.wf (reads_steps hpre)).1
  cases hw with
  | long hr =>
    obtain ⟨e, h1, _, h3⟩ := stuck_fails (post := _ :: ts) hd hpre (.missingEq hr (hwf.long hr).2 (hwf.long hr).1 ht hq)
    exact ⟨[], e, by simp, h1, fun ha => by rw [h3 ha, about_resolved hr]⟩
  | @short fl c hfl hr =>
    obtain ⟨hc1, hc2⟩ := hwf.short hr
    obtain ⟨flags, h0, hs⟩ := short_stuck (ts := ts) hd hpre hfl (encChar_ne_nil c) (by simpa using encChar_head_ne_dash hc1 [])
      (by simpa using encChar_head_ne_eq hc2 []) (.missingEq hr ht hq)
    obtain ⟨e, h1, _, h3⟩ := stuck_fails hd hpre hs
    exact ⟨flags, e, h0, h1, fun ha => by rw [h3 (by simpa using ha), about_resolved hr]⟩

/-- C30: characters attached to such an option are not taken as its value either. -/
theorem C30_attached_rejected (hd : DerivedArgs cx d) {pre ts : List Bytes} {tok v : Bytes} {evs1 : List Event}
    {st : List (Entry V)} {k : Nat} (hpre : Reads cx (start argv0 d) pre evs1 ⟨st, k, .opts⟩) {a : Addr} {f : FieldInfo V}
    (hw : WrittenShort cx st a f tok) (hq : f.src.requireEquals = true) (hne : v ≠ []) (hv : v.head? ≠ some eqSign) :
    ∃ flags e, (∀ x ∈ flags, x.2 = none) ∧ tryParseFrom d (argv0 :: pre ++ (tok ++ v) :: ts) = .error (.error e)
      ∧ (Acceptable st (evs1 ++ flags) → e = { kind := .missingEq, argDesc := some f.description }) := by
  have hwf := (stack_wf hd.wf (reads_steps hpre)).1
  cases hw with
  | @short fl c hfl hr =>
    obtain ⟨hc1, hc2⟩ := hwf.short hr
    obtain ⟨flags, h0, hs⟩ := short_stuck (ts := ts) (r := encChar c ++ v) hd hpre hfl (by simp [encChar_ne_nil]) (encChar_head_ne_dash hc1 v)
      (encChar_head_ne_eq hc2 v) (.missingEqAttached hr hq hne hv)
    obtain ⟨e, h1, _, h3⟩ := stuck_fails hd hpre hs
    refine ⟨flags, e, h0, ?_, fun ha => by rw [h3 (by simpa using ha), about_resolved hr]⟩
    rw [← h1]; simp

/-- C03: a boolean flag declared with `require_equals` (which makes no sense, but is accepted) cannot be bundled with further
options: parsing fails, whatever follows. -/
theorem C03_require_equals_rejected (hd : DerivedArgs cx d) {pre ts : List Bytes} {tok r : Bytes} {evs1 : List Event}
    {st : List (Entry V)} {k : Nat} (hpre : Reads cx (start argv0 d) pre evs1 ⟨st, k, .opts⟩) {a : Addr} {f : FieldInfo V}
    (hw : WrittenShort cx st a f tok) (_ : f.kind = .bool) (hq : f.src.requireEquals = true) (hne : r ≠ []) (hr : r.head? ≠ some eqSign) :
    ∃ e, tryParseFrom d (argv0 :: pre ++ (tok ++ r) :: ts) = .error (.error e) := by
  obtain ⟨_, e, _, h, _⟩ := C30_attached_rejected (ts := ts) hd hpre hw hq hne hr
  exact ⟨e, h⟩

namespace Sample

/-- `struct { #[arg(short, require_equals = true)] a: bool, #[arg(short)] b: bool }`. -/
def eqFlagCli : ArgsDef Val := get (deriveArgs Sample.cx none
  [ .arg (lit "a") .bool { short := some .inherit, requireEquals := true }, .arg (lit "b") .bool { short := some .inherit } ])

theorem eqFlagCli_derived : DerivedArgs Sample.cx eqFlagCli := derived_leaf (by decide) (by decide)

end Sample

/-- `-a -b`, `-ba` are accepted, `-ab` is not. -/
example : Sample.isOk (tryParseFrom Sample.eqFlagCli (["app", "-a", "-b"].map blit)) = true
    ∧ Sample.isOk (tryParseFrom Sample.eqFlagCli (["app", "-ba"].map blit)) = true
    ∧ Sample.failure (tryParseFrom Sample.eqFlagCli (["app", "-ab"].map blit)) = some (.error { kind := .missingEq, argDesc := some (lit "-a") }) := by
  decide +kernel

/-- C30: with '=', any value is taken, also the empty one. -/
theorem C30_eq_accepted (hd : DerivedArgs cx d) {pre : List Bytes} {tok : Bytes} {evs1 : List Event}
    {st : List (Entry V)} {k : Nat} (hpre : Reads cx (start argv0 d) pre evs1 ⟨st, k, .opts⟩) {a : Addr} {f : FieldInfo V}
    (hw : Written cx st a f tok) (ht : takesValue f = true) (v : Bytes) :
    ∃ flags, (∀ x ∈ flags, x.2 = none)
      ∧ After cx d argv0 (pre ++ [tok ++ eqSign :: v]) (evs1 ++ (flags ++ [(a, some v)])) ⟨st, k, .opts⟩ := by
  have hwf := (stack_wf hd.wf (reads_steps hpre)).1
  cases hw with
  | long hr =>
    have hk : f.kind ≠ .bool := fun hk => by simp [takesValue, hk] at ht
    exact ⟨[], by simp, after_reads hd (reads_append hpre (by simpa using step_reads (.longEq (toks := []) (k := k) (v := v) hr (hwf.long hr).2 hk) .done))⟩
  | @short fl c hfl hr =>
    obtain ⟨hc1, hc2⟩ := hwf.short hr
    obtain ⟨flags, h0, hs⟩ := short_reads (r := encChar c ++ eqSign :: v) hd hpre hfl (encChar_head_ne_dash hc1 _)
      (encChar_head_ne_eq hc2 _) (fun _ => .eq hr ht)
    refine ⟨flags, h0, after_reads hd (reads_append hpre ?_)⟩
    have := step_reads (hs []) .done
    simpa using this

/-- `--level` (`require_equals`). -/
example : ∃ f, Reads Sample.cx (start (blit "app") Sample.cli) [blit "-v"] [(⟨0, 0, 0⟩, none)] ⟨[Sample.root], 0, .opts⟩
    ∧ Written Sample.cx [Sample.root] ⟨0, 0, 5⟩ f (blit "--level") ∧ takesValue f = true ∧ f.src.requireEquals = true := by
  obtain ⟨f, hr, hp⟩ := Sample.resolve (fun f => takesValue f && f.src.requireEquals) (st := [Sample.root]) (n := .long (lit "level"))
    (a := ⟨0, 0, 5⟩) (by decide +kernel)
  simp only [Bool.and_eq_true] at hp
  exact ⟨f, Sample.reads_v, .long hr, hp.1, hp.2⟩

example : Sample.failure (Sample.parse ["app", "--level", "3"]) = some (.error { kind := .missingEq, argDesc := some (lit "--level=<LEVEL>") })
    ∧ Sample.value (Sample.parse ["app", "--level=3"]) ["level"] = some (.option (some (lit "3")))
    ∧ Sample.failure (Sample.parse ["app", "--level="]) = some (.error { kind := .invalidValue, argDesc := some (lit "--level=<LEVEL>"), input := some [], source := some (.user (lit "invalid digit found in string")) }) := by decide +kernel

/-! ## C31 -/

/-- May `v` follow option `f` as a separate argument? -/
def MayFollow (f : FieldInfo V) (v : Bytes) : Prop :=
  v.head? ≠ some dash ∨ v = [dash] ∨ f.src.allowHyphenValues = true
    ∨ (f.src.allowNegativeNumbers = true ∧ ∃ ds, v = dash :: ds ∧ ∀ b ∈ ds, '0'.toNat ≤ b.toNat ∧ b.toNat ≤ '9'.toNat)

theorem mayFollow_iff (f : FieldInfo V) (v : Bytes) : MayFollow f v ↔ Standalone f v := by
  unfold MayFollow Standalone Plain
  constructor
  · rintro (h | h | h | ⟨h, ds, rfl, hds⟩)
    · exact .inl (.inl h)
    · exact .inl (.inr h)
    · exact .inr (.inl h)
    · exact .inr (.inr ⟨h, hds⟩)
  · rintro ((h | h) | h | ⟨h, hds⟩)
    · exact .inl h
    · exact .inr (.inl h)
    · exact .inr (.inr (.inl h))
    · cases v with
      | nil => exact .inl (by simp)
      | cons x ds =>
        by_cases hx : x = dash
        · subst hx; exact .inr (.inr (.inr ⟨h, ds, rfl, hds⟩))
        · exact .inl (by simpa using hx)

/-- C31: a value that may follow the option is taken as its value. -/
theorem C31_taken (hd : DerivedArgs cx d) {pre : List Bytes} {tok : Bytes} {evs1 : List Event}
    {st : List (Entry V)} {k : Nat} (hpre : Reads cx (start argv0 d) pre evs1 ⟨st, k, .opts⟩) {a : Addr} {f : FieldInfo V}
    (hw : Written cx st a f tok) (ht : takesValue f = true) (hq : f.src.requireEquals = false) {v : Bytes} (hv : MayFollow f v) :
    ∃ flags, (∀ x ∈ flags, x.2 = none)
      ∧ After cx d argv0 (pre ++ [tok, v]) (evs1 ++ (flags ++ [(a, some v)])) ⟨st, k, .opts⟩ := by
  have hwf := (stack_wf hd.wf (reads_steps hpre)).1
  rw [mayFollow_iff] at hv
  have hs : Spelling cx st a f v [tok, v] := by
    cases hw with
    | long hr => exact .longSep hr ht hq hv
    | short hfl hr => exact .shortSep hfl hr ht hq hv
  obtain ⟨flags, h0, hst⟩ := hs.step hwf k []
  exact ⟨flags, h0, after_reads hd (reads_append hpre (by simpa using step_reads hst .done))⟩

/-- C31: a value that may not follow the option (or no argument at all) means that the value is missing: parsing fails. -/
theorem C31_missing_value (hd : DerivedArgs cx d) {pre ts : List Bytes} {tok : Bytes} {evs1 : List Event}
    {st : List (Entry V)} {k : Nat} (hpre : Reads cx (start argv0 d) pre evs1 ⟨st, k, .opts⟩) {a : Addr} {f : FieldInfo V}
    (hw : Written cx st a f tok) (ht : takesValue f = true) (hq : f.src.requireEquals = false)
    (hv : ∀ v, ts.head? = some v → ¬ MayFollow f v) :
    ∃ flags e, (∀ x ∈ flags, x.2 = none) ∧ tryParseFrom d (argv0 :: pre ++ tok :: ts) = .error (.error e)
      ∧ (Acceptable st (evs1 ++ flags) → e = { kind := .missingValue, argDesc := some f.description }) := by
  have hwf := (stack_wf hd.wf (reads_steps hpre)).1
  have hv' : ∀ v, ts.head? = some v → ¬ Standalone f v := fun v h h' => hv v h ((mayFollow_iff f v).2 h')
  cases hw with
  | long hr =>
    obtain ⟨e, h1, _, h3⟩ := stuck_fails (post := _ :: ts) hd hpre (.missingValue hr (hwf.long hr).2 (hwf.long hr).1 ht hq hv')
    exact ⟨[], e, by simp, h1, fun ha => by rw [h3 ha, about_resolved hr]⟩
  | @short fl c hfl hr =>
    obtain ⟨hc1, hc2⟩ := hwf.short hr
    obtain ⟨flags, h0, hs⟩ := short_stuck (ts := ts) hd hpre hfl (encChar_ne_nil c) (by simpa using encChar_head_ne_dash hc1 [])
      (by simpa using encChar_head_ne_eq hc2 []) (.missingValue hr ht hq hv')
    obtain ⟨e, h1, _, h3⟩ := stuck_fails hd hpre hs
    exact ⟨flags, e, h0, h1, fun ha => by rw [h3 (by simpa using ha), about_resolved hr]⟩

/-- `--offset` (`allow_negative_numbers`) and `--config`. -/
example : ∃ f g, Written Sample.cx [Sample.root] ⟨0, 0, 6⟩ f (blit "--offset") ∧ takesValue f = true ∧ f.src.requireEquals = false
    ∧ MayFollow f (blit "-12") ∧ ¬ MayFollow f (blit "-1x")
    ∧ Written Sample.cx [Sample.root] ⟨0, 0, 1⟩ g (blit "-vc") ∧ takesValue g = true ∧ g.src.requireEquals = false
    ∧ MayFollow g (blit "-") ∧ ¬ MayFollow g (blit "-1") := by
  obtain ⟨f, hr, hp⟩ := Sample.resolve (fun f => takesValue f && !f.src.requireEquals && f.src.allowNegativeNumbers && !f.src.allowHyphenValues)
    (st := [Sample.root]) (n := .long (lit "offset")) (a := ⟨0, 0, 6⟩) (by decide +kernel)
  obtain ⟨g, hr', hp'⟩ := Sample.resolve (fun f => takesValue f && !f.src.requireEquals && !f.src.allowNegativeNumbers && !f.src.allowHyphenValues)
    (st := [Sample.root]) (n := .short 'c') (a := ⟨0, 0, 1⟩) (by decide +kernel)
  obtain ⟨w, hrw, hpw⟩ := Sample.resolve (fun f => !takesValue f && !f.src.requireEquals)
    (st := [Sample.root]) (n := .short 'v') (a := ⟨0, 0, 0⟩) (by decide +kernel)
  simp only [Bool.and_eq_true, Bool.not_eq_true'] at hp hp' hpw
  refine ⟨f, g, .long hr, hp.1.1.1, hp.1.1.2, .inr (.inr (.inr ⟨hp.1.2, blit "12", by decide, by decide⟩)), ?_,
    .short (fl := ['v']) (c := 'c') ?_ hr', hp'.1.1.1, hp'.1.1.2, .inr (.inl (by decide)), ?_⟩
  · rintro (h | h | h | ⟨_, ds, h, hds⟩)
    · revert h; decide
    · revert h; decide
    · rw [hp.2] at h; cases h
    · rw [show blit "-1x" = [dash, 0x31, 0x78] by decide] at h
      cases h
      have := hds 0x78 (by simp)
      revert this; decide
  · intro x hx; rw [List.mem_singleton] at hx; subst hx; exact ⟨_, w, hrw, hpw.1, hpw.2⟩
  · rintro (h | h | h | ⟨h, _⟩)
    · revert h; decide
    · revert h; decide
    · rw [hp'.2] at h; cases h
    · rw [hp'.1.2] at h; cases h

example : Sample.value (Sample.parse ["app", "--offset", "-12"]) ["offset"] = some (.option (some (lit "-12")))
    ∧ Sample.failure (Sample.parse ["app", "-vc", "-1"]) = some (.error { kind := .missingValue, argDesc := some (lit "-c, --config <CONFIG>") })
    ∧ Sample.value (Sample.parse ["app", "-vc", "-"]) ["config"] = some (.option (some (lit "-")))
    ∧ Sample.failure (Sample.parse ["app", "-vc"]) = some (.error { kind := .missingValue, argDesc := some (lit "-c, --config <CONFIG>") }) := by
  decide +kernel

/-! ## C33 -/

/-- C33: a flag with an inline value: parsing fails; if the values before are acceptable, quoting the value verbatim. -/
theorem C33_value_rejected (hd : DerivedArgs cx d) {pre ts : List Bytes} {tok : Bytes} {evs1 : List Event}
    {st : List (Entry V)} {k : Nat} (hpre : Reads cx (start argv0 d) pre evs1 ⟨st, k, .opts⟩) {a : Addr} {f : FieldInfo V}
    (hw : Written cx st a f tok) (hk : f.kind = .bool) (v : Bytes) :
    ∃ flags e, (∀ x ∈ flags, x.2 = none) ∧ tryParseFrom d (argv0 :: pre ++ (tok ++ eqSign :: v) :: ts) = .error (.error e)
      ∧ (Acceptable st (evs1 ++ flags) → e = { kind := .unexpectedInlineValue, input := some v, argDesc := some f.description }) := by
  have hwf := (stack_wf hd.wf (reads_steps hpre)).1
  cases hw with
  | long hr =>
    obtain ⟨e, h1, _, h3⟩ := stuck_fails (post := _ :: ts) hd hpre (.flagValue (v := v) hr (hwf.long hr).2 hk)
    exact ⟨[], e, by simp, h1, fun ha => by rw [h3 ha, about_resolved hr]⟩
  | @short fl c hfl hr =>
    obtain ⟨hc1, hc2⟩ := hwf.short hr
    obtain ⟨flags, h0, hs⟩ := short_stuck (ts := ts) (r := encChar c ++ eqSign :: v) hd hpre hfl (by simp) (encChar_head_ne_dash hc1 _)
      (encChar_head_ne_eq hc2 _) (.flagValue hr hk)
    obtain ⟨e, h1, _, h3⟩ := stuck_fails hd hpre hs
    refine ⟨flags, e, h0, ?_, fun ha => by rw [h3 (by simpa using ha), about_resolved hr]⟩
    rw [← h1]; simp

/-- C33 (and C32): an option that needs no value, written without one, does not take the next argument: the reading goes on
with it. -/
theorem C33_bare_step (hd : DerivedArgs cx d) {pre : List Bytes} {tok : Bytes} {evs1 : List Event}
    {st : List (Entry V)} {k : Nat} (hpre : Reads cx (start argv0 d) pre evs1 ⟨st, k, .opts⟩) {a : Addr} {f : FieldInfo V}
    (hw : Written cx st a f tok) (ht : takesValue f = false) :
    ∃ flags, (∀ x ∈ flags, x.2 = none)
      ∧ After cx d argv0 (pre ++ [tok]) (evs1 ++ (flags ++ [(a, none)])) ⟨st, k, .opts⟩ := by
  have hwf := (stack_wf hd.wf (reads_steps hpre)).1
  have key : ∃ flags : List Event, (∀ x ∈ flags, x.2 = none) ∧ ∀ ts : List Bytes,
      Step cx ⟨st, k, .opts⟩ (tok :: ts) (flags ++ [(a, none)]) ⟨st, k, .opts⟩ ts := by
    cases hw with
    | long hr => exact ⟨[], by simp, fun ts => .longBare hr (hwf.long hr).2 (hwf.long hr).1 ht⟩
    | @short fl c hfl hr =>
      obtain ⟨hc1, hc2⟩ := hwf.short hr
      exact short_reads hd hpre hfl (by simpa using encChar_head_ne_dash hc1 [])
        (by simpa using encChar_head_ne_eq hc2 []) (fun _ => .bare hr ht)
  obtain ⟨flags, h0, hs⟩ := key
  exact ⟨flags, h0, after_reads hd (reads_append hpre (by simpa using step_reads (hs []) .done))⟩

/-- C33: after a successful parse, a flag without default is true iff it was given. -/
theorem C33_true_iff_given (h : Parsed cx d argv0 toks evs κ out) {a : Addr} {f : FieldInfo V}
    (hf : fieldAt κ.stack a = some f) (hk : f.kind = .bool) (hdef : f.src.defaultValue = none ∧ f.src.defaultValueT.isNone = true) :
    ∃ b, outAt κ.stack out a = some (f.ident, .field (.bool b)) ∧ (b = true ↔ ∃ v, (a, v) ∈ evs) := by
  by_cases hocc : ∃ v, (a, v) ∈ evs
  · obtain ⟨v, hv⟩ := hocc
    have hm : isMulti f = false := by simp [isMulti, hk]
    rcases C21_given_wins h hf hv hm with ⟨_, ho⟩ | ⟨h1, _⟩ | ⟨b, x, hb, _⟩
    · exact ⟨true, ho, by simp; exact ⟨v, hv⟩⟩
    · rw [hk] at h1; cases h1
    · exfalso
      obtain ⟨g, hg⟩ := Option.ne_none_iff_exists'.1 (h.acceptable a f hf)
      rcases given_value hg (occs_ne_nil.2 ⟨v, hv⟩) with ⟨_, h2, _⟩ | ⟨h1 | h1, _⟩ | ⟨h1, _⟩ | ⟨h1, _⟩
      · have := occs_mem.2 hv
        rw [h2, List.mem_singleton, hb] at this; cases this
      · rw [hk] at h1; cases h1
      · rw [hk] at h1; cases h1
      · rw [hk] at h1; cases h1
      · rw [hm] at h1; cases h1
  · obtain ⟨w, hw, ho⟩ := h.field hf
    have hnil : occs evs a = [] := by
      apply Classical.byContradiction; intro hne; exact hocc (occs_ne_nil.1 hne)
    have hdv := (h.stackWF.field hf).defaultSrc.2 hdef
    rw [hnil, fieldOut, defaultContent, hdv] at hw
    simp [toField, hk] at hw
    subst hw
    exact ⟨false, ho, by simp; exact fun v hv => hocc ⟨v, hv⟩⟩

example : ∃ f, Written Sample.cx [Sample.root] ⟨0, 1, 0⟩ f (blit "-vq") ∧ f.kind = .bool
    ∧ f.src.defaultValue = none ∧ f.src.defaultValueT.isNone = true := by
  obtain ⟨f, hr, hp⟩ := Sample.resolve (fun f => decide (f.kind = .bool) && decide (f.src.defaultValue = none) && f.src.defaultValueT.isNone)
    (st := [Sample.root]) (n := .short 'q') (a := ⟨0, 1, 0⟩) (by decide +kernel)
  obtain ⟨w, hrw, hpw⟩ := Sample.resolve (fun f => !takesValue f && !f.src.requireEquals)
    (st := [Sample.root]) (n := .short 'v') (a := ⟨0, 0, 0⟩) (by decide +kernel)
  simp only [Bool.and_eq_true, Bool.not_eq_true', decide_eq_true_eq] at hp hpw
  refine ⟨f, .short (fl := ['v']) (c := 'q') ?_ hr, hp.1.1, hp.1.2, hp.2⟩
  intro x hx; rw [List.mem_singleton] at hx; subst hx; exact ⟨_, w, hrw, hpw.1, hpw.2⟩

example : Sample.failure (Sample.parse ["app", "--quiet="]) = some (.error { kind := .unexpectedInlineValue, argDesc := some (lit "-q, --quiet"), input := some [] })
    ∧ Sample.failure (Sample.parse ["app", "-vq=yes"]) = some (.error { kind := .unexpectedInlineValue, argDesc := some (lit "-q, --quiet"), input := some (blit "yes") })
    ∧ Sample.value (Sample.parse ["app", "-vq", "x"]) ["output", "quiet"] = some (.bool true)
    ∧ Sample.value (Sample.parse ["app", "-vq", "x"]) ["file"] = some (.option (some (lit "x")))
    ∧ Sample.value (Sample.parse ["app", "-v", "x"]) ["output", "quiet"] = some (.bool false) := by decide +kernel

/-! ## C32 -/

/-- C32: after a successful parse, an `Option<Option<T>>` field without default is `None` if absent, `Some(None)` after a bare
occurrence, `Some(Some(v))` after an occurrence with value. -/
theorem C32_three_states (h : Parsed cx d argv0 toks evs κ out) {a : Addr} {f : FieldInfo V}
    (hf : fieldAt κ.stack a = some f) (hk : f.kind = .optionOption)
    (hdef : f.src.defaultValue = none ∧ f.src.defaultValueT.isNone = true) :
    ((∀ v, (a, v) ∉ evs) → outAt κ.stack out a = some (f.ident, .field (.optOpt none)))
    ∧ ((a, none) ∈ evs → outAt κ.stack out a = some (f.ident, .field (.optOpt (some none))))
    ∧ ∀ v, (a, some v) ∈ evs → ∃ x, f.parser.parse (if f.src.ignoreCase then asciiLower v else v) = .ok x
        ∧ outAt κ.stack out a = some (f.ident, .field (.optOpt (some (some x)))) := by
  have hm : isMulti f = false := by simp [isMulti, hk]
  refine ⟨fun hocc => ?_, fun hocc => ?_, fun v hocc => ?_⟩
  · obtain ⟨w, hw, ho⟩ := h.field hf
    have hnil : occs evs a = [] := by
      apply Classical.byContradiction; intro hne
      obtain ⟨v, hv⟩ := occs_ne_nil.1 hne
      exact hocc v hv
    have hdv := (h.stackWF.field hf).defaultSrc.2 hdef
    rw [hnil, fieldOut, defaultContent, hdv] at hw
    simp [toField, hk] at hw
    subst hw
    exact ho
  · rcases C21_given_wins h hf hocc hm with ⟨h1, _⟩ | ⟨_, _, ho⟩ | ⟨b, x, hb, _⟩
    · rw [hk] at h1; cases h1
    · exact ho
    · cases hb
  · rcases C21_given_wins h hf hocc hm with ⟨h1, _⟩ | ⟨_, h1, _⟩ | ⟨b, x, hb, hx, ho⟩
    · rw [hk] at h1; cases h1
    · cases h1
    · cases hb
      rw [hk] at ho
      exact ⟨x, hx, ho⟩

/-- C32: bare, in long and short form, the next argument is never its value. -/
theorem C32_bare (hd : DerivedArgs cx d) {pre : List Bytes} {tok : Bytes} {evs1 : List Event}
    {st : List (Entry V)} {k : Nat} (hpre : Reads cx (start argv0 d) pre evs1 ⟨st, k, .opts⟩) {a : Addr} {f : FieldInfo V}
    (hw : Written cx st a f tok) (hk : f.kind = .optionOption) :
    ∃ flags, (∀ x ∈ flags, x.2 = none)
      ∧ After cx d argv0 (pre ++ [tok]) (evs1 ++ (flags ++ [(a, none)])) ⟨st, k, .opts⟩ :=
  C33_bare_step hd hpre hw (by simp [takesValue, hk])

/-- C32: `--name=v` gives the value.  The same for `-c=v` is documented but does not hold, see
`C32_short_value_rejected`. -/
theorem C32_long_value_partial (hd : DerivedArgs cx d) {pre : List Bytes} {evs1 : List Event}
    {st : List (Entry V)} {k : Nat} (hpre : Reads cx (start argv0 d) pre evs1 ⟨st, k, .opts⟩) {a : Addr} {f : FieldInfo V} {n : Str}
    (hr : Resolves cx st (.long n) a f) (hk : f.kind = .optionOption) (v : Bytes) :
    After cx d argv0 (pre ++ [enc ('-' :: '-' :: n) ++ eqSign :: v]) (evs1 ++ [(a, some v)]) ⟨st, k, .opts⟩ := by
  have hwf := (stack_wf hd.wf (reads_steps hpre)).1
  exact after_reads hd (reads_append hpre (step_reads (.longEq (toks := []) hr (hwf.long hr).2 (by simp [hk])) .done))

/-- C32, finding 1: the short form `-c=v` of an `Option<Option<T>>` option is always rejected; if all values (also `v`) are
acceptable, as an unexpected argument `-=`. -/
theorem C32_short_value_rejected (hd : DerivedArgs cx d) {pre ts : List Bytes} {tok : Bytes} {evs1 : List Event}
    {st : List (Entry V)} {k : Nat} (hpre : Reads cx (start argv0 d) pre evs1 ⟨st, k, .opts⟩) {a : Addr} {f : FieldInfo V}
    (hw : WrittenShort cx st a f tok) (hk : f.kind = .optionOption) (v : Bytes) :
    ∃ flags e, (∀ x ∈ flags, x.2 = none) ∧ tryParseFrom d (argv0 :: pre ++ (tok ++ eqSign :: v) :: ts) = .error (.error e)
      ∧ (Acceptable st (evs1 ++ (flags ++ [(a, some v)])) → e = { kind := .unknownNamedArgument, input := some (blit "-=") }) := by
  have hwf := (stack_wf hd.wf (reads_steps hpre)).1
  cases hw with
  | @short fl c hfl hr =>
    obtain ⟨hc1, hc2⟩ := hwf.short hr
    obtain ⟨flags, h0, hs⟩ := short_stuck (ts := ts) (r := encChar c ++ eqSign :: v) hd hpre hfl (by simp) (encChar_head_ne_dash hc1 _)
      (encChar_head_ne_eq hc2 _) (.optionalValue hr hk)
    obtain ⟨e, h1, _, h3⟩ := stuck_fails hd hpre hs
    refine ⟨flags, e, h0, ?_, fun ha => by rw [h3 ha]; rfl⟩
    rw [← h1]; simp

example : ∃ f, Resolves Sample.cx [Sample.root] (.long (lit "color")) ⟨0, 0, 4⟩ f ∧ f.kind = .optionOption
    ∧ f.src.defaultValue = none ∧ f.src.defaultValueT.isNone = true := by
  obtain ⟨f, hr, hp⟩ := Sample.resolve (fun f => decide (f.kind = .optionOption) && decide (f.src.defaultValue = none) && f.src.defaultValueT.isNone)
    (st := [Sample.root]) (n := .long (lit "color")) (a := ⟨0, 0, 4⟩) (by decide +kernel)
  simp only [Bool.and_eq_true, decide_eq_true_eq] at hp
  exact ⟨f, hr, hp.1.1, hp.1.2, hp.2⟩

example : Sample.value (Sample.parse ["app", "x"]) ["color"] = some (.optOpt none)
    ∧ Sample.value (Sample.parse ["app", "--color", "x"]) ["color"] = some (.optOpt (some none))
    ∧ Sample.value (Sample.parse ["app", "--color", "x"]) ["file"] = some (.option (some (lit "x")))
    ∧ Sample.value (Sample.parse ["app", "--color=x"]) ["color"] = some (.optOpt (some (some (lit "x")))) := by decide +kernel

namespace Sample

/-- `struct { #[arg(short, long, require_equals = true)] color: Option<Option<String>> }`. -/
def colorDecls : List (FieldDecl Val) :=
  [ .arg (lit "color") (.option (.option string)) { short := some .inherit, long := some .inherit, requireEquals := true } ]

def colorCli : ArgsDef Val := get (deriveArgs Sample.cx none colorDecls)

theorem colorCli_derived : DerivedArgs Sample.cx colorCli := derived_leaf (by decide) (by decide)

end Sample

/-- C32, finding 1, on a CLI: `--color=x` is accepted, `-c` is accepted, `-c=x` is not. -/
theorem C32_short_value_witness : DerivedArgs Sample.cx Sample.colorCli
    ∧ Sample.value (tryParseFrom Sample.colorCli (["app", "--color=x"].map blit)) ["color"] = some (.optOpt (some (some (lit "x"))))
    ∧ Sample.value (tryParseFrom Sample.colorCli (["app", "-c"].map blit)) ["color"] = some (.optOpt (some none))
    ∧ Sample.failure (tryParseFrom Sample.colorCli (["app", "-c=x"].map blit))
      = some (.error { kind := .unknownNamedArgument, input := some (blit "-=") }) :=
  ⟨Sample.colorCli_derived, by decide +kernel⟩

end Palc
