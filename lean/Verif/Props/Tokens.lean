import Verif.Lemmas.Positional
import Verif.Lemmas.Kinds
import Verif.Lemmas.After
/-!
# How arguments are distributed: `--`, positional arguments, subcommands (C04, C09, C10, C11, C12, C13)
-/

namespace Palc

open Spec

variable {V : Type} {cx : Cx V} {d : ArgsDef V} {argv0 : Bytes} {toks : List Bytes} {evs : List Event} {κ : Ctx V}
  {out : Out V}

/-! ## C04 -/

/-- C04: in a successful parse, every argument after a `--` (standing where options are recognised) is a value of a
positional argument of the current command, verbatim and in order; no further command is entered.  The result is what
these values and the occurrences before are worth. -/
theorem C04_dashdash_tail (hd : DerivedArgs cx d) {pre ts : List Bytes} {evs1 : List Event} {st : List (Entry V)} {k : Nat}
    (hpre : Reads cx (start argv0 d) pre evs1 ⟨st, k, .opts⟩) (h : tryParseFrom d (argv0 :: pre ++ [dash, dash] :: ts) = .ok out) :
    ∃ E, Explains st (evs1 ++ E) out ∧ E.map (·.2) = ts.map some
      ∧ ∀ e ∈ E, ∃ f, fieldAt st e.1 = some f ∧ isOption f = false ∧ e.1.level + 1 = st.length ∧ e.1.struct = 0 := by
  obtain ⟨E, κ, hR, hx⟩ := ok_after_step hd hpre (.dashdash (toks := ts)) h
  obtain ⟨h1, h2, h3, h4⟩ := steps_no_opts (reads_steps hR) (by simp) (by intro j hj; simp at hj)
  simp only at h1
  rw [h1] at hx
  exact ⟨E, hx, by simpa using h3.symm, h4⟩

/-- C04: what fails after such a `--` does not fail as an option (or as a help request). -/
theorem C04_dashdash_errors (hd : DerivedArgs cx d) {pre ts : List Bytes} {evs1 : List Event}
    {st : List (Entry V)} {k : Nat} (hpre : Reads cx (start argv0 d) pre evs1 ⟨st, k, .opts⟩) {e : Error}
    (h : tryParseFrom d (argv0 :: pre ++ [dash, dash] :: ts) = .error (.error e)) :
    e.kind ≠ .help ∧ e.kind ≠ .unknownNamedArgument ∧ e.kind ≠ .missingEq ∧ e.kind ≠ .missingValue := by
  have hv : e.kind.ofValue = true → e.kind ≠ .help ∧ e.kind ≠ .unknownNamedArgument ∧ e.kind ≠ .missingEq ∧ e.kind ≠ .missingValue := by
    intro h; refine ⟨?_, ?_, ?_, ?_⟩ <;> intro hk <;> rw [hk] at h <;> cases h
  rcases accepts_or_rejects hd.wf argv0 (pre ++ [dash, dash] :: ts) with ⟨out, ha⟩ | ⟨e', hr⟩
  · have := accepts_sound hd.wf ha
    rw [List.cons_append] at h
    rw [this] at h; cases h
  · have hs := rejects_sound hd.wf hr
    rw [List.cons_append, hs] at h
    cases h
    have hst := steps_trans (steps_append (reads_steps hpre) ([dash, dash] :: ts)) (.step .dashdash .refl)
    cases hr with
    | value _ hb => exact hv (firstBad_kind hb)
    | valueStuck _ hb => exact hv (firstBad_kind hb)
    | stuck hh _ =>
      obtain ⟨E, _, E1, E2, r, h1, h2, _⟩ := steps_halts_det hst hh
      obtain ⟨_, hm, _⟩ := steps_no_opts h1 (by simp) (by intro j hj; simp at hj)
      cases h2 with
      | dashed => simp only [surplus]; split <;> simp
      | _ => simp at hm
    | invalid _ _ hf =>
      have := allFail_kind hf
      simp only [Fail.ofConstraint] at this
      refine ⟨?_, ?_, ?_, ?_⟩ <;> intro hk <;> rw [hk] at this <;> cases this

/-- `run -- -x -- run`: an option, a further `--` and a subcommand name after `--`. -/
example : ∃ out st, tryParseFrom Sample.cli (blit "app" :: [blit "run"] ++ [dash, dash] :: ["-x", "--", "run"].map blit) = .ok out
    ∧ Reads Sample.cx (start (blit "app") Sample.cli) [blit "run"] [] ⟨st, 0, .opts⟩ := by
  obtain ⟨evs, κ, out, h, _⟩ := Sample.parsed ["run", "--", "-x", "--", "run"] (fun _ _ _ => true) (by decide +kernel)
  exact ⟨out, _, h.ok, Sample.reads_run⟩

example : Sample.value (Sample.parse ["app", "run", "--", "-x", "--", "run"]) ["cmd", "Run", "args"] = some (.vec [lit "--", lit "run"])
    ∧ Sample.value (Sample.parse ["app", "run", "--", "-x", "--", "run"]) ["cmd", "Run", "prog"] = some (.value (lit "-x")) := by
  decide +kernel

example : ∃ e st, Reads Sample.cx (start (blit "app") Sample.cli) [blit "-v", blit "add"] [(⟨0, 0, 0⟩, none)] ⟨st, 0, .opts⟩
    ∧ tryParseFrom Sample.cli (blit "app" :: [blit "-v", blit "add"] ++ [dash, dash] :: ["--force"].map blit) = .error (.error e)
    ∧ e.kind = .missingRequiredArgument :=
  ⟨_, _, Sample.reads_add, Sample.fails ["app", "-v", "add", "--", "--force"]
    (e := .error { kind := .missingRequiredArgument, argDesc := some (lit "<PATHS>...") }) (by decide +kernel), rfl⟩

/-! ## C09 -/

/-- C09: after a successful parse, the `j`-th argument read as positional (not counting those for `arg(last)`) by an
entered command went to its `j`-th single-valued positional field, or to its variable-length one if there are not that
many; whatever options came in between. -/
theorem C09_positional_order (h : Parsed cx d argv0 toks evs κ out) {pre outer : List (Entry V)} {i : CmdId} {e : ArgsDef V}
    (hst : κ.stack = pre ++ (i, e) :: outer) {j : Nat} {ev : Event}
    (hj : (evs.filter (isPositionalAt κ.stack outer.length))[j]? = some ev) :
    ∃ x, ev.1 = ⟨outer.length, 0, x.2⟩ ∧ (coreOf e).fields[x.2]? = some x.1
      ∧ ((singles e)[j]? = some x ∨ ((singles e).length ≤ j ∧ varArg e = some x)) := by
  have hinv := PosInv.steps (reads_steps h.reads) (log := []) (S := κ.stack)
    (.init (steps_stack (reads_steps h.reads))) ⟨[], rfl⟩ (by
      intro a f hf hm
      exact given_single (h.acceptable a f hf) hm)
  rw [List.nil_append] at hinv
  obtain ⟨x, hx, he⟩ := hinv.filled pre i e outer hst j ev hj
  refine ⟨x, he, (posTarget_field hx).2.2, ?_⟩
  unfold posTarget at hx
  split at hx
  · rename_i y hy; cases hx; exact .inl hy
  · rename_i hy; exact .inr ⟨List.getElem?_eq_none_iff.1 hy, hx⟩

/-- `run prog -v x`: the second positional argument, after an option, goes to `args`. -/
example : ∃ evs κ out pre i e outer ev, Parsed Sample.cx Sample.cli (blit "app") (["run", "prog", "-v", "x"].map blit) evs κ out
    ∧ κ.stack = pre ++ (i, e) :: outer ∧ (evs.filter (isPositionalAt κ.stack outer.length))[1]? = some ev
    ∧ ev = (⟨1, 0, 1⟩, some (blit "x")) := by
  obtain ⟨evs, κ, out, h, hp⟩ := Sample.parsed ["run", "prog", "-v", "x"]
    (fun evs κ _ => decide ((evs.filter (isPositionalAt κ.stack 1))[1]? = some ((⟨1, 0, 1⟩ : Addr), some (blit "x")))
      && decide (κ.stack.length = 2)) (by decide +kernel)
  simp only [Bool.and_eq_true, decide_eq_true_eq] at hp
  obtain ⟨h1, h2⟩ := hp
  match hst : κ.stack, h2 with
  | [(i, e), y], _ => exact ⟨evs, κ, out, [], i, e, [y], _, h, hst, hst ▸ h1, rfl⟩

/-! ## C10 -/

/-- C10: an argument that is positional (not an option, not a subcommand name), when all single-valued positional fields
are taken and there is no variable-length one: parsing fails, and with the error quoting it if all values before are
acceptable. -/
theorem C10_surplus_rejected (hd : DerivedArgs cx d) {pre ts : List Bytes} {evs1 : List Event}
    {i : CmdId} {e : ArgsDef V} {st : List (Entry V)} {k : Nat} (hpre : Reads cx (start argv0 d) pre evs1 ⟨(i, e) :: st, k, .opts⟩)
    {tok : Bytes} (hp : Plain tok) (hns : ∀ v ∈ subVariants e, enc v.name ≠ tok) (hs : (singles e).length ≤ k) (hv : varArg e = none) :
    (Acceptable ((i, e) :: st) evs1 → tryParseFrom d (argv0 :: pre ++ tok :: ts) = .error (.error
      { kind := if hasSub e then .unknownSubcommand else .extraPositionalArgument, input := some tok }))
    ∧ ∀ out, tryParseFrom d (argv0 :: pre ++ tok :: ts) ≠ .ok out := by
  have hx : posTarget e k = none := by
    unfold posTarget; rw [List.getElem?_eq_none_iff.2 hs]; exact hv
  have := stuck_error hd hpre (.surplus (toks := ts) hp hns hx)
  rw [List.append_nil] at this
  exact this

/-- C10: the same after `--`, for any argument, if there is no `arg(last)` field. -/
theorem C10_surplus_after_dashdash (hd : DerivedArgs cx d) {pre ts : List Bytes} {evs1 : List Event}
    {i : CmdId} {e : ArgsDef V} {st : List (Entry V)} {k : Nat} (hpre : Reads cx (start argv0 d) pre evs1 ⟨(i, e) :: st, k, .dashed⟩)
    (tok : Bytes) (hl : lastArg e = none) (hs : (singles e).length ≤ k) (hv : varArg e = none) :
    (Acceptable ((i, e) :: st) evs1 → tryParseFrom d (argv0 :: pre ++ tok :: ts) = .error (.error
      { kind := if hasSub e then .unknownSubcommand else .extraPositionalArgument, input := some tok }))
    ∧ ∀ out, tryParseFrom d (argv0 :: pre ++ tok :: ts) ≠ .ok out := by
  have hx : posTarget e k = none := by
    unfold posTarget; rw [List.getElem?_eq_none_iff.2 hs]; exact hv
  have := stuck_error hd hpre (.dashed (toks := ts) (tok := tok) hl hx)
  rw [List.append_nil] at this
  exact this

/-- C10: `k` above is the number of positional arguments the current command has read. -/
theorem C10_count {pre : List Bytes} {evs1 : List Event} {i : CmdId} {e : ArgsDef V} {st : List (Entry V)} {k : Nat} {m : Mode}
    (hpre : Reads cx (start argv0 d) pre evs1 ⟨(i, e) :: st, k, m⟩) (hm : m = .opts ∨ m = .dashed)
    (hacc : Acceptable ((i, e) :: st) evs1) :
    k = (evs1.filter (isPositionalAt ((i, e) :: st) st.length)).length := by
  have hinv := PosInv.steps (reads_steps hpre) (log := []) (S := (i, e) :: st)
    (.init (steps_stack (reads_steps hpre))) ⟨[], rfl⟩ (by
      intro a f hf hm
      exact given_single (hacc a f hf) hm)
  rw [List.nil_append] at hinv
  exact (hinv.count i e st rfl (by rcases hm with rfl | rfl <;> simp)).symm

/-- `app a b`: `file` is taken. -/
example : ∃ evs1 κ1, Reads Sample.cx (start (blit "app") Sample.cli) (["a"].map blit) evs1 κ1 ∧ κ1.stack = [Sample.root]
    ∧ κ1.npos = 1 ∧ κ1.mode = .opts ∧ (singles Sample.cli).length ≤ 1 ∧ varArg Sample.cli = none
    ∧ Plain (blit "b") ∧ (∀ v ∈ subVariants Sample.cli, enc v.name ≠ blit "b") := by
  refine ⟨[(⟨0, 0, 8⟩, some (blit "a"))], ⟨[Sample.root], 1, .opts⟩, ?_, rfl, rfl, rfl, by decide +kernel, ?_, .inl (by decide), by decide +kernel⟩
  · rw [Sample.start_app]
    have hx : ∃ x, posTarget Sample.cli 0 = some x ∧ x.2 = 8 ∧ x.1.src.trailingVarArg = false := by
      have : (posTarget Sample.cli 0).any (fun x => decide (x.2 = 8) && !x.1.src.trailingVarArg) = true := by decide +kernel
      rw [Option.any_eq_true] at this
      obtain ⟨x, h1, h2⟩ := this
      simp only [Bool.and_eq_true, decide_eq_true_eq, Bool.not_eq_true'] at h2
      exact ⟨x, h1, h2⟩
    obtain ⟨x, h1, h2, h3⟩ := hx
    have := Reads.positional (cx := Sample.cx) (i := ⟨[], lit "app"⟩) (st := []) (tok := blit "a") (toks := []) (.inl (by decide))
      (by decide +kernel) h1 .done
    rw [h2, modeAfter, h3] at this
    exact this
  · have : (varArg Sample.cli).isNone = true := by decide +kernel
    simpa using this

example : Sample.failure (Sample.parse ["app", "a", "b"]) = some (.error { kind := .unknownSubcommand, input := some (blit "b") })
    ∧ Sample.failure (Sample.parse ["app", "drop", "a", "b", "--bad"])
      = some (.error { kind := .extraPositionalArgument, input := some (blit "b") })
    ∧ Sample.failure (Sample.parse ["app", "drop", "a", "--", "-b"])
      = some (.error { kind := .extraPositionalArgument, input := some (blit "-b") }) := by decide +kernel

/-! ## C11 -/

/-- C11: when an argument is the first value of a `trailing_var_arg` field, it and all following arguments are values of
that field, whatever they look like: the result is what these values and the occurrences before are worth. -/
theorem C11_trailing_takes_all (hd : DerivedArgs cx d) {pre ts : List Bytes} {evs1 : List Event} {i : CmdId} {e : ArgsDef V}
    {st : List (Entry V)} {k : Nat} {m : Mode} {tok : Bytes} {x : FieldInfo V × Nat}
    (hpre : Reads cx (start argv0 d) pre evs1 ⟨(i, e) :: st, k, m⟩) (h : tryParseFrom d (argv0 :: pre ++ tok :: ts) = .ok out)
    (hm : (m = .opts ∧ Plain tok ∧ ∀ v ∈ subVariants e, enc v.name ≠ tok) ∨ (m = .dashed ∧ lastArg e = none))
    (hx : posTarget e k = some x) (ht : x.1.src.trailingVarArg = true) :
    Explains ((i, e) :: st) (evs1 ++ (tok :: ts).map (fun t => (⟨st.length, 0, x.2⟩, some t))) out := by
  have hs : Step cx ⟨(i, e) :: st, k, m⟩ (tok :: ts) [(⟨st.length, 0, x.2⟩, some tok)] ⟨(i, e) :: st, k + 1, .trailing x.2⟩ ts := by
    rcases hm with ⟨rfl, h1, h2⟩ | ⟨rfl, h1⟩
    · have := Step.positional (cx := cx) (i := i) (st := st) (toks := ts) h1 h2 hx
      rw [modeAfter, if_pos ht] at this
      exact this
    · have := Step.dashed (cx := cx) (i := i) (st := st) (toks := ts) (tok := tok) h1 hx
      rw [modeAfter, if_pos ht] at this
      exact this
  obtain ⟨E, κ, hR, hE⟩ := ok_after_step hd hpre hs h
  obtain ⟨rfl, rfl⟩ := reads_det (κ := ⟨(i, e) :: st, k + 1, .trailing x.2⟩) hR (trailing_reads ts)
  exact hE

/-- C11: it cannot fail in reading them either. -/
theorem C11_trailing_reads (hd : DerivedArgs cx d) {pre ts : List Bytes} {evs1 : List Event} {i : CmdId} {e : ArgsDef V} {st : List (Entry V)}
    {k j : Nat} (hpre : Reads cx (start argv0 d) pre evs1 ⟨(i, e) :: st, k, .trailing j⟩) :
    After cx d argv0 (pre ++ ts) (evs1 ++ ts.map (fun t => (⟨st.length, 0, j⟩, some t))) ⟨(i, e) :: st, k, .trailing j⟩ :=
  after_reads hd (reads_append hpre (trailing_reads ts))

/-- C11: hence, if that argument and those before it can be read, parsing fails because of values or constraints only,
whatever follows it. -/
theorem C11_trailing_errors (hd : DerivedArgs cx d) {pre ts : List Bytes} {evs1 : List Event} {i : CmdId} {e : ArgsDef V}
    {st : List (Entry V)} {k j : Nat} (hpre : Reads cx (start argv0 d) pre evs1 ⟨(i, e) :: st, k, .trailing j⟩) {er : Error}
    (h : tryParseFrom d (argv0 :: pre ++ ts) = .error (.error er)) : er.kind.ofValue = true ∨ er.kind.ofConstraint = true :=
  (after_reads hd hpre).error ts _ _ er (trailing_reads ts) h

/-- `run prog x -v -- run`. -/
example : ∃ out x i e st, tryParseFrom Sample.cli (blit "app" :: [blit "run", blit "--", blit "prog"] ++ blit "x" :: ["-v", "--", "run"].map blit) = .ok out
    ∧ Reads Sample.cx (start (blit "app") Sample.cli) [blit "run", blit "--", blit "prog"] [(⟨1, 0, 0⟩, some (blit "prog"))] ⟨(i, e) :: st, 1, .dashed⟩
    ∧ lastArg e = none ∧ posTarget e 1 = some x ∧ x.1.src.trailingVarArg = true := by
  obtain ⟨evs, κ, out, h, _⟩ := Sample.parsed ["run", "--", "prog", "x", "-v", "--", "run"] (fun _ _ _ => true) (by decide +kernel)
  have hl : lastArg Sample.run = none := by
    have : (lastArg Sample.run).isNone = true := by decide +kernel
    simpa using this
  have h0 : (posTarget Sample.run 0).any (fun x => decide (x.2 = 0) && !x.1.src.trailingVarArg) = true := by decide +kernel
  have h1 : (posTarget Sample.run 1).any (fun x => x.1.src.trailingVarArg) = true := by decide +kernel
  rw [Option.any_eq_true] at h0 h1
  obtain ⟨x, hx, hx2⟩ := h0
  obtain ⟨y, hy, hy2⟩ := h1
  simp only [Bool.and_eq_true, decide_eq_true_eq, Bool.not_eq_true'] at hx2
  refine ⟨out, y, ⟨lit "Run", lit "run"⟩, Sample.run, [Sample.root], h.ok, reads_append (toks := [_]) (evs := []) Sample.reads_run (.dashdash ?_), hl, hy, hy2⟩
  have := Reads.dashed (cx := Sample.cx) (i := ⟨lit "Run", lit "run"⟩) (st := [Sample.root]) (tok := blit "prog") (toks := []) hl hx .done
  rw [hx2.1, modeAfter, hx2.2] at this
  exact this

example : Sample.value (Sample.parse ["app", "run", "prog", "x", "-v", "--", "run"]) ["cmd", "Run", "args"]
    = some (.vec [lit "x", lit "-v", lit "--", lit "run"]) := by decide +kernel

/-! ## C12 -/

/-- The occurrences of an `arg(last)` field come after a `--`. -/
theorem last_after (h : Parsed cx d argv0 toks evs κ out) {a : Addr} {f : FieldInfo V}
    (hf : fieldAt κ.stack a = some f) (hl : f.src.last = true) {v : Option Bytes} (hv : (a, v) ∈ evs) :
    ∃ pre post evs1 evs2 κ1, toks = pre ++ [dash, dash] :: post ∧ Reads cx (start argv0 d) pre evs1 κ1 ∧ κ1.mode = .opts
      ∧ evs = evs1 ++ evs2 ∧ (∀ e ∈ evs1, e.1 ≠ a) ∧ evs2.map (·.2) = post.map some := by
  have hno : isOption f = false := by
    have := (h.stackWF.field hf).namedNoLast
    cases ho : isOption f with
    | false => rfl
    | true => rw [(this ho).1] at hl; cases hl
  rcases steps_last (reads_steps h.reads) (by simp [start]) (start_mode argv0 d) with h1 | ⟨evs1, κ1, post, evs2, g1, g2, g3, g4, g5⟩
  · have := h1 _ hv f hf
    rw [hno, hl] at this
    simp at this
  · obtain ⟨pre, q1, q2⟩ := steps_split g1
    obtain ⟨_, _, r3, _⟩ := steps_no_opts g4 (by simp) (by intro j hj; simp at hj)
    refine ⟨pre, post, evs1, evs2, κ1, q1, q2, g2, g3, ?_, by simpa using r3.symm⟩
    intro e he hea
    have := g5 e he f (hea ▸ hf)
    rw [hno, hl] at this
    simp at this

/-- C12: after a successful parse, the result is what certain occurrences are worth, and for each `arg(last)` field with
an occurrence there is a `--` standing where options are recognised, such that no occurrence of the field comes from
before it, and the arguments after it are the values read since. -/
theorem C12_last_needs_dashdash (hd : DerivedArgs cx d) (h : tryParseFrom d (argv0 :: toks) = .ok out) :
    ∃ (evs : List Event) (κ : Ctx V), Parsed cx d argv0 toks evs κ out ∧ Explains κ.stack evs out
      ∧ ∀ (a : Addr) (f : FieldInfo V), fieldAt κ.stack a = some f → f.src.last = true → occs evs a ≠ [] →
      ∃ pre post evs1 evs2 κ1, toks = pre ++ [dash, dash] :: post ∧ Reads cx (start argv0 d) pre evs1 κ1 ∧ κ1.mode = .opts
      ∧ evs = evs1 ++ evs2 ∧ (∀ e ∈ evs1, e.1 ≠ a) ∧ evs2.map (·.2) = post.map some := by
  obtain ⟨evs, κ, hp⟩ := Parsed.of_ok hd h
  refine ⟨evs, κ, hp, hp.explains, fun a f hf hl ho => ?_⟩
  obtain ⟨v, hv⟩ := occs_ne_nil.1 ho
  exact last_after hp hf hl hv

/-- C12: without a `--` among the arguments, an `arg(last)` field has the value it has without any occurrence. -/
theorem C12_no_dashdash (hd : DerivedArgs cx d) (h : tryParseFrom d (argv0 :: toks) = .ok out) (hno : [dash, dash] ∉ toks) :
    ∃ (evs : List Event) (κ : Ctx V), Parsed cx d argv0 toks evs κ out ∧ Explains κ.stack evs out
      ∧ ∀ (a : Addr) (f : FieldInfo V), fieldAt κ.stack a = some f → f.src.last = true → occs evs a = [] := by
  obtain ⟨evs, κ, hp, hx, hl⟩ := C12_last_needs_dashdash hd h
  refine ⟨evs, κ, hp, hx, fun a f hf hlast => ?_⟩
  apply Classical.byContradiction
  intro hne
  obtain ⟨pre, post, _, _, _, h1, _⟩ := hl a f hf hlast hne
  exact hno (by rw [h1]; simp)

/-- C12: in a command with an `arg(last)` field, all arguments after `--` are values of that field. -/
theorem C12_last_takes_all (hd : DerivedArgs cx d) {pre ts : List Bytes} {evs1 : List Event} {i : CmdId} {e : ArgsDef V}
    {st : List (Entry V)} {k : Nat} {x : FieldInfo V × Nat} (hpre : Reads cx (start argv0 d) pre evs1 ⟨(i, e) :: st, k, .opts⟩)
    (h : tryParseFrom d (argv0 :: pre ++ [dash, dash] :: ts) = .ok out)
    (hx : (coreOf e).fields[x.2]? = some x.1) (hl : x.1.src.last = true) :
    Explains ((i, e) :: st) (evs1 ++ ts.map (fun t => (⟨st.length, 0, x.2⟩, some t))) out := by
  obtain ⟨E, κ, hR, hE⟩ := ok_after_step hd hpre (.dashdash (toks := ts)) h
  have hwf := (stack_wf hd.wf (reads_steps hpre)).1 (i, e) (by simp)
  have hcore : coreOf e ∈ structs e := by obtain ⟨c, fl, sb⟩ := e; simp [structs, coreOf]
  have hc := WFArgs.structs e hwf _ hcore
  have hlast : lastArg e = some x := lastArg_unique hc hx hl
  obtain ⟨rfl, rfl⟩ := reads_det (κ := ⟨(i, e) :: st, k, .dashed⟩) hR (last_reads hlast ts)
  exact hE

/-- `add y -- -z add`. -/
example : ∃ evs κ out f, Parsed Sample.cx Sample.cli (blit "app") (["add", "y", "--", "-z", "add"].map blit) evs κ out
    ∧ fieldAt κ.stack ⟨1, 0, 2⟩ = some f ∧ f.src.last = true ∧ occs evs ⟨1, 0, 2⟩ ≠ [] := by
  obtain ⟨evs, κ, out, h, hp⟩ := Sample.parsed ["add", "y", "--", "-z", "add"]
    (fun evs κ _ => (fieldAt κ.stack ⟨1, 0, 2⟩).any (fun f : FieldInfo Sample.Val => f.src.last)
      && evs.any (fun e => decide (e.1 = ⟨1, 0, 2⟩))) (by decide +kernel)
  simp only [Bool.and_eq_true, Option.any_eq_true, List.any_eq_true, decide_eq_true_eq] at hp
  obtain ⟨⟨f, hf, hk⟩, e, h1, h2⟩ := hp
  exact ⟨evs, κ, out, f, h, hf, hk, occs_ne_nil.2 ⟨e.2, h2 ▸ h1⟩⟩

example : Sample.value (Sample.parse ["app", "add", "y", "--", "-z", "add"]) ["cmd", "Add", "rest"]
    = some (.vec [lit "-z", lit "add"]) := by decide +kernel

/-! ## C13 -/

/-- C13: where options are recognised, an argument equal to the name of a subcommand of the current command enters a
subcommand of that name: the remaining arguments are read by it, and the result holds that variant in the value of the
current command. -/
theorem C13_subcommand_entered (hd : DerivedArgs cx d) {pre ts : List Bytes} {evs1 : List Event} {i : CmdId} {e : ArgsDef V}
    {st : List (Entry V)} {k : Nat} {v : Variant V} (hpre : Reads cx (start argv0 d) pre evs1 ⟨(i, e) :: st, k, .opts⟩)
    (h : tryParseFrom d (argv0 :: pre ++ enc v.name :: ts) = .ok out) (hv : v ∈ subVariants e) (hp : Plain (enc v.name)) :
    ∃ w ∈ subVariants e, w.name = v.name
    ∧ (∃ E κ, Reads cx ⟨(⟨variantIdent w, w.name⟩, variantDef w) :: (i, e) :: st, 0, .opts⟩ ts E κ ∧ Explains κ.stack (evs1 ++ E) out
      ∧ ∃ ext, κ.stack = ext ++ (⟨variantIdent w, w.name⟩, variantDef w) :: (i, e) :: st)
    ∧ ∃ o o', commandAt ((i, e) :: st) out = some o ∧ subAt o = some (variantIdent w, o') := by
  obtain ⟨w, hw, hname⟩ := selected_exists hv
  rw [← hname] at h hp
  obtain ⟨E, κ, hR, hE⟩ := ok_after_step hd hpre (.sub (toks := ts) hw hp) h
  obtain ⟨ext, hext⟩ := steps_stack (reads_steps hR)
  exact ⟨w, hw.mem, hname, ⟨E, κ, hR, hE, ext, hext⟩, hE.entered _ _ _ _ _ hext⟩

/-- C13: if no other subcommand has that name (which the macros do not check, finding 2), it is exactly that subcommand. -/
theorem C13_subcommand_selects (hd : DerivedArgs cx d) {pre ts : List Bytes} {evs1 : List Event} {i : CmdId} {e : ArgsDef V}
    {st : List (Entry V)} {k : Nat} {v : Variant V} (hpre : Reads cx (start argv0 d) pre evs1 ⟨(i, e) :: st, k, .opts⟩)
    (h : tryParseFrom d (argv0 :: pre ++ enc v.name :: ts) = .ok out) (hv : v ∈ subVariants e)
    (hu : ∀ w ∈ subVariants e, w.name = v.name → w = v) (hp : Plain (enc v.name)) :
    (∃ E κ, Reads cx ⟨(⟨variantIdent v, v.name⟩, variantDef v) :: (i, e) :: st, 0, .opts⟩ ts E κ ∧ Explains κ.stack (evs1 ++ E) out
      ∧ ∃ ext, κ.stack = ext ++ (⟨variantIdent v, v.name⟩, variantDef v) :: (i, e) :: st)
    ∧ ∃ o o', commandAt ((i, e) :: st) out = some o ∧ subAt o = some (variantIdent v, o') := by
  obtain ⟨w, hw, hname, h1⟩ := C13_subcommand_entered hd hpre h hv hp
  rw [hu w hw hname] at h1
  exact h1

/-- C13: an argument not starting with '-' (or exactly `-`) that is not equal to the name of a subcommand is positional: in
a successful parse it is the value of a positional field of the current command, which stays the current command. -/
theorem C13_otherwise_positional (hd : DerivedArgs cx d) {pre ts : List Bytes} {evs1 : List Event} {i : CmdId} {e : ArgsDef V}
    {st : List (Entry V)} {k : Nat} {tok : Bytes} (hpre : Reads cx (start argv0 d) pre evs1 ⟨(i, e) :: st, k, .opts⟩)
    (h : tryParseFrom d (argv0 :: pre ++ tok :: ts) = .ok out) (hp : Plain tok) (hns : ∀ v ∈ subVariants e, enc v.name ≠ tok) :
    ∃ (x : FieldInfo V × Nat) (E : List Event) (κ1 κ : Ctx V), (coreOf e).fields[x.2]? = some x.1 ∧ isOption x.1 = false
      ∧ κ1.stack = (i, e) :: st ∧ Reads cx κ1 ts E κ ∧ Explains κ.stack (evs1 ++ (⟨st.length, 0, x.2⟩, some tok) :: E) out := by
  cases hx : posTarget e k with
  | none =>
    have := (stuck_error hd hpre (.surplus (toks := ts) hp hns hx)).2 out
    exact absurd h this
  | some x =>
    obtain ⟨E, κ, hR, hE⟩ := ok_after_step hd hpre (.positional (toks := ts) hp hns hx) h
    exact ⟨x, E, _, κ, (posTarget_field hx).2.2, (posTarget_field hx).2.1, rfl, hR, by simpa using hE⟩

/-- `app -v add -f y`. -/
example : ∃ out v, tryParseFrom Sample.cli (blit "app" :: [blit "-v"] ++ enc v.name :: ["-f", "y"].map blit) = .ok out
    ∧ v ∈ subVariants Sample.cli ∧ (∀ w ∈ subVariants Sample.cli, w.name = v.name → w = v) ∧ Plain (enc v.name) := by
  obtain ⟨evs, κ, out, h, _⟩ := Sample.parsed ["-v", "add", "-f", "y"] (fun _ _ _ => true) (by decide +kernel)
  refine ⟨out, .args (lit "Add") (lit "add") Sample.add, h.ok, by exact List.mem_cons_self, ?_, .inl (by decide)⟩
  intro w hw hn
  exact selected_unique (Sample.selected hw) (Sample.selected List.mem_cons_self) hn

/-- `app -v ad`: not a subcommand name, hence `file`. -/
example : ∃ out, tryParseFrom Sample.cli (blit "app" :: [blit "-v"] ++ blit "ad" :: []) = .ok out
    ∧ Reads Sample.cx (start (blit "app") Sample.cli) [blit "-v"] [(⟨0, 0, 0⟩, none)] ⟨[Sample.root], 0, .opts⟩
    ∧ Plain (blit "ad") ∧ ∀ v ∈ subVariants Sample.cli, enc v.name ≠ blit "ad" := by
  obtain ⟨evs, κ, out, h, _⟩ := Sample.parsed ["-v", "ad"] (fun _ _ _ => true) (by decide +kernel)
  exact ⟨out, h.ok, Sample.reads_v, .inl (by decide), by decide +kernel⟩

end Palc
