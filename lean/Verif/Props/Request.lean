import Verif.Props.Errors
import Verif.Props.Names
import Verif.Lemmas.Rename
/-!
# argv[0] (C44), help texts of errors and `render_long_help` (C36)
-/

namespace Palc

open Spec

variable {V : Type} {cx : Cx V} {d : ArgsDef V} {argv0 : Bytes} {toks : List Bytes} {evs : List Event} {κ : Ctx V}
  {out : Out V} {e : Error}

/-! ## C44 -/

/-- C44: without `argv[0]`, parsing fails. -/
theorem C44_missing (d : ArgsDef V) : tryParseFrom d [] = .error (.error { kind := .missingArg0 }) := rfl

theorem accepts_rename {a b : Bytes} (h : Accepts cx d a toks out) : Accepts cx d b toks out := by
  obtain ⟨evs, κ, h1, h2, h3⟩ := h
  refine ⟨evs, renameCtx (progName b) κ, ?_, ?_, ?_⟩
  · rw [← start_rename a b d]
    exact reads_iff_steps.2 (steps_rename (reads_iff_steps.1 h1))
  · exact (allOk_rename _ _ _ _).2 h2
  · exact (outAll_rename _ _ _ _).trans h3

/-- C44: the name in `argv[0]` does not influence a successful result. -/
theorem C44_result (hd : DerivedArgs cx d) (a b : Bytes) (toks : List Bytes) (out : Out V) :
    tryParseFrom d (a :: toks) = .ok out ↔ tryParseFrom d (b :: toks) = .ok out := by
  rw [C23_accepts_iff hd, C23_accepts_iff hd]
  exact ⟨accepts_rename, accepts_rename⟩

theorem rejects_rename {a b : Bytes} {x : Fail} (h : Rejects cx d a toks x) :
    Rejects cx d b toks x ∨ ∃ st, x = .error (helpRequest st) ∧ st ≠ [] ∧ st.getLast? = some (⟨[], progName a⟩, d)
      ∧ Rejects cx d b toks (.error (helpRequest (renameRoot (progName b) st))) := by
  cases h with
  | @value evs κ rest e h hb =>
    have := steps_rename (b := progName b) h
    rw [start_rename] at this
    exact .inl (.value this (firstBad_rename hb))
  | @valueStuck evs κ e e' h hb =>
    have := halts_rename (b := progName b) h
    rw [start_rename] at this
    exact .inl (.valueStuck this (firstBad_rename hb))
  | @stuck evs κ e h ha =>
    have h1 := halts_rename (b := progName b) h
    rw [start_rename] at h1
    have h2 := Rejects.stuck h1 (acceptable_rename ha)
    by_cases he : e = helpRequest κ.stack
    · subst he
      rw [renameErr_help] at h2
      obtain ⟨evs1, evs2, rest, h3, _, _⟩ := h
      obtain ⟨ext, hx⟩ := steps_stack h3
      refine .inr ⟨κ.stack, rfl, ?_, ?_, h2⟩
      · rw [hx]; simp [start]
      · rw [hx]; simp [start]
    · unfold renameErr at h2
      rw [if_neg he] at h2
      exact .inl h2
  | @invalid evs κ e h ha hf =>
    refine .inl (.invalid (evs := evs) (κ := renameCtx (progName b) κ) ?_ (acceptable_rename ha) ?_)
    · rw [← start_rename a b d]
      exact reads_iff_steps.2 (steps_rename (reads_iff_steps.1 h))
    · exact (allFail_rename _ _ _ _).trans hf

/-- C44: the name in `argv[0]` does not influence which failure is reported; only help texts contain it. -/
theorem C44_failure (hd : DerivedArgs cx d) (a b : Bytes) (toks : List Bytes) (x : Fail)
    (hx : ∀ e, x = .error e → e.kind ≠ .help) : tryParseFrom d (a :: toks) = .error x ↔ tryParseFrom d (b :: toks) = .error x := by
  rw [C23_rejects_iff hd, C23_rejects_iff hd]
  constructor <;> intro h <;> rcases rejects_rename h with h | ⟨st, h, _⟩
  · exact h
  · exact absurd rfl (hx _ h)
  · exact h
  · exact absurd rfl (hx _ h)

theorem clusterStuck_request {st : List (Entry V)} {next : Option Bytes} {b : Bytes} (h : ClusterStuck cx st next b evs e)
    (hk : e.kind = .help) : e = helpRequest st := by
  induction h with
  | more _ _ _ _ _ _ ih => exact ih hk
  | help => rfl
  | unknown | invalid | optionalValue => simp [unexpected] at hk
  | missingEqAttached | missingEq | missingValue | flagValue => rw [about_kind] at hk; cases hk

theorem stuck_request {κ : Ctx V} (h : Stuck cx κ toks evs e) (hk : e.kind = .help) : e = helpRequest κ.stack := by
  cases h with
  | longHelp => rfl
  | cluster hb hc => exact clusterStuck_request hc hk
  | longUnknown => simp [unexpected] at hk
  | flagValue | missingEq | missingValue => rw [about_kind] at hk; cases hk
  | surplus | dashed => simp only [surplus] at hk; split at hk <;> cases hk

/-- C44: the help text of a request contains the program name; the texts for two names differ only there. -/
theorem C44_help (hd : DerivedArgs cx d) (a b : Bytes) (toks : List Bytes) (e : Error)
    (h : tryParseFrom d (a :: toks) = .error (.error e)) (hk : e.kind = .help) :
    ∃ pre post, e = { kind := .help, help := some (pre ++ progName a ++ post) }
      ∧ tryParseFrom d (b :: toks) = .error (.error { kind := .help, help := some (pre ++ progName b ++ post) }) := by
  have key : ∃ inner : List (Entry V), e = helpRequest (inner ++ [(⟨[], progName a⟩, d)])
      ∧ Rejects cx d b toks (.error (helpRequest (renameRoot (progName b) (inner ++ [(⟨[], progName a⟩, d)])))) := by
    cases (C23_rejects_iff hd a toks _).1 h with
    | @value evs κ rest e h hb => have := firstBad_kind hb; rw [hk] at this; cases this
    | @valueStuck evs κ e e' h hb => have := firstBad_kind hb; rw [hk] at this; cases this
    | @stuck evs κ e h ha =>
      obtain ⟨evs1, evs2, rest, h3, h4, _⟩ := id h
      obtain ⟨ext, hx⟩ := steps_stack h3
      have he := stuck_request h4 hk
      have h1 := halts_rename (b := progName b) h
      rw [start_rename] at h1
      have h2 := Rejects.stuck h1 (acceptable_rename ha)
      rw [he, renameErr_help, hx] at h2
      rw [hx] at he
      exact ⟨ext, he, h2⟩
    | invalid h ha hf =>
      have := allFail_kind hf
      simp only [Fail.ofConstraint, hk, ErrorKind.ofConstraint] at this
      cases this
  obtain ⟨inner, rfl, hr⟩ := key
  obtain ⟨post, h1, h2⟩ := cmdline_rename (progName a) (progName b) ⟨[], progName a⟩ d inner rfl
  have key : ∃ pre post, commandHelp (inner ++ [(⟨[], progName a⟩, d)]) = pre ++ progName a ++ post
      ∧ commandHelp (renameRoot (progName b) (inner ++ [(⟨[], progName a⟩, d)])) = pre ++ progName b ++ post := by
    have hi : ∃ i i' d' st st', inner ++ [(⟨[], progName a⟩, d)] = (i, d') :: st
        ∧ renameRoot (progName b) (inner ++ [(⟨[], progName a⟩, d)]) = (i', d') :: st' := by
      cases inner with
      | nil => exact ⟨_, _, _, _, _, rfl, rfl⟩
      | cons x inner =>
        obtain ⟨i', h3, _⟩ := renameRoot_cons (progName b) x.1 x.2 (inner ++ [(⟨[], progName a⟩, d)])
        exact ⟨x.1, i', x.2, _, _, rfl, h3⟩
    obtain ⟨i, i', d', st, st', e1, e2⟩ := hi
    rw [e1] at h1
    rw [e2] at h2
    rw [e2, e1]
    simp only [commandHelp]
    rw [h1, h2, renderHelp_eq, renderHelp_eq]
    refine ⟨aboutPart (d'.info.help 4) ++ lit "Usage:" ++ [' '], post ++ usagePart d'.info ++ lit "\n\n" ++ commandsPart d'.info
      ++ sectionOf (lit "Arguments:\n") (d'.info.help 3) ++ sectionOf (lit "Options:\n") (d'.info.help 2) ++ d'.info.help 5, ?_, ?_⟩ <;>
      simp only [List.append_assoc, List.cons_append, List.nil_append]
  obtain ⟨pre, post, h3, h4⟩ := key
  refine ⟨pre, post, ?_, ?_⟩
  · unfold helpRequest; rw [h3]
  · unfold helpRequest at hr; rw [h4] at hr; exact (C23_rejects_iff hd _ _ _).2 hr

/-- A failure that does not depend on `argv[0]`, and help that does. -/
example : Sample.failure (Sample.parse ["app", "--bad"]) = Sample.failure (Sample.parse ["tool", "--bad"])
    ∧ (Sample.failure (Sample.parse ["app", "--bad"])).map Fail.kind? = some (some .unknownNamedArgument)
    ∧ (Sample.failure (Sample.parse ["app", "add", "--help"])).map Fail.kind? = some (some .help)
    ∧ Sample.failure (Sample.parse ["app", "add", "--help"]) ≠ Sample.failure (Sample.parse ["tool", "add", "--help"]) := by
  decide +kernel

/-- `argv[0]` that looks like an option or a subcommand. -/
example : Sample.isOk (Sample.parse ["--verbose", "run", "x"]) = true ∧ Sample.isOk (Sample.parse ["run", "run", "x"]) = true
    ∧ (Sample.value (Sample.parse ["--jobs=3"]) [("jobs")]).isSome := by decide +kernel

/-! ## C36 -/

theorem parse_no_help {f : FieldInfo V} {b : Bytes} (h : f.parser.parse b = .error e) : e.help = none := by
  cases hp : f.parser with
  | valueEnum d =>
    rw [hp] at h
    simp only [ValueParser.parse] at h
    split at h
    · split at h
      · cases h
      · cases h; rfl
    · cases h; rfl
  | tryFromOsStr g =>
    rw [hp] at h
    simp only [ValueParser.parse] at h
    split at h
    · cases h
    · cases h; rfl
  | fromStr g =>
    rw [hp] at h
    simp only [ValueParser.parse] at h
    split at h
    · split at h
      · cases h
      · cases h; rfl
    · cases h; rfl

theorem about_help (f : FieldInfo V) (e : Error) : (about f e).help = e.help := by
  unfold about
  split <;> rfl

theorem firstBad_no_help {st : List (Entry V)} {log evs : List Event} (h : FirstBad st log evs e) : e.help = none := by
  obtain ⟨_, _, _, _, f, e0, _, _, _, hb, rfl⟩ := h
  rw [about_help]
  generalize Option.map _ _ = x at hb
  cases hb with
  | flagValue | duplicate => rfl
  | invalid _ _ _ hv => exact parse_no_help hv
  | piece _ _ _ hv => exact parse_no_help hv

theorem clusterStuck_no_help {st : List (Entry V)} {next : Option Bytes} {b : Bytes} (h : ClusterStuck cx st next b evs e)
    (hk : e.kind ≠ .help) : e.help = none := by
  induction h with
  | more _ _ _ _ _ _ ih => exact ih hk
  | help => exact absurd rfl hk
  | unknown | invalid | optionalValue => rfl
  | missingEqAttached | missingEq | missingValue | flagValue => rw [about_help]

theorem stuck_no_help {κ : Ctx V} (h : Stuck cx κ toks evs e) (hk : e.kind ≠ .help) : e.help = none := by
  cases h with
  | longHelp => exact absurd rfl hk
  | cluster hb hc => exact clusterStuck_no_help hc hk
  | longUnknown | surplus | dashed => rfl
  | flagValue | missingEq | missingValue => rw [about_help]

theorem structFails_no_help {c : Core V} {os : Nat → List (Option Bytes)} {sub need : Bool}
    (h : StructFails c os sub need (.error e)) : e.help = none := by
  cases h with
  | error h => cases h <;> rfl

/-- C36: an error returned by parsing has a help text exactly if it is a help request; `try_into_help` returns this text, or the
error itself. -/
theorem C36_try_into_help (hd : DerivedArgs cx d) {argv : List Bytes} (h : tryParseFrom d argv = .error (.error e)) :
    (e.kind = .help ∧ ∃ text, e.help = some text ∧ e.tryIntoHelp = .ok text)
      ∨ (e.kind ≠ .help ∧ e.tryIntoHelp = .error e) := by
  have none_case : e.kind ≠ .help → e.help = none → (e.kind = .help ∧ ∃ text, e.help = some text ∧ e.tryIntoHelp = .ok text)
      ∨ (e.kind ≠ .help ∧ e.tryIntoHelp = .error e) := by
    intro h1 h2
    refine .inr ⟨h1, ?_⟩
    unfold Error.tryIntoHelp
    rw [h2]
  cases argv with
  | nil => rw [C44_missing] at h; cases h; exact none_case (by simp) rfl
  | cons argv0 toks =>
    cases (C23_rejects_iff hd argv0 toks _).1 h with
    | value _ hb =>
      refine none_case ?_ (firstBad_no_help hb)
      intro hk; have := firstBad_kind hb; rw [hk] at this; cases this
    | valueStuck _ hb =>
      refine none_case ?_ (firstBad_no_help hb)
      intro hk; have := firstBad_kind hb; rw [hk] at this; cases this
    | stuck hh ha =>
      obtain ⟨_, _, _, _, hst, _⟩ := hh
      by_cases hk : e.kind = .help
      · rw [stuck_request hst hk]
        exact .inl ⟨rfl, _, rfl, rfl⟩
      · exact none_case hk (stuck_no_help hst hk)
    | @invalid evs κ _ hr ha hf =>
      have hwf := (stack_wf hd.wf (reads_steps hr)).1
      obtain ⟨pre, i, d', outer, k, c, h1, h2, h3, _, _⟩ := allFail_some hwf hf
      refine none_case ?_ (structFails_no_help h3)
      intro hk
      have := allFail_kind hf
      simp only [Fail.ofConstraint, hk, ErrorKind.ofConstraint] at this
      cases this

/-- C36: errors made by the user are given back. -/
theorem C36_custom (reason : Str) : (Error.customErr reason).tryIntoHelp = .error (Error.customErr reason) := rfl

/-- Does the root command have an option `--help` of its own? -/
def OwnHelp (cx : Cx V) (d : ArgsDef V) : Prop := ∃ c ∈ structs d, ∃ f ∈ c.fields, declares cx f (.long (lit "help")) = true

theorem fieldAt_root {i : CmdId} {f : FieldInfo V} :
    (∃ a, fieldAt [(i, d)] a = some f ∧ a.level = 0) ↔ ∃ c ∈ structs d, f ∈ c.fields := by
  constructor
  · rintro ⟨a, h, hl⟩
    simp only [fieldAt, List.length_nil, hl, if_true] at h
    split at h
    · rename_i c hc
      exact ⟨c, List.mem_of_getElem? hc, List.mem_of_getElem? h⟩
    · cases h
  · rintro ⟨c, hc, hf⟩
    obtain ⟨k, hk⟩ := List.getElem?_of_mem hc
    obtain ⟨n, hn⟩ := List.getElem?_of_mem hf
    exact ⟨⟨0, k, n⟩, by simp [fieldAt, hk, hn], rfl⟩

theorem unknown_root {i : CmdId} {n : Name} :
    Unknown cx [(i, d)] n ↔ ¬ ∃ c ∈ structs d, ∃ f ∈ c.fields, declares cx f n = true := by
  rw [unknown_iff]
  constructor
  · rintro h ⟨c, hc, f, hf, hdec⟩
    obtain ⟨a, ha, hl⟩ := (fieldAt_root (i := i)).2 ⟨c, hc, hf⟩
    rw [h a f ha (.inl (by simp [hl]))] at hdec
    cases hdec
  · intro h b g hb hs
    cases hdec : declares cx g n with
    | false => rfl
    | true =>
      have hl : b.level = 0 := by
        simp only [fieldAt, List.length_nil] at hb
        split at hb
        · assumption
        · cases hb
      obtain ⟨c, hc, hf⟩ := (fieldAt_root (i := i)).1 ⟨b, hb, hl⟩
      exact absurd ⟨c, hc, g, hf, hdec⟩ h

/-- C36: `render_long_help` returns the help text of the root command, unless the command has an option `--help` of its own. -/
theorem C36_render (hd : DerivedArgs cx d) (hh : ¬ OwnHelp cx d) (argv0 : Str) :
    renderLongHelp d argv0 = .ok (commandHelp (start (enc argv0) d).stack) := by
  have : tryParseFrom d [enc argv0, blit "--help"] = .error (.error (helpRequest (start (enc argv0) d).stack)) := by
    rw [C23_rejects_iff hd]
    refine .stuck (evs := []) (κ := start (enc argv0) d) ⟨[], [], _, .refl, ?_, rfl⟩ ?_
    · exact .longHelp (tail := []) (.inl rfl) (unknown_root.2 hh)
    · intro a f hf
      simp [occs, given, content]
  unfold renderLongHelp
  rw [this]
  rfl

/-- C36, finding 3: with an option `--help` of its own, `render_long_help` panics, whatever kind of option it is. -/
theorem C36_own_help (hd : DerivedArgs cx d) (hh : OwnHelp cx d) (argv0 : Str) : renderLongHelp d argv0 = .error .panic := by
  unfold renderLongHelp
  split
  · rfl
  · rfl
  · rename_i e he
    rcases C36_try_into_help hd he with ⟨hk, _⟩ | ⟨_, h⟩
    · exfalso
      obtain ⟨pre, tok, post, evs, st, k, hu, hR, hfor, hcase⟩ := C35_help_only hd he hk
      have hpre : pre = [] := by
        cases pre with
        | nil => rfl
        | cons x pre => simp at hu
      subst hpre
      simp only [List.nil_append, List.cons.injEq] at hu
      cases hR
      rcases hcase with ⟨tail, _, _, hsc⟩ | ⟨fl, r, htok, hfl, _⟩
      · exact unknown_root.1 (unknown_iff.2 (fun b g hb hs => hsc b g ⟨hb, hs⟩)) hh
      · rw [htok] at hu
        have h1 : dash :: blit "help" = enc fl ++ (encChar 'h' ++ r) := (List.cons.inj hu.1).2
        cases fl with
        | nil => rw [enc, List.flatMap_nil, List.nil_append] at h1; exact absurd (congrArg List.head? h1) (by simp [encChar_ascii]; decide)
        | cons c fl =>
          obtain ⟨a, f, hr, _⟩ := hfl c (by simp)
          rw [enc_cons, List.append_assoc] at h1
          have hc : c = '-' := Classical.byContradiction (fun hc => encChar_head_ne_dash hc (enc fl ++ (encChar 'h' ++ r)) (by rw [← h1]; rfl))
          subst hc
          have hwf := (StackWF.field (stack_wf hd.wf (argv0 := enc argv0) (.refl (toks := []))).1 (resolves_fieldAt hr)).toFieldPre
          have hdec := resolves_declares hr
          simp only [declares, Bool.and_eq_true, List.contains_eq_mem, decide_eq_true_eq] at hdec
          exact (hwf.shortOk hdec.1 '-' hdec.2).1 rfl
    · rw [h]; rfl

/-- The sample CLI has no option `--help`. -/
example : ¬ OwnHelp Sample.cx Sample.cli := by
  have h : ((structs Sample.cli).all (fun c => c.fields.all (fun f => !declares Sample.cx f (.long (lit "help"))))) = true := by
    decide +kernel
  rintro ⟨c, hc, f, hf, hdec⟩
  have := List.all_eq_true.1 (List.all_eq_true.1 h c hc) f hf
  rw [hdec] at this
  cases this

namespace Sample

/-- `struct { #[arg(long)] help: bool }`. -/
def ownHelpCli : ArgsDef Val := get (deriveArgs Sample.cx none [.arg (lit "help") .bool { long := some .inherit }])

end Sample

/-- C36, finding 3: a witness; `--help` works as an option, `-h` still shows the help. -/
theorem C36_own_help_witness : DerivedArgs Sample.cx Sample.ownHelpCli ∧ OwnHelp Sample.cx Sample.ownHelpCli
    ∧ renderLongHelp Sample.ownHelpCli (lit "app") = .error .panic
    ∧ Sample.value (tryParseFrom Sample.ownHelpCli (["app", "--help"].map blit)) ["help"] = some (.bool true)
    ∧ (Sample.failure (tryParseFrom Sample.ownHelpCli (["app", "-h"].map blit))).map Fail.kind? = some (some .help) := by
  have hd : DerivedArgs Sample.cx Sample.ownHelpCli := Sample.derived_leaf (by decide) (by decide)
  have ho : OwnHelp Sample.cx Sample.ownHelpCli := by
    have h : ((structs Sample.ownHelpCli).any (fun c => c.fields.any (fun f => declares Sample.cx f (.long (lit "help"))))) = true := by
      decide +kernel
    obtain ⟨c, hc, h⟩ := List.any_eq_true.1 h
    obtain ⟨f, hf, h⟩ := List.any_eq_true.1 h
    exact ⟨c, hc, f, hf, h⟩
  exact ⟨hd, ho, C36_own_help hd ho _, by decide +kernel, by decide +kernel⟩

end Palc
