import Verif.Lemmas.Parsed
import Verif.Lemmas.Exchange
import Verif.Lemmas.After
/-!
# Every argument is read, one after the other (C29, C47)
-/

namespace Palc

open Spec

variable {V : Type} {cx : Cx V} {d : ArgsDef V} {argv0 : Bytes} {toks : List Bytes} {evs : List Event} {κ : Ctx V}
  {out : Out V}

/-- How one or two arguments were used. -/
inductive Use
  /-- An argument with options and possibly a value. -/
  | option (tok : Bytes) (evs : List Event)
  /-- An argument with options, and the value of the last of them. -/
  | optionValue (tok v : Bytes) (flags : List Event) (a : Addr)
  | positional (tok : Bytes) (a : Addr)
  | subcommand (name : Str)
  | dashdash

/-- The arguments used. -/
def Use.args : Use → List Bytes
  | .option tok _ => [tok]
  | .optionValue tok v _ _ => [tok, v]
  | .positional tok _ => [tok]
  | .subcommand name => [enc name]
  | .dashdash => [[dash, dash]]

/-- The occurrences of fields they are. -/
def Use.occurrences : Use → List Event
  | .option _ evs => evs
  | .optionValue _ v flags a => flags ++ [(a, some v)]
  | .positional tok a => [(a, some tok)]
  | .subcommand _ => []
  | .dashdash => []

/-- Option arguments start with '-' and are occurrences of at least one field. -/
def Use.Ok : Use → Prop
  | .option tok evs => tok.head? = some dash ∧ tok ≠ [dash] ∧ evs ≠ []
  | .optionValue tok _ _ _ => tok.head? = some dash ∧ tok ≠ [dash]
  | _ => True

/-- The name if it was used as a subcommand. -/
def Use.sub? : Use → Option Str
  | .subcommand name => some name
  | _ => none

def Use.isDashdash : Use → Bool
  | .dashdash => true
  | _ => false

theorem cluster_evs {st : List (Entry V)} {next : Option Bytes} {b : Bytes} {evs : List Event} {took : Bool}
    (h : Cluster cx st next b evs took) : evs ≠ [] ∧ (took = true → ∃ flags a v, evs = flags ++ [(a, some v)] ∧ next = some v) := by
  induction h with
  | bare | eq | attached => exact ⟨by simp, by simp⟩
  | more _ _ _ _ _ _ ih =>
    refine ⟨by simp, fun ht => ?_⟩
    obtain ⟨flags, a, v, h1, h2⟩ := ih.2 ht
    exact ⟨_ :: flags, a, v, by rw [h1]; rfl, h2⟩
  | sep _ _ _ hn _ => exact ⟨by simp, fun _ => ⟨[], _, _, rfl, hn⟩⟩

theorem step_use {κ κ1 : Ctx V} {toks rest : List Bytes} {evs : List Event} (h : Step cx κ toks evs κ1 rest) :
    ∃ u : Use, toks = u.args ++ rest ∧ evs = u.occurrences ∧ u.Ok
      ∧ κ1.stack.map (·.1.name) = u.sub?.toList ++ κ.stack.map (·.1.name)
      ∧ (if u.isDashdash then κ.mode = .opts ∧ κ1.mode ≠ .opts else κ.mode ≠ .opts → κ1.mode ≠ .opts) := by
  have hl : ∀ (n : Str) (t : Bytes), (enc ('-' :: '-' :: n) ++ t).head? = some dash ∧ enc ('-' :: '-' :: n) ++ t ≠ [dash] := by
    intro n t; rw [long_tok]; simp
  cases h with
  | longEq hr hn ht => exact ⟨.option _ _, rfl, rfl, ⟨(hl _ _).1, (hl _ _).2, by simp⟩, rfl, by simp [Use.isDashdash]⟩
  | longBare hr hn hne ht =>
    exact ⟨.option _ _, rfl, rfl, ⟨by simpa using (hl _ []).1, by simpa using (hl _ []).2, by simp⟩, rfl, by simp [Use.isDashdash]⟩
  | longSep hr hn hne ht hq hs =>
    exact ⟨.optionValue _ _ [] _, rfl, rfl, ⟨by simpa using (hl _ []).1, by simpa using (hl _ []).2⟩, rfl, by simp [Use.isDashdash]⟩
  | cluster hb hc =>
    exact ⟨.option _ _, rfl, rfl, ⟨rfl, by simpa using cluster_ne hc, (cluster_evs hc).1⟩, rfl, by simp [Use.isDashdash]⟩
  | clusterSep hb hc =>
    obtain ⟨flags, a, v, h1, h2⟩ := (cluster_evs hc).2 rfl
    cases h2
    exact ⟨.optionValue _ _ flags a, rfl, h1, ⟨rfl, by simpa using cluster_ne hc⟩, rfl, by simp [Use.isDashdash]⟩
  | sub hv hp => exact ⟨.subcommand _, rfl, rfl, trivial, rfl, by simp [Use.isDashdash]⟩
  | positional hp hns hx => exact ⟨.positional _ _, rfl, rfl, trivial, rfl, by simp [Use.isDashdash]⟩
  | dashdash => exact ⟨.dashdash, rfl, rfl, trivial, rfl, by simp [Use.isDashdash]⟩
  | last hx => exact ⟨.positional _ _, rfl, rfl, trivial, rfl, by simp [Use.isDashdash]⟩
  | dashed hl hx =>
    refine ⟨.positional _ _, rfl, rfl, trivial, rfl, ?_⟩
    simp only [Use.isDashdash, Bool.false_eq_true, ↓reduceIte, modeAfter]
    intro _; split <;> simp
  | trailing => exact ⟨.positional _ _, rfl, rfl, trivial, rfl, by simp [Use.isDashdash]⟩

theorem steps_uses {κ κ1 : Ctx V} {toks rest : List Bytes} {evs : List Event} (h : Steps cx κ toks evs κ1 rest) :
    ∃ us : List Use, toks = us.flatMap Use.args ++ rest ∧ evs = us.flatMap Use.occurrences ∧ (∀ u ∈ us, u.Ok)
      ∧ κ1.stack.map (·.1.name) = (us.filterMap Use.sub?).reverse ++ κ.stack.map (·.1.name)
      ∧ (us.filter Use.isDashdash).length ≤ (if κ.mode = .opts then 1 else 0) := by
  induction h with
  | refl => exact ⟨[], rfl, rfl, by simp, rfl, by simp⟩
  | step h hs ih =>
    obtain ⟨us, h1, h2, h3, h4, h5⟩ := ih
    obtain ⟨u, g1, g2, g3, g4, g5⟩ := step_use h
    refine ⟨u :: us, by rw [g1, h1]; simp, by rw [g2, h2]; simp, by simpa using ⟨g3, h3⟩, ?_, ?_⟩
    · rw [h4, g4]
      cases hu : u.sub? <;> simp [hu]
    · cases hu : u.isDashdash with
      | false =>
        rw [hu] at g5
        simp only [Bool.false_eq_true, ↓reduceIte] at g5
        simp only [List.filter_cons, hu, Bool.false_eq_true, ↓reduceIte]
        refine Nat.le_trans h5 ?_
        split
        · rename_i hm
          split
          · exact Nat.le_refl _
          · rename_i hk; exact absurd hm (g5 hk)
        · exact Nat.zero_le _
      | true =>
        rw [hu] at g5
        simp only [↓reduceIte] at g5
        simp only [List.filter_cons, hu, ↓reduceIte, List.length_cons]
        rw [if_pos g5.1]
        rw [if_neg g5.2] at h5
        omega

/-- C29: in a successful parse the arguments are, in order, exactly the arguments used: each is part of exactly one use,
the occurrences behind the result are exactly those of the uses, the entered commands are exactly those named, and at
most one `--` was a marker.  The result is what these occurrences are worth. -/
theorem C29_all_consumed (hd : DerivedArgs cx d) (h : tryParseFrom d (argv0 :: toks) = .ok out) :
    ∃ (us : List Use) (evs : List Event) (κ : Ctx V), Parsed cx d argv0 toks evs κ out ∧ Explains κ.stack evs out
      ∧ toks = us.flatMap Use.args ∧ evs = us.flatMap Use.occurrences ∧ (∀ u ∈ us, u.Ok)
      ∧ (κ.stack.map (·.1.name)).reverse = progName argv0 :: us.filterMap Use.sub?
      ∧ (us.filter Use.isDashdash).length ≤ 1 := by
  obtain ⟨evs, κ, hp⟩ := Parsed.of_ok hd h
  obtain ⟨us, h1, h2, h3, h4, h5⟩ := steps_uses (reads_steps hp.reads)
  refine ⟨us, evs, κ, hp, hp.explains, by simpa using h1, h2, h3, ?_, by simpa [start] using h5⟩
  rw [h4]
  simp [start]

/-- C29: a successful parse has exactly one reading of its arguments. -/
theorem C29_reading_unique (hd : DerivedArgs cx d) (h : tryParseFrom d (argv0 :: toks) = .ok out) :
    ∃ evs κ, Parsed cx d argv0 toks evs κ out ∧ ∀ evs' κ', Reads cx (start argv0 d) toks evs' κ' → evs' = evs ∧ κ' = κ := by
  obtain ⟨evs, κ, hp⟩ := Parsed.of_ok hd h
  refine ⟨evs, κ, hp, fun evs' κ' h' => ?_⟩
  obtain ⟨h1, h2⟩ := reads_det hp.reads h'
  exact ⟨h1.symm, h2.symm⟩

example : ∃ evs κ out, Parsed Sample.cx Sample.cli (blit "app") (["-vc", "x", "add", "y", "--", "-z"].map blit) evs κ out := by
  obtain ⟨evs, κ, out, h, _⟩ := Sample.parsed ["-vc", "x", "add", "y", "--", "-z"] (fun _ _ _ => true) (by decide +kernel)
  exact ⟨evs, κ, out, h⟩

/-- C47: after a prefix that was read completely, what the parser does with the rest is determined by the occurrences in the
prefix and the context after it, in which the rest is read. -/
theorem C47_compositional (hd : DerivedArgs cx d) {pre : List Bytes} {evs1 : List Event} {κ1 : Ctx V}
    (hpre : Reads cx (start argv0 d) pre evs1 κ1) : After cx d argv0 pre evs1 κ1 :=
  after_reads hd hpre

/-- C47: two prefixes with the same occurrences leading to the same context are interchangeable, whatever follows (same
result, same error). -/
theorem C47_prefix_exchange (hd : DerivedArgs cx d) {pre1 pre2 : List Bytes} {evs1 : List Event}
    {κ1 : Ctx V} (h1 : Reads cx (start argv0 d) pre1 evs1 κ1) (h2 : Reads cx (start argv0 d) pre2 evs1 κ1) (post : List Bytes) :
    tryParseFrom d (argv0 :: pre1 ++ post) = tryParseFrom d (argv0 :: pre2 ++ post) :=
  outcome_ext hd.wf (steps_append (reads_steps h1) post) (steps_append (reads_steps h2) post)

/-- What one step reads is determined by the next two arguments. -/
theorem step_lookahead {κ κ1 : Ctx V} {t1 t2 : Bytes} {rest rest1 : List Bytes} {evs : List Event}
    (h : Step cx κ (t1 :: t2 :: rest) evs κ1 rest1) :
    (rest1 = t2 :: rest ∧ ∀ rest', Step cx κ (t1 :: t2 :: rest') evs κ1 (t2 :: rest'))
      ∨ (rest1 = rest ∧ ∀ rest', Step cx κ (t1 :: t2 :: rest') evs κ1 rest') := by
  generalize hT : t1 :: t2 :: rest = T at h
  cases h with
  | longEq hr hn ht => cases hT; exact .inl ⟨rfl, fun _ => .longEq hr hn ht⟩
  | longBare hr hn hne ht => cases hT; exact .inl ⟨rfl, fun _ => .longBare hr hn hne ht⟩
  | longSep hr hn hne ht hq hs => cases hT; exact .inr ⟨rfl, fun _ => .longSep hr hn hne ht hq hs⟩
  | cluster hb hc => cases hT; exact .inl ⟨rfl, fun _ => .cluster hb (by simpa using hc)⟩
  | clusterSep hb hc => cases hT; exact .inr ⟨rfl, fun _ => .clusterSep hb hc⟩
  | sub hv hp => cases hT; exact .inl ⟨rfl, fun _ => .sub hv hp⟩
  | positional hp hns hx => cases hT; exact .inl ⟨rfl, fun _ => .positional hp hns hx⟩
  | dashdash => cases hT; exact .inl ⟨rfl, fun _ => .dashdash⟩
  | last hx => cases hT; exact .inl ⟨rfl, fun _ => .last hx⟩
  | dashed hl hx => cases hT; exact .inl ⟨rfl, fun _ => .dashed hl hx⟩
  | trailing => cases hT; exact .inl ⟨rfl, fun _ => .trailing⟩

/-- So is whether it fails. -/
theorem stuck_lookahead {κ : Ctx V} {t1 t2 : Bytes} {rest : List Bytes} {evs : List Event} {e : Error}
    (h : Stuck cx κ (t1 :: t2 :: rest) evs e) (rest' : List Bytes) : Stuck cx κ (t1 :: t2 :: rest') evs e := by
  generalize hT : t1 :: t2 :: rest = T at h
  cases h with
  | longUnknown h1 h2 h3 h4 h5 h6 => cases hT; exact .longUnknown h1 h2 h3 h4 h5 h6
  | longHelp h1 h2 => cases hT; exact .longHelp h1 h2
  | flagValue h1 h2 h3 => cases hT; exact .flagValue h1 h2 h3
  | missingEq h1 h2 h3 h4 h5 => cases hT; exact .missingEq h1 h2 h3 h4 h5
  | missingValue h1 h2 h3 h4 h5 h6 => cases hT; exact .missingValue h1 h2 h3 h4 h5 (by simpa using h6)
  | cluster h1 h2 => cases hT; exact .cluster h1 (by simpa using h2)
  | surplus h1 h2 h3 => cases hT; exact .surplus h1 h2 h3
  | dashed h1 h2 => cases hT; exact .dashed h1 h2

/-- C47: at most one argument is looked at in advance: after a prefix that was read completely, the next two arguments
decide: either the first of them or both are read, and the parser goes on after them, whatever follows; or parsing fails,
with the same error whatever follows. -/
theorem C47_lookahead (hd : DerivedArgs cx d) {pre : List Bytes} {evs1 : List Event} {κ1 : Ctx V}
    (hpre : Reads cx (start argv0 d) pre evs1 κ1) (t1 t2 : Bytes) :
    (∃ u E κ2, (u = [t1] ∨ u = [t1, t2]) ∧ After cx d argv0 (pre ++ u) (evs1 ++ E) κ2)
    ∨ ∃ e, ∀ rest, tryParseFrom d (argv0 :: pre ++ t1 :: t2 :: rest) = .error (.error e) := by
  rcases reach hd.wf (reads_steps hpre) with ⟨ls, S⟩ | ⟨e, hb⟩
  · rcases progress S (toks := [t1, t2]) (by simp) with ⟨E, κ2, rest, hs, _⟩ | ⟨E, e, hs⟩
    · left
      rcases step_lookahead hs with ⟨rfl, h⟩ | ⟨rfl, h⟩
      · obtain ⟨u, hu, hs'⟩ := step_split (h [])
        have hu1 : u = [t1] := by
          have : [t1] ++ [t2] = u ++ [t2] := hu
          exact (List.append_cancel_right this).symm
        subst hu1
        exact ⟨[t1], E, κ2, .inl rfl, after_reads hd (reads_append hpre (by simpa using step_reads (hs' []) .done))⟩
      · exact ⟨[t1, t2], E, κ2, .inr rfl, after_reads hd (reads_append hpre (by simpa using step_reads (h []) .done))⟩
    · right
      have hh : ∀ rest, Halts cx (start argv0 d) (pre ++ t1 :: t2 :: rest) (evs1 ++ E) κ1 e := fun rest =>
        ⟨_, _, _, steps_append (reads_steps hpre) _, stuck_lookahead hs rest, rfl⟩
      rcases outcome_halts hd.wf (hh []) with ⟨_, h2⟩ | ⟨e', _, h2⟩
      · exact ⟨e, fun rest => (outcome_halts_ext hd.wf (hh rest) (hh [])).trans h2⟩
      · exact ⟨e', fun rest => (outcome_halts_ext hd.wf (hh rest) (hh [])).trans h2⟩
  · right
    exact ⟨e, fun rest => outcome_steps hd.wf (steps_append (reads_steps hpre) _) hb⟩

/-- Both cases: `--config x` is read together, `--config -x` fails. -/
example : Sample.value (Sample.parse ["app", "-v", "--config", "x", "y"]) ["config"] = some (.option (some (lit "x")))
    ∧ Sample.failure (Sample.parse ["app", "-v", "--config", "-x", "y"]) = Sample.failure (Sample.parse ["app", "-v", "--config", "-x", "--bad"]) := by
  decide +kernel

/-- `-v` and `--verbose` are interchangeable before anything. -/
example (post : List Bytes) : tryParseFrom Sample.cli (blit "app" :: [blit "-v"] ++ post)
    = tryParseFrom Sample.cli (blit "app" :: [blit "--verbose"] ++ post) := by
  refine C47_prefix_exchange Sample.cli_derived Sample.reads_v ?_ post
  obtain ⟨f, hr, hp⟩ := Sample.resolve (fun f => !takesValue f) (st := [Sample.root]) (n := .long (lit "verbose"))
    (a := ⟨0, 0, 0⟩) (by decide +kernel)
  rw [Sample.start_app]
  exact .longBare hr (by decide) (by decide) (by simpa using hp) .done

end Palc
