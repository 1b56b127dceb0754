import Verif.Props.Language
import Verif.Lemmas.Under
/-!
# Subcommands are programs of their own (C72)
-/

namespace Palc

open Spec

variable {V : Type} {cx : Cx V} {d : ArgsDef V} {argv0 : Bytes} {pre rest : List Bytes} {evs : List Event} {out : Out V}
  {i : CmdId} {e : ArgsDef V} {st : List (Entry V)} {k : Nat} {v : Variant V} {a : Bytes}

/-- How the subcommand is entered. -/
def entryOf (v : Variant V) : CmdId := ⟨variantIdent v, v.name⟩

theorem globals_nil {B : List (Entry V)} (h : ∀ x ∈ B, ∀ c ∈ structs x.2, ∀ f ∈ c.fields, f.src.global = false) :
    globals B = [] := by
  induction B with
  | nil => rfl
  | cons x B ih =>
    obtain ⟨j, d⟩ := x
    rw [globals, ih (fun y hy => h y (List.mem_cons_of_mem _ hy)), List.append_nil, List.filter_eq_nil_iff]
    intro y hy
    unfold fieldsAt at hy
    obtain ⟨⟨c, s⟩, hc, hy⟩ := List.mem_flatMap.1 hy
    obtain ⟨⟨f, n⟩, hf, rfl⟩ := List.mem_map.1 hy
    have h1 := List.mem_zipIdx hc
    have h2 := List.mem_zipIdx hf
    have := h (j, d) List.mem_cons_self c (by rw [h1.2.2]; exact List.getElem_mem _) f (by rw [h2.2.2]; exact List.getElem_mem _)
    simp [this]

section
variable (hd : DerivedArgs cx d) (hpre : Reads cx (start argv0 d) pre evs ⟨(i, e) :: st, k, .opts⟩)
  (hv : Selected e v) (hp : Plain (enc v.name))
include hpre hv hp

theorem sub_steps (a : Bytes) (rest : List Bytes) :
    Steps cx (start argv0 d) (pre ++ enc v.name :: rest) evs
      (underCtx (entryOf v) ((i, e) :: st) (start a (variantDef v))) rest := by
  have h1 := steps_append (reads_steps hpre) (enc v.name :: rest)
  have h2 := steps_trans h1 (.step (.sub hv hp) .refl)
  simp only [List.append_nil] at h2
  exact h2

omit hv hp in
theorem pre_low : ∀ x ∈ evs, x.1.level < ((i, e) :: st).length := steps_fresh (reads_steps hpre)

include hd

theorem sub_wf : WFArgs cx (variantDef v) := by
  have := stack_wf hd.wf (sub_steps hpre hv hp [] [])
  exact this.1 (entryOf v, variantDef v) List.mem_cons_self

theorem sub_ok {o : Out V} (h : tryParseFrom (variantDef v) (a :: rest) = .ok o) :
    ∃ E κ', Reads cx (start argv0 d) (pre ++ enc v.name :: rest) (evs ++ upE ((i, e) :: st).length E)
        (underCtx (entryOf v) ((i, e) :: st) κ') ∧ κ'.stack ≠ [] ∧ (∃ inner, κ'.stack = inner ++ (start a (variantDef v)).stack)
      ∧ Acceptable κ'.stack E ∧ allFail E κ'.stack false = none ∧ outAll E κ'.stack none = some o := by
  have wf := sub_wf hd hpre hv hp
  obtain ⟨E, κ', hr⟩ := ok_reads wf h
  have hne : κ'.stack ≠ [] := (stack_wf wf (reads_steps hr)).2
  have hs := steps_under (r := entryOf v) (B := (i, e) :: st) (by simp [start]) (reads_steps hr)
  refine ⟨E, κ', reads_iff_steps.2 (steps_trans (sub_steps hpre hv hp a rest) hs), hne, steps_stack (reads_steps hr), ?_⟩
  rcases outcome_reads wf hr with ⟨_, hacc, _, h1⟩ | ⟨e', _, h1⟩
  · cases hf : allFail E κ'.stack false with
    | some x => rw [hf] at h1; rw [h1] at h; cases h
    | none =>
      rw [hf] at h1
      obtain ⟨o', q1, q2⟩ := h1
      rw [q2] at h
      cases h
      exact ⟨hacc, rfl, q1⟩
  · rw [h1] at h; cases h

/-- Whether a command line is accepted whose arguments after the name of a subcommand are accepted by the program made of that
subcommand. -/
theorem sub_accepts_iff {o : Out V} (h : tryParseFrom (variantDef v) (a :: rest) = .ok o) (out : Out V) :
    tryParseFrom d (argv0 :: (pre ++ enc v.name :: rest)) = .ok out ↔
      Acceptable ((i, e) :: st) evs ∧ allFail evs ((i, e) :: st) true = none
        ∧ outAll evs ((i, e) :: st) (some (.variant (variantIdent v) o)) = some out := by
  obtain ⟨E, κ', hr, hne, _, hacc, hf, ho⟩ := sub_ok hd hpre hv hp h
  have hlow := pre_low hpre
  have hf' := allFail_under (r := entryOf v) hlow E κ'.stack hne false
  have ho' := outAll_under (r := entryOf v) hlow E κ'.stack hne (by simp) none
  rw [hf, Option.none_or] at hf'
  rw [ho, Option.bind_some] at ho'
  have hout := outcome_reads hd.wf hr
  unfold underCtx at hout
  simp only at hout
  rw [hf', ho', acceptable_under hlow] at hout
  constructor
  · intro hok
    rcases hout with ⟨_, ⟨hB, _⟩, _, h1⟩ | ⟨e', _, h1⟩
    · cases hfB : allFail evs ((i, e) :: st) true with
      | some x => rw [hfB] at h1; rw [h1] at hok; cases hok
      | none =>
        rw [hfB] at h1
        obtain ⟨o', q1, q2⟩ := h1
        rw [q2] at hok
        cases hok
        exact ⟨hB, rfl, q1⟩
    · rw [h1] at hok; cases hok
  · rintro ⟨hB, hfB, hoB⟩
    rcases hout with ⟨_, _, _, h1⟩ | ⟨e', hb, _⟩
    · rw [hfB] at h1
      obtain ⟨o', q1, q2⟩ := h1
      rw [show (entryOf v).ident = variantIdent v from rfl, hoB] at q1
      cases q1
      exact q2
    · exact absurd ((acceptable_under (r := entryOf v) hlow).2 ⟨hB, hacc⟩) hb.not_acceptable

/-- C72: if the arguments after the name of a subcommand are accepted by the program made of that subcommand alone, and the
command line is accepted, then the command that was entered selects that subcommand, with exactly the value of that program. -/
theorem C72_result {o : Out V} (h : tryParseFrom (variantDef v) (a :: rest) = .ok o)
    (hok : tryParseFrom d (argv0 :: (pre ++ enc v.name :: rest)) = .ok out) :
    ∃ p, commandAt ((i, e) :: st) out = some p ∧ subAt p = some (variantIdent v, o) := by
  obtain ⟨_, _, ho⟩ := (sub_accepts_iff hd hpre hv hp h out).1 hok
  obtain ⟨p, sub', q1, q2, q3, _⟩ := outAll_at (steps_path (reads_steps hpre) (start_path argv0 d)) ho (by simp) [] i e st rfl
  rw [q3 rfl] at q1
  exact ⟨p, q2, outArgs_sub q1 (hasSub_of_variant hv.mem)⟩

/-- C72: whether the arguments before the subcommand are accepted does not depend on those after it, and they have the same
values: any arguments accepted by the program made of the subcommand can be exchanged. -/
theorem C72_exchange {rest' : List Bytes} {o o' : Out V} {a' : Bytes}
    (h : tryParseFrom (variantDef v) (a :: rest) = .ok o) (h' : tryParseFrom (variantDef v) (a' :: rest') = .ok o')
    (hok : tryParseFrom d (argv0 :: (pre ++ enc v.name :: rest)) = .ok out) :
    ∃ out', tryParseFrom d (argv0 :: (pre ++ enc v.name :: rest')) = .ok out'
      ∧ ∀ (b : Addr) (f : FieldInfo V), fieldAt ((i, e) :: st) b = some f →
        outAt ((i, e) :: st) out' b = outAt ((i, e) :: st) out b := by
  obtain ⟨hB, hf, ho⟩ := (sub_accepts_iff hd hpre hv hp h out).1 hok
  rcases accepts_or_rejects hd.wf argv0 (pre ++ enc v.name :: rest') with ⟨out', hx⟩ | ⟨x, hx⟩
  · have hok' := accepts_sound hd.wf hx
    refine ⟨out', hok', ?_⟩
    intro b f hb
    have key : ∀ {rest : List Bytes} {a : Bytes} {o out : Out V}, tryParseFrom (variantDef v) (a :: rest) = .ok o →
        tryParseFrom d (argv0 :: (pre ++ enc v.name :: rest)) = .ok out →
        ∃ w, fieldOut f (occs evs b) = some w ∧ outAt ((i, e) :: st) out b = some (f.ident, .field w) := by
      intro rest a o out h hok
      obtain ⟨_, _, ho⟩ := (sub_accepts_iff hd hpre hv hp h out).1 hok
      obtain ⟨pre', i', d', outer, c, hst, hl, hc, hf'⟩ := fieldAt_split hb
      obtain ⟨o, sub', q1, q2, _⟩ := outAll_at (steps_path (reads_steps hpre) (start_path argv0 d)) ho (by simp) pre' i' d' outer hst
      obtain ⟨fs, r1, r2, r3⟩ := outArgs_at d' q1 b.struct c hc
      obtain ⟨w, t1, t2⟩ := r3 b.field f hf'
      refine ⟨w, ?_, ?_⟩
      · rw [Nat.zero_add, ← hl] at t1
        exact t1
      · rw [hst, outAt_split hl]
        simp only [outAt]
        rw [if_pos hl, q2]
        simp only [r1, t2]
    obtain ⟨w, hw, h1⟩ := key h hok
    obtain ⟨w', hw', h2⟩ := key h' hok'
    rw [hw] at hw'
    cases hw'
    rw [h1, h2]
  · exfalso
    have hrej := rejects_sound hd.wf hx
    obtain ⟨E, κ', hr, hne, _, hacc, hf', ho'⟩ := sub_ok hd hpre hv hp h'
    have hlow := pre_low hpre
    rcases outcome_reads hd.wf hr with ⟨_, _, _, h1⟩ | ⟨e', hb, _⟩
    · rw [show (underCtx (entryOf v) ((i, e) :: st) κ').stack = under (entryOf v) ((i, e) :: st) κ'.stack from rfl,
        allFail_under hlow E κ'.stack hne false, hf', Option.none_or, hf] at h1
      obtain ⟨o2, _, q2⟩ := h1
      rw [hrej] at q2
      cases q2
    · exact absurd ((acceptable_under (r := entryOf v) hlow).2 ⟨hB, hacc⟩) hb.not_acceptable

omit hd in
/-- Failures of a subcommand below other commands. -/
theorem sub_rejects (hacc : Acceptable ((i, e) :: st) evs) {x : Fail}
    (h : Rejects cx (variantDef v) a rest x) (hg : globals ((i, e) :: st) = [] ∨ ∀ e', x = .error e' → Local e') :
    Rejects cx d argv0 (pre ++ enc v.name :: rest) x
      ∨ ∃ (inner : List (Entry V)), x = .error (helpRequest (inner ++ (start a (variantDef v)).stack))
        ∧ Rejects cx d argv0 (pre ++ enc v.name :: rest)
            (.error (helpRequest (under (entryOf v) ((i, e) :: st) (inner ++ (start a (variantDef v)).stack)))) := by
  have hlow := pre_low hpre
  have hst := sub_steps hpre hv hp a rest
  have hne0 : (start a (variantDef v)).stack ≠ [] := by simp [start]
  cases h with
  | @value E κ rest' e' h hb =>
    exact .inl (.value (steps_trans hst (steps_under hne0 h)) (firstBad_under hlow hacc hb))
  | @valueStuck E κ e' e0 h hb =>
    obtain ⟨E1, E2, rest', h1, h2, rfl⟩ := h
    have hs := steps_trans hst (steps_under (r := entryOf v) (B := (i, e) :: st) hne0 h1)
    have hb' := firstBad_under (r := entryOf v) hlow hacc hb
    rcases stuck_prefix (r := entryOf v) (B := (i, e) :: st) (steps_ne hne0 h1) h2 with rfl | ⟨E', ⟨more, rfl⟩, h3⟩
    · rw [List.append_nil] at hb'
      exact .inl (.value hs hb')
    · have hb2 := hb'.append more
      rw [upE_append, ← List.append_assoc, List.append_assoc] at hb2
      rcases h3 with ⟨κ', rest'', h3, h4⟩ | ⟨e1, h3⟩
      · refine .inl (.value (steps_trans hs (.step h3 .refl)) ?_)
        rw [h4, List.append_nil]
        exact hb2
      · exact .inl (.valueStuck ⟨_, _, _, hs, h3, rfl⟩ hb2)
  | @stuck E κ e' h ha =>
    obtain ⟨E1, E2, rest', h1, h2, rfl⟩ := h
    have hs := steps_trans hst (steps_under (r := entryOf v) (B := (i, e) :: st) hne0 h1)
    have h3 := stuck_under (r := entryOf v) (B := (i, e) :: st) (steps_ne hne0 h1) h2
      (hg.imp id (fun hl => hl e' rfl))
    have hacc' := (acceptable_under (r := entryOf v) hlow).2 ⟨hacc, ha⟩
    rw [upE_append, ← List.append_assoc] at hacc'
    have hrej : Rejects cx d argv0 (pre ++ enc v.name :: rest) _ := .stuck ⟨_, _, _, hs, h3, rfl⟩ hacc'
    by_cases he : e' = helpRequest κ.stack
    · subst he
      rw [renameErr_help] at hrej
      obtain ⟨inner, hi⟩ := steps_stack h1
      rw [hi] at hrej
      exact .inr ⟨inner, by rw [hi], hrej⟩
    · unfold renameErr at hrej
      rw [if_neg he] at hrej
      exact .inl hrej
  | @invalid E κ x h ha hf =>
    have hs := steps_trans hst (steps_under (r := entryOf v) (B := (i, e) :: st) hne0 (reads_steps h))
    refine .inl (.invalid (reads_iff_steps.2 hs) ((acceptable_under (r := entryOf v) hlow).2 ⟨hacc, ha⟩) ?_)
    rw [show (underCtx (entryOf v) ((i, e) :: st) κ).stack = under (entryOf v) ((i, e) :: st) κ.stack from rfl,
      allFail_under hlow E κ.stack (steps_ne hne0 (reads_steps h)) false, hf]
    rfl

/-- C72: if the values before the subcommand are acceptable, then the subcommand fails as the program made of it fails: with the
same panic or error, except that what that program does not know or requests help for may be a global option of the commands
around. -/
theorem C72_failure (hacc : Acceptable ((i, e) :: st) evs) {x : Fail} (h : tryParseFrom (variantDef v) (a :: rest) = .error x)
    (hx : ∀ e', x = .error e' → e'.kind ≠ .help ∧ e'.kind ≠ .unknownNamedArgument) :
    tryParseFrom d (argv0 :: (pre ++ enc v.name :: rest)) = .error x := by
  have wf := sub_wf hd hpre hv hp
  rcases accepts_or_rejects wf a rest with ⟨o, ho⟩ | ⟨x', hx'⟩
  · rw [accepts_sound wf ho] at h; cases h
  · rw [rejects_sound wf hx'] at h
    cases h
    rcases sub_rejects hpre hv hp hacc hx' (.inr hx) with h | ⟨inner, rfl, _⟩
    · exact rejects_sound hd.wf h
    · exact absurd rfl (hx _ rfl).1

/-- C72: if no command around has a global option, then all failures are the same, and help texts differ only in the command
line that they begin with. -/
theorem C72_failure_plain (hg : ∀ x ∈ (i, e) :: st, ∀ c ∈ structs x.2, ∀ f ∈ c.fields, f.src.global = false)
    (hacc : Acceptable ((i, e) :: st) evs) {x : Fail} (h : tryParseFrom (variantDef v) (a :: rest) = .error x) :
    tryParseFrom d (argv0 :: (pre ++ enc v.name :: rest)) = .error x
      ∨ ∃ (c : ArgsDef V) (names : Str), x = .error { kind := .help, help := some (renderHelp c.info (' ' :: progName a ++ names)) }
        ∧ tryParseFrom d (argv0 :: (pre ++ enc v.name :: rest)) = .error (.error
            { kind := .help, help := some (renderHelp c.info (cmdline ((i, e) :: st) ++ ' ' :: v.name ++ names)) }) := by
  have wf := sub_wf hd hpre hv hp
  rcases accepts_or_rejects wf a rest with ⟨o, ho⟩ | ⟨x', hx'⟩
  · rw [accepts_sound wf ho] at h; cases h
  · rw [rejects_sound wf hx'] at h
    cases h
    rcases sub_rejects hpre hv hp hacc hx' (.inl (globals_nil hg)) with h | ⟨inner, rfl, h⟩
    · exact .inl (rejects_sound hd.wf h)
    · right
      obtain ⟨names, h1, h2⟩ := cmdline_under (r := entryOf v) (B := (i, e) :: st) ⟨[], progName a⟩ (variantDef v) inner
      have h3 := rejects_sound hd.wf h
      cases inner with
      | nil =>
        refine ⟨variantDef v, names, ?_, ?_⟩
        · rw [← h1]; rfl
        · rw [h3, ← show (entryOf v).name = v.name from rfl, ← h2]; rfl
      | cons y inner =>
        refine ⟨y.2, names, ?_, ?_⟩
        · rw [← h1]; rfl
        · rw [h3, ← show (entryOf v).name = v.name from rfl, ← h2]
          obtain ⟨i', h4, _⟩ := under_cons (r := entryOf v) (B := (i, e) :: st) y.1 y.2 (inner ++ (start a (variantDef v)).stack)
          have h5 : ∀ l : List (Entry V), l = (i', y.2) :: under (entryOf v) ((i, e) :: st) (inner ++ (start a (variantDef v)).stack) →
              helpRequest l = { kind := .help, help := some (renderHelp y.2.info (cmdline l)) } := by
            rintro l rfl; rfl
          exact congrArg (fun z => Except.error (Fail.error z)) (h5 _ h4)

/-- C72: if no command around has a global option, a command line is accepted only if the program made of the subcommand accepts
what follows its name. -/
theorem C72_accepted (hg : ∀ x ∈ (i, e) :: st, ∀ c ∈ structs x.2, ∀ f ∈ c.fields, f.src.global = false) (a : Bytes)
    (hok : tryParseFrom d (argv0 :: (pre ++ enc v.name :: rest)) = .ok out) :
    ∃ o, tryParseFrom (variantDef v) (a :: rest) = .ok o := by
  have wf := sub_wf hd hpre hv hp
  rcases accepts_or_rejects wf a rest with ⟨o, ho⟩ | ⟨x, hx⟩
  · exact ⟨o, accepts_sound wf ho⟩
  · exfalso
    have hacc : Acceptable ((i, e) :: st) evs := by
      rcases reach hd.wf (reads_steps hpre) with ⟨ls, S⟩ | ⟨e', hb⟩
      · exact S.given_ne
      · rw [outcome_steps hd.wf (steps_append (reads_steps hpre) _) hb] at hok
        cases hok
    rcases C72_failure_plain hd hpre hv hp hg hacc (rejects_sound wf hx) with h | ⟨c, names, _, h⟩ <;>
      · rw [h] at hok; cases hok

end

/-! ## Examples -/

namespace Sample

/-- `app -v` then `add`: the command line `-f x y -- z` is accepted by the program `add`, and by `app` after `-v add`. -/
example : isOk (tryParseFrom add (["add", "-f", "x", "y", "--", "z"].map blit)) = true
    ∧ isOk (parse ["app", "-v", "add", "-f", "x", "y", "--", "z"]) = true := by decide +kernel

/-- The hypotheses of `C72_result` and `C72_exchange` hold: the values of `add` can be read off the program `add`, and `-f x` can
be exchanged for `x y`. -/
example : ∃ o o' out, tryParseFrom add ([blit "add", blit "-f", blit "x"]) = .ok o
    ∧ tryParseFrom add ([blit "add", blit "x", blit "y"]) = .ok o'
    ∧ tryParseFrom cli ([blit "app", blit "-v", blit "add", blit "-f", blit "x"]) = .ok out
    ∧ (∃ p, commandAt [root] out = some p ∧ subAt p = some (lit "Add", o))
    ∧ ∃ out', tryParseFrom cli ([blit "app", blit "-v", blit "add", blit "x", blit "y"]) = .ok out' := by
  have ok : ∀ {r : R (Out Val)}, isOk r = true → ∃ o, r = .ok o := by
    intro r h; cases r with
    | ok o => exact ⟨o, rfl⟩
    | error e => simp [isOk] at h
  obtain ⟨o, ho⟩ := ok (r := tryParseFrom add ([blit "add", blit "-f", blit "x"])) (by decide +kernel)
  obtain ⟨o', ho'⟩ := ok (r := tryParseFrom add ([blit "add", blit "x", blit "y"])) (by decide +kernel)
  obtain ⟨out, hx⟩ := ok (r := tryParseFrom cli ([blit "app", blit "-v", blit "add", blit "-f", blit "x"])) (by decide +kernel)
  have hsel : Selected cli (.args (lit "Add") (lit "add") add) := selected (by exact List.mem_cons_self)
  have hpre' : Reads Sample.cx (start (blit "app") cli) [blit "-v"] [(⟨0, 0, 0⟩, none)] ⟨(⟨[], lit "app"⟩, cli) :: [], 0, .opts⟩ :=
    reads_v
  refine ⟨o, o', out, ho, ho', hx, C72_result cli_derived hpre' hsel (.inl (by decide)) ho hx, ?_⟩
  obtain ⟨out', h, _⟩ := C72_exchange cli_derived hpre' hsel (.inl (by decide)) ho ho' hx
  exact ⟨out', h⟩

/-- A failure of `add`: the missing paths, whether it is a program or a subcommand. -/
example : failure (tryParseFrom add (["add", "-f"].map blit)) = failure (parse ["app", "-v", "add", "-f"])
    ∧ (failure (parse ["app", "-v", "add", "-f"])).isSome = true := by decide +kernel

/-- Global options make a difference: the program `status` does not know `--verbose`. -/
example : isOk (parse ["app", "status", "--verbose"]) = true
    ∧ isOk (tryParseFrom (variantDef (.unit (lit "Status") (lit "status") none)) (["status", "--verbose"].map blit) : R (Out Val)) = false := by
  decide +kernel

/-- A CLI without global options: `struct Plain { #[arg(long)] quiet: bool, #[command(subcommand)] cmd: Cmd }`. -/
def plainDecls : List (FieldDecl Val) :=
  [ .arg (lit "quiet") .bool { long := some .inherit }, .subcommand (lit "cmd") false cmd ]

def plain : ArgsDef Val := get (deriveArgs Sample.cx none plainDecls)

theorem plain_derived : DerivedArgs Sample.cx plain := by
  refine .mk none plainDecls ?_ ?_ (get_ok (by decide))
  · intro i d hm
    simp [plainDecls] at hm
  · intro i o vs hm
    simp only [plainDecls, List.mem_cons, FieldDecl.subcommand.injEq, reduceCtorEq, List.not_mem_nil, or_false, false_or] at hm
    obtain ⟨_, _, rfl⟩ := hm
    exact cmd_derived

/-- The hypotheses of `C72_accepted` hold: `plain run make all -j` is accepted, so is `run make all -j`. -/
example : ∃ o, tryParseFrom run (blit "x" :: [blit "make", blit "all", blit "-j"]) = .ok o := by
  have ok : ∀ {r : R (Out Val)}, isOk r = true → ∃ o, r = .ok o := by
    intro r h; cases r with
    | ok o => exact ⟨o, rfl⟩
    | error e => simp [isOk] at h
  obtain ⟨out, hx⟩ := ok (r := tryParseFrom plain ([blit "plain", blit "run", blit "make", blit "all", blit "-j"])) (by decide +kernel)
  have hg : ∀ c ∈ structs plain, ∀ f ∈ c.fields, f.src.global = false := by
    have : (structs plain).all (fun c => c.fields.all (fun f => !f.src.global)) = true := by decide +kernel
    intro c hc f hf
    simpa using List.all_eq_true.1 (List.all_eq_true.1 this c hc) f hf
  exact C72_accepted (v := .args (lit "Run") (lit "run") run) (pre := []) plain_derived .done
    (Selected.of_nodup (by decide +kernel) (List.mem_cons_of_mem _ List.mem_cons_self)) (.inl (by decide))
    (fun x hx => by rw [List.mem_singleton] at hx; subst hx; exact hg) (blit "x") hx

/-- The help of a subcommand is that of its program, with another command line: that of `C72_failure_plain`. -/
example : failure (tryParseFrom run (["prog", "--help"].map blit))
      = some (.error { kind := .help, help := some (renderHelp run.info (lit " prog")) })
    ∧ failure (tryParseFrom plain (["plain", "--quiet", "run", "--help"].map blit))
      = some (.error { kind := .help, help := some (renderHelp run.info (lit " plain run")) }) := by decide +kernel

end Sample

end Palc
