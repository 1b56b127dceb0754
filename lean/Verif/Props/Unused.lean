import Verif.Lemmas.Shrink
import Verif.Props.Extend
/-!
# Command lines that do not use what was added (C68)

The converse of C66: what has been added to a command line interface has no effect on command lines that do not use it.  If a command line
is accepted by the new version, and only has occurrences of arguments of the old version, then it is also accepted by the old version, with
the same values (unless the old version wanted a subcommand).
-/

namespace Palc

open Spec

variable {V : Type} {cx : Cx V} {T : Bytes → Prop} {d d' : ArgsDef V} {argv0 : Bytes} {toks : List Bytes} {evs' : List Event} {κ' : Ctx V}
  {out' : Out V}

/-- All occurrences in a command line of the new version are of arguments that the old version `d` has, too. -/
def OnlyOld (d : ArgsDef V) (evs' : List Event) (κ' : Ctx V) : Prop :=
  ∀ e ∈ evs', ∀ f, fieldAt κ'.stack e.1 = some f → Has d (entered κ'.stack e.1.level) e.1.struct f.ident

theorem unused_reads (hD' : DerivedArgs cx d') (h : Evolved cx T (fun _ => False) d d') (hT : ∀ t ∈ toks, T t)
    (hr : Reads cx (start argv0 d') toks evs' κ') (hu : OnlyOld d evs' κ') :
    ∃ μ evs κ, Reads cx (start argv0 d) toks evs κ ∧ evs' = evs.map (movedEvent μ) ∧ Grown cx T μ κ.stack κ'.stack := by
  obtain ⟨φ, hx⟩ := evolved_extends h
  obtain ⟨μ, evs, κ, _, h1, h2, h3⟩ := steps_shrunk (reads_steps hr) hT (κ := start argv0 d) (start_mode argv0 d) (start_mode argv0 d')
    (stack_wf hD'.wf (reads_steps hr)).1 (along_start argv0 d) (μ := fun _ => φ)
    ⟨.cons .nil (hx.mono (by rintro n ⟨a, f, hf, _⟩; simp [fieldAt] at hf)), rfl, rfl⟩ hu
  exact ⟨μ, evs, κ, reads_iff_steps.2 h2, h1, h3.stack⟩

/-- If a command line can be read by the new version and uses only arguments of the old one, it is read in the same way by the old one;
both parsers go on from there. -/
theorem C68_reads (hD : DerivedArgs cx d) (hD' : DerivedArgs cx d') (h : Evolved cx T (fun _ => False) d d') (hT : ∀ t ∈ toks, T t)
    (hr : Reads cx (start argv0 d') toks evs' κ') (hu : OnlyOld d evs' κ') :
    After cx d' argv0 toks evs' κ' ∧ ∃ evs κ, After cx d argv0 toks evs κ ∧ κ'.stack.map (·.1) = κ.stack.map (·.1)
      ∧ evs'.map (fun e => ((fieldAt κ'.stack e.1).map (·.ident), e.1.level, e.1.struct, e.2))
        = evs.map (fun e => ((fieldAt κ.stack e.1).map (·.ident), e.1.level, e.1.struct, e.2)) := by
  obtain ⟨_, evs, κ, h1, _, _⟩ := unused_reads hD' h hT hr hu
  obtain ⟨evs2, κ2, h2, h3, h4⟩ := C66_reads hD' h hT h1
  obtain ⟨rfl, rfl⟩ := reads_det hr h2.reads
  exact ⟨after_reads hD' hr, evs, κ, after_reads hD h1, h3, h4⟩

/-- If the new version accepts it, so does the old one, with the same values; except that the old version may have wanted a
subcommand where the new one does not. -/
theorem C68_values (hD : DerivedArgs cx d) (h : Evolved cx T (fun _ => False) d d') (hT : ∀ t ∈ toks, T t)
    (hp : Parsed cx d' argv0 toks evs' κ' out') (hu : OnlyOld d evs' κ') :
    (∃ evs κ out, Parsed cx d argv0 toks evs κ out ∧ κ'.stack.map (·.1) = κ.stack.map (·.1)
      ∧ ∀ l s k f k' f', fieldAt κ.stack ⟨l, s, k⟩ = some f → fieldAt κ'.stack ⟨l, s, k'⟩ = some f' → f'.ident = f.ident →
        outAt κ.stack out ⟨l, s, k⟩ = outAt κ'.stack out' ⟨l, s, k'⟩)
    ∨ (tryParseFrom d (argv0 :: toks) = .error (.error { kind := .missingRequiredSubcommand })
      ∧ ∃ e, CommandAt d (entered κ'.stack (κ'.stack.length - 1)) e ∧ subRequired e = true) := by
  have hD' := hp.derived
  obtain ⟨μ, evs, κ, hr, he, hst⟩ := unused_reads hD' h hT hp.reads hu
  have hev := steps_fields (reads_steps hr) (start_mode argv0 d)
  have wf := stack_wf hD.wf (reads_steps hr)
  have wf' := (stack_wf hD'.wf (reads_steps hp.reads)).1
  have hocc : ∀ a f, fieldAt κ.stack a = some f → occs evs' (moved μ a) = occs evs a :=
    fun a f hf => by rw [he]; exact occs_grown hst hev hf
  have hacc : Acceptable κ.stack evs := acceptable_shrunk hst hev (by rw [← he]; exact hp.acceptable)
  have hfail' : allFail evs' κ'.stack false = none := by
    rcases outcome_reads hD'.wf hp.reads with ⟨_, _, _, h1⟩ | ⟨e, _, h2⟩
    · cases hf : allFail evs' κ'.stack false with
      | none => rfl
      | some x => rw [hf] at h1; simp only at h1; have := hp.ok; rw [h1] at this; cases this
    · have := hp.ok; rw [h2] at this; cases this
  have hfail := allFail_shrunk hst wf.1 wf' hocc false hfail'
  rcases outcome_reads hD.wf hr with ⟨_, _, _, h3⟩ | ⟨e, h3, _⟩
  · rw [hfail] at h3
    simp only [Bool.not_false, Bool.and_true] at h3
    split at h3
    · rename_i x hx
      right
      split at hx
      · rename_i hreq
        cases hx
        refine ⟨h3, ?_⟩
        cases hstk : κ.stack with
        | nil => exact absurd hstk wf.2
        | cons x st =>
          rw [hstk] at hreq
          have ha : Along d κ.stack := along_steps (reads_steps hr) (along_start argv0 d)
          refine ⟨x.2, ?_, hreq⟩
          rw [entered_ids hst.ids, hst.length, hstk]
          have := ha st.length x (by rw [hstk, List.reverse_cons, List.getElem?_append_right (by simp)]; simp)
          rw [hstk] at this
          simpa using this
      · cases hx
    · rename_i hx
      left
      obtain ⟨out, _, hok⟩ := h3
      have hp0 : Parsed cx d argv0 toks evs κ out := ⟨hD, hr, hok⟩
      refine ⟨evs, κ, out, hp0, hst.ids, ?_⟩
      obtain ⟨evs2, κ2, out2, hp2, _, _, h5, _⟩ := C66_values hD' h hT hp0
      obtain ⟨rfl, rfl⟩ := reads_det hp.reads hp2.reads
      have : out' = out2 := by
        have := hp2.ok
        rw [hp.ok] at this
        exact Except.ok.inj this
      subst this
      intro l s k f k' f' hf hf' hi
      exact (h5 l s k f k' f' hf hf' hi).symm
  · exact absurd hacc (by simpa using h3.not_acceptable)

/-- Both directions together: if no command wants a subcommand that the new version does not want, then a command line without
occurrences of added arguments and names of added subcommands is accepted by both versions or by none. -/
theorem C68_accepted_iff (hD : DerivedArgs cx d) (hD' : DerivedArgs cx d') (h : Evolved cx T (fun _ => False) d d') (hT : ∀ t ∈ toks, T t)
    (hr : Reads cx (start argv0 d') toks evs' κ') (hu : OnlyOld d evs' κ')
    (hs : ∀ e, CommandAt d (entered κ'.stack (κ'.stack.length - 1)) e → subRequired e = false) :
    (∃ out, tryParseFrom d (argv0 :: toks) = .ok out) ↔ ∃ out', tryParseFrom d' (argv0 :: toks) = .ok out' := by
  constructor
  · rintro ⟨out, ho⟩
    exact C66_accepted hD hD' h hT ho
  · rintro ⟨out', ho'⟩
    rcases C68_values hD h hT ⟨hD', hr, ho'⟩ hu with ⟨_, _, out, hp, _⟩ | ⟨_, e, he, hq⟩
    · exact ⟨out, hp.ok⟩
    · rw [hs e he] at hq; cases hq

/-! ## Examples -/

/-- The command with these names, by computation. -/
def findCommand (d : ArgsDef V) : List Str → Option (ArgsDef V)
  | [] => some d
  | n :: ns => match (subVariants d).filter (fun v => decide (v.name = n)) with
    | [v] => findCommand (variantDef v) ns
    | _ => none

theorem command_found {ns : List Str} {e : ArgsDef V} (h : findCommand d ns = some e) : CommandAt d ns e := by
  induction ns generalizing d with
  | nil => rw [findCommand] at h; cases h; exact .here
  | cons n ns ih =>
    rw [findCommand] at h
    split at h
    · rename_i v hv
      have hm : ∀ w, w ∈ subVariants d ∧ w.name = n ↔ w = v := by
        intro w
        have := List.mem_filter (p := fun v => decide (Variant.name v = n)) (x := w) (as := subVariants d)
        rw [hv] at this
        simpa [eq_comm] using this.symm
      obtain ⟨h1, h2⟩ := (hm v).2 rfl
      subst h2
      exact .sub ⟨h1, .inl fun w hw he => (hm w).1 ⟨hw, he⟩⟩ (ih h)
    · cases h

/-- `OnlyOld`, by computation. -/
def onlyOld (d : ArgsDef V) (evs : List Event) (κ : Ctx V) : Bool :=
  evs.all fun e => match fieldAt κ.stack e.1, findCommand d (entered κ.stack e.1.level) with
    | some f, some c => match (structs c)[e.1.struct]? with
      | some s => s.fields.any (fun g => decide (g.ident = f.ident))
      | none => false
    | _, _ => false

theorem onlyOld_sound {evs : List Event} {κ : Ctx V} (h : onlyOld d evs κ = true) : OnlyOld d evs κ := by
  intro e he f hf
  have := List.all_eq_true.1 h e he
  simp only [hf] at this
  cases hl : findCommand d (entered κ.stack e.1.level) with
  | none => rw [hl] at this; cases this
  | some c =>
    rw [hl] at this
    simp only at this
    cases hs : (structs c)[e.1.struct]? with
    | none => rw [hs] at this; cases this
    | some s =>
      rw [hs] at this
      obtain ⟨g, hg, hi⟩ := List.any_eq_true.1 this
      obtain ⟨k, hk⟩ := List.mem_iff_getElem?.1 hg
      exact ⟨c, k, g, command_found hl, by rw [argAt_eq hs]; exact hk, of_decide_eq_true hi⟩

namespace Sample

def root2 : Entry Val := (⟨[], lit "app"⟩, cli2)

theorem start_app2 : start (blit "app") cli2 = ⟨[root2], 0, .opts⟩ := by
  have : progName (blit "app") = lit "app" := by decide +kernel
  unfold start root2
  rw [this]

/-- A command line for the new version that uses only arguments of the old one. -/
theorem parsed2 (args : List String) (p : List Event → Ctx Val → Out Val → Bool)
    (h : (match read Sample.cx (args.map blit) ⟨[root2], 0, .opts⟩, tryParseFrom cli2 (blit "app" :: args.map blit) with
      | some (evs, κ), .ok out => p evs κ out
      | _, _ => false) = true) :
    ∃ evs κ out, Parsed Sample.cx cli2 (blit "app") (args.map blit) evs κ out ∧ p evs κ out = true := by
  split at h
  · rename_i evs κ out hr hp
    exact ⟨evs, κ, out, ⟨cli2_derived, by rw [start_app2]; exact read_sound hr, hp⟩, h⟩
  · cases h

end Sample

/-- `app -j 7 add -f p`, accepted by the new version, is accepted by the old one (with a subcommand that has got a new option). -/
example : ∃ evs' κ' out', Parsed Sample.cx Sample.cli2 (blit "app") ([("-j" : String), "7", "add", "-f", "p"].map blit) evs' κ' out'
    ∧ ∃ evs κ out, Parsed Sample.cx Sample.cli (blit "app") ([("-j" : String), "7", "add", "-f", "p"].map blit) evs κ out := by
  obtain ⟨evs', κ', out', h, h0⟩ := Sample.parsed2 ["-j", "7", "add", "-f", "p"]
    (fun evs κ _ => decide (evs.length = 3) && (onlyOld Sample.cli evs κ
      && match findCommand Sample.cli (entered κ.stack (κ.stack.length - 1)) with
      | some e => !subRequired e
      | none => false)) (by decide +kernel)
  simp only [Bool.and_eq_true] at h0
  refine ⟨evs', κ', out', h, ?_⟩
  rcases C68_values Sample.cli_derived Sample.cli2_evolved (Sample.notInit_all (by decide)) h (onlyOld_sound h0.2.1) with
    ⟨evs, κ, out, h1, _⟩ | ⟨_, e, he, hs⟩
  · exact ⟨evs, κ, out, h1⟩
  · have h2 := h0.2.2
    split at h2
    · rename_i e' he'
      rw [command_unique he (command_found he')] at hs
      rw [hs] at h2
      cases h2
    · cases h2

/-- It is not, if it uses an added argument. -/
theorem C68_added_used : (Sample.failure (tryParseFrom Sample.cli2 ([("app" : String), "-n"].map blit))).isSome = false
    ∧ (Sample.failure (tryParseFrom Sample.cli ([("app" : String), "-n"].map blit))).isSome = true
    ∧ (read Sample.cx [blit "-n"] ⟨[Sample.root2], 0, .opts⟩).any (fun x => !onlyOld Sample.cli x.1 x.2) = true := by decide +kernel

namespace Sample

/-- A subcommand must be given … -/
def mustCli : ArgsDef Val := get (deriveArgs Sample.cx none [.subcommand (lit "cmd") false cmd])
/-- … or not, in a new version. -/
def mayCli : ArgsDef Val := get (deriveArgs Sample.cx none [.subcommand (lit "cmd") true cmd])

theorem must_ok : deriveArgs Sample.cx none [.subcommand (lit "cmd") false cmd] = .ok mustCli := get_ok (by decide)
theorem may_ok : deriveArgs Sample.cx none [.subcommand (lit "cmd") true cmd] = .ok mayCli := get_ok (by decide)

theorem must_derived : DerivedArgs Sample.cx mustCli := by
  refine .mk none _ ?_ ?_ must_ok
  · intro i d hm; simp at hm
  · intro i o vs hm
    simp at hm
    obtain ⟨_, _, rfl⟩ := hm
    exact cmd_derived

theorem may_derived : DerivedArgs Sample.cx mayCli := by
  refine .mk none _ ?_ ?_ may_ok
  · intro i d hm; simp at hm
  · intro i o vs hm
    simp at hm
    obtain ⟨_, _, rfl⟩ := hm
    exact cmd_derived

theorem may_evolved : Evolved Sample.cx (fun _ => True) (fun _ => False) mustCli mayCli := by
  have e : subVariants mayCli = subVariants mustCli := rfl
  refine .struct must_ok may_ok ⟨?_, ⟨[], rfl⟩, ?_, ?_, ⟨[], rfl, by simp⟩⟩ (fun h => by revert h; decide) (by decide +kernel) id ?_ ?_ ?_
  · intro x hx hs; simp at hx; subst hx; cases hs
  · intro x hx hl; simp at hx; subst hx; cases hl
  · intro i ty m hm; simp at hm
  · intro v hv; rw [e]; exact ⟨hv, rfl, rfl⟩
  · intro v hv _; rw [e] at hv; exact ⟨v, hv, rfl⟩
  · intro v _; exact .same

end Sample

/-- The other case: the old version only rejects the command line because there is no subcommand. -/
example : tryParseFrom Sample.mustCli [blit "app"] = .error (.error { kind := .missingRequiredSubcommand }) := by
  have hp : ∃ out, Parsed Sample.cx Sample.mayCli (blit "app") [] [] (start (blit "app") Sample.mayCli) out := by
    have : (Sample.failure (tryParseFrom Sample.mayCli [blit "app"])).isSome = false := by decide +kernel
    cases h : tryParseFrom Sample.mayCli [blit "app"] with
    | ok out => exact ⟨out, Sample.may_derived, .done, h⟩
    | error e => rw [h] at this; cases this
  obtain ⟨out, hp⟩ := hp
  rcases C68_values Sample.must_derived Sample.may_evolved (by simp) hp (by intro e he; cases he) with ⟨_, _, out, h1, _⟩ | h
  · have : (Sample.failure (tryParseFrom Sample.mustCli [blit "app"])).isSome = true := by decide +kernel
    rw [h1.ok] at this
    cases this
  · exact h.1

end Palc
