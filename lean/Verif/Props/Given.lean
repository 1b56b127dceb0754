import Verif.Lemmas.Given
import Verif.Props.NoPanic
/-!
# Defaults of arguments that are given (C97)
-/

namespace Palc

open Spec

variable {V : Type} {cx : Cx V} {d d' : ArgsDef V} {argv0 : Bytes} {toks : List Bytes} {out : Out V} {evs : List Event} {κ : Ctx V}
  {S : Str → Prop}

/-- C97: the defaults of arguments that are given on the command line are irrelevant: with any other defaults, or without, the same is
accepted, with the same result. -/
theorem C97_given (hd : DerivedArgs cx d) (hd' : DerivedArgs cx d') (h : OtherDefaults cx S d d')
    (hr : Reads cx (start argv0 d) toks evs κ) (hg : ∀ a f, fieldAt κ.stack a = some f → S f.ident → occs evs a ≠ []) :
    tryParseFrom d' (argv0 :: toks) = .ok out ↔ tryParseFrom d (argv0 :: toks) = .ok out := by
  have hl := changed_loose h
  rw [C23_accepts_iff hd' argv0 toks out, C23_accepts_iff hd argv0 toks out]
  refine ⟨fun ha => ?_, accepts_given hl hr hg⟩
  obtain ⟨κ1, hr1, hl1⟩ := reads_loose hr (start argv0 d') ⟨.cons ⟨rfl, hl⟩ .nil⟩
  refine accepts_given hl.symm hr1 ?_ ha
  intro a f' hf' hs
  rcases fieldAt_loose hl1.stack (a := a) with ⟨_, h2⟩ | ⟨f, f2, h1, h2, h3⟩
  · rw [h2] at hf'; cases hf'
  · rw [h2] at hf'
    cases hf'
    exact hg a f h1 (by rw [← h3.ident]; exact hs)

/-- C97: an argument that has to be given may get a default: what was accepted is accepted with the same result. -/
theorem C97_required (hd : DerivedArgs cx d) (hd' : DerivedArgs cx d') (h : OtherDefaults cx S d d')
    (hq : ∀ e, Command d e → ∀ c ∈ structs e, ∀ f ∈ c.fields, S f.ident → isRequired f = true)
    (hok : tryParseFrom d (argv0 :: toks) = .ok out) : tryParseFrom d' (argv0 :: toks) = .ok out := by
  obtain ⟨evs, κ, hr, ha, _⟩ := (C23_accepts_iff hd argv0 toks out).1 hok
  refine (C97_given hd hd' h hr ?_).2 hok
  have key : ∀ (st : List (Entry V)) (sub : Bool), AllOk evs st sub → (∀ x ∈ st, Command d x.2) →
      ∀ a f, fieldAt st a = some f → S f.ident → occs evs a ≠ [] := by
    intro st
    induction st with
    | nil => intro _ _ _ a f hf; cases hf
    | cons x st ih =>
      obtain ⟨i, e⟩ := x
      intro sub hx hc a f hf hs
      rw [fieldAt] at hf
      split at hf
      · rename_i hl
        split at hf
        · rename_i c hcs
          have := (hx.1.structs _ c hcs).required a.field f hf
            (hq e (hc (i, e) List.mem_cons_self) c (List.mem_of_getElem? hcs) f (List.mem_of_getElem? hf) hs)
          rw [← hl] at this
          exact this
        · cases hf
      · exact ih true hx.2 (fun y hy => hc y (List.mem_cons_of_mem _ hy)) a f hf hs
  exact key κ.stack false ha (command_of_reads hr)

namespace Sample

/-- A program with a number of jobs, which has a default or must be given, and an option. -/
def jobsDecls (o : Option Str) : List (FieldDecl Val) :=
  [ .arg (lit "jobs") number { short := some .inherit, long := some .inherit, defaultValue := o },
    .arg (lit "level") (.option number) { long := some .inherit } ]

def jobsCli (o : Option Str) : ArgsDef Val := get (deriveArgs Sample.cx none (jobsDecls o))

theorem jobs_derived {o : Option Str} (h : isOk (deriveArgs Sample.cx none (jobsDecls o)) = true) : DerivedArgs Sample.cx (jobsCli o) :=
  derived_leaf h rfl

theorem jobs_changed {o o' : Option Str} (h : isOk (deriveArgs Sample.cx none (jobsDecls o)) = true)
    (h' : isOk (deriveArgs Sample.cx none (jobsDecls o')) = true) :
    OtherDefaults Sample.cx (· = lit "jobs") (jobsCli o) (jobsCli o') := by
  refine .mk (ds := jobsDecls o) (ds' := jobsDecls o') ?_ (get_ok h) (get_ok h')
  exact .arg ⟨rfl, .inl rfl⟩ (.arg ⟨rfl, .inr ⟨rfl, rfl⟩⟩ .nil)

/-- `jobs --jobs=3`. -/
theorem reads_jobs : Reads Sample.cx (start (blit "jobs") (jobsCli (some (lit "1")))) [blit "--jobs=3"] [(⟨0, 0, 0⟩, some (blit "3"))]
    (start (blit "jobs") (jobsCli (some (lit "1")))) := by
  obtain ⟨f, hr, hp⟩ := resolve (fun f => decide (f.kind ≠ .bool)) (st := (start (blit "jobs") (jobsCli (some (lit "1")))).stack)
    (n := .long (lit "jobs")) (a := ⟨0, 0, 0⟩) (by decide +kernel)
  exact .longEq (n := lit "jobs") hr (by decide) (by simpa using hp) .done

/-- With `--jobs=3` the default does not matter, nor whether there is one. -/
example {o : Option Str} (h : isOk (deriveArgs Sample.cx none (jobsDecls o)) = true) {out : Out Val} :
    tryParseFrom (jobsCli o) [blit "jobs", blit "--jobs=3"] = .ok out
      ↔ tryParseFrom (jobsCli (some (lit "1"))) [blit "jobs", blit "--jobs=3"] = .ok out := by
  refine C97_given (jobs_derived (by decide)) (jobs_derived h) (jobs_changed (by decide) h) reads_jobs ?_
  rintro ⟨l, s, k⟩ f hf hs
  match l, s, k with
  | 0, 0, 0 => decide
  | 0, 0, 1 => cases hf; exact absurd hs (by decide)
  | 0, 0, k + 2 => cases hf
  | 0, s + 1, k => cases hf
  | l + 1, s, k => cases hf
example : value (tryParseFrom (jobsCli (some (lit "1"))) [blit "jobs", blit "--jobs=3"]) ["jobs"] = some (.value (lit "3"))
    ∧ value (tryParseFrom (jobsCli none) [blit "jobs", blit "--jobs=3"]) ["jobs"] = some (.value (lit "3")) := by
  decide +kernel

/-- Without, it does. -/
example : value (tryParseFrom (jobsCli (some (lit "1"))) [blit "jobs"]) ["jobs"] = some (.value (lit "1"))
    ∧ value (tryParseFrom (jobsCli (some (lit "4"))) [blit "jobs"]) ["jobs"] = some (.value (lit "4"))
    ∧ failure (tryParseFrom (jobsCli none) [blit "jobs"]) ≠ none := by
  decide +kernel

/-- Where `--jobs` had to be given, a default changes nothing that was accepted. -/
example {toks : List Bytes} {out : Out Val} (h : tryParseFrom (jobsCli none) (blit "jobs" :: toks) = .ok out) :
    tryParseFrom (jobsCli (some (lit "4"))) (blit "jobs" :: toks) = .ok out := by
  have h1 : isOk (deriveArgs Sample.cx none (jobsDecls none)) = true := by decide
  have h2 : isOk (deriveArgs Sample.cx none (jobsDecls (some (lit "4")))) = true := by decide
  have hc : ∀ e, Command (jobsCli none) e → e = jobsCli none := by
    have hs : subVariants (jobsCli none) = [] := by decide +kernel
    intro e he
    induction he with
    | root => rfl
    | sub _ hv ih => rw [ih, hs] at hv; cases hv
  have hall : ∀ c ∈ structs (jobsCli none), ∀ f ∈ c.fields, f.ident = lit "jobs" → isRequired f = true := by decide +kernel
  exact C97_required (jobs_derived h1) (jobs_derived h2) (jobs_changed h1 h2) (fun e he => by rw [hc e he]; exact hall) h

end Sample

end Palc
