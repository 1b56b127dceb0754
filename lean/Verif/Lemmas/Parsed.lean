import Verif.Lemmas.Content
import Verif.Lemmas.Unique
import Verif.Lemmas.DeriveWF
import Verif.Reader
import Verif.Example
/-!
# Successful parses

`Parsed cx d argv0 toks evs κ out`: the derived definition `d` parses the arguments successfully to `out`; `evs` are the
occurrences of arguments on the command line, in order, and `κ` says which commands were entered.
-/

namespace Palc

open Spec

variable {V : Type}

/-- A successful parse, together with the reading of its arguments (which exists and is unique, C29). -/
structure Parsed (cx : Cx V) (d : ArgsDef V) (argv0 : Bytes) (toks : List Bytes) (evs : List Event) (κ : Ctx V)
    (out : Out V) : Prop where
  derived : DerivedArgs cx d
  reads : Reads cx (start argv0 d) toks evs κ
  ok : tryParseFrom d (argv0 :: toks) = .ok out

section

variable {cx : Cx V} {d : ArgsDef V} {argv0 : Bytes} {toks : List Bytes} {evs : List Event} {κ : Ctx V} {out : Out V}

theorem Parsed.of_ok (hd : DerivedArgs cx d) (h : tryParseFrom d (argv0 :: toks) = .ok out) :
    ∃ evs κ, Parsed cx d argv0 toks evs κ out := by
  obtain ⟨evs, κ, hr⟩ := ok_reads hd.wf h
  exact ⟨evs, κ, hd, hr, h⟩

theorem Parsed.acceptable (h : Parsed cx d argv0 toks evs κ out) : Acceptable κ.stack evs :=
  (ok_reading h.derived.wf h.reads h.ok).1

theorem Parsed.allOk (h : Parsed cx d argv0 toks evs κ out) : AllOk evs κ.stack false :=
  (ok_reading h.derived.wf h.reads h.ok).2.1

theorem Parsed.outAll (h : Parsed cx d argv0 toks evs κ out) : outAll evs κ.stack none = some out :=
  (ok_reading h.derived.wf h.reads h.ok).2.2

theorem Parsed.path (h : Parsed cx d argv0 toks evs κ out) : PathOk κ.stack :=
  steps_path (reads_steps h.reads) (start_path argv0 d)

theorem Parsed.stackWF (h : Parsed cx d argv0 toks evs κ out) : StackWF cx κ.stack :=
  (stack_wf h.derived.wf (reads_steps h.reads)).1

theorem Parsed.ne_nil (h : Parsed cx d argv0 toks evs κ out) : κ.stack ≠ [] := by
  obtain ⟨ext, he⟩ := steps_stack (reads_steps h.reads)
  rw [he]
  simp [start]

theorem Parsed.field (h : Parsed cx d argv0 toks evs κ out) {a : Addr} {f : FieldInfo V} (hf : fieldAt κ.stack a = some f) :
    ∃ v, fieldOut f (occs evs a) = some v ∧ outAt κ.stack out a = some (f.ident, .field v) :=
  ok_field h.derived.wf h.reads h.ok hf

theorem allOk_level {evs : List Event} {pre outer : List (Entry V)} {i : CmdId} {d : ArgsDef V} {sub : Bool}
    (h : AllOk evs (pre ++ (i, d) :: outer) sub) : LevelOk evs outer.length d (if pre = [] then sub else true) := by
  induction pre generalizing sub with
  | nil => exact h.1
  | cons x pre ih =>
    have := ih h.2
    rw [if_neg (by simp)]
    simpa using this

/-- All conditions on the struct of a field hold. -/
theorem Parsed.struct (h : Parsed cx d argv0 toks evs κ out) {a : Addr} {f : FieldInfo V} (hf : fieldAt κ.stack a = some f) :
    ∃ (c : Core V) (sub : Bool), CoreWF cx c ∧ c.fields[a.field]? = some f
      ∧ StructOk c (fun i => occs evs ⟨a.level, a.struct, i⟩) sub
      ∧ (∀ i g, c.fields[i]? = some g ↔ fieldAt κ.stack ⟨a.level, a.struct, i⟩ = some g)
      ∧ (sub = false → a.struct = 0 → κ.stack.length = a.level + 1) := by
  obtain ⟨pre, i, d', outer, c, hst, hl, hc, hcf⟩ := fieldAt_split hf
  have hlev := allOk_level (hst ▸ h.allOk)
  have hs := hlev.structs _ _ hc
  rw [← hl] at hs
  refine ⟨c, _, ?_, hcf, hs, ?_, ?_⟩
  · exact WFArgs.structs d' (h.stackWF (i, d') (by rw [hst]; simp)) c (List.mem_of_getElem? hc)
  · intro j g
    rw [hst, fieldAt_ext (by simp [hl])]
    simp [fieldAt, hl, hc]
  · intro hsub h0
    rw [hst]
    cases pre with
    | nil => simp [hl]
    | cons x pre => simp [h0] at hsub

end

/-- The field fed in trailing mode is a `trailing_var_arg` positional field of the current command. -/
def ModeOk (κ : Ctx V) : Prop := ∀ j, κ.mode = .trailing j →
  ∃ i d st x k, κ.stack = (i, d) :: st ∧ x.2 = j ∧ x.1.src.trailingVarArg = true ∧ posTarget d k = some x

theorem modeAfter_ok {i : CmdId} {d : ArgsDef V} {st : List (Entry V)} {k k' : Nat} {x : FieldInfo V × Nat} {m : Mode}
    (hx : posTarget d k = some x) (hm : ∀ j, m ≠ .trailing j) : ModeOk ⟨(i, d) :: st, k', modeAfter x m⟩ := by
  intro j hj
  simp only [modeAfter] at hj
  split at hj
  · rename_i ht
    cases hj
    exact ⟨_, _, _, x, k, rfl, rfl, ht, hx⟩
  · exact absurd hj (hm j)

theorem step_mode {cx : Cx V} {κ κ1 : Ctx V} {toks rest : Toks} {evs : List Event} (h : Step cx κ toks evs κ1 rest)
    (hm : ModeOk κ) : ModeOk κ1 := by
  cases h with
  | positional hp hns hx => exact modeAfter_ok hx (by simp)
  | dashed hl hx => exact modeAfter_ok hx (by simp)
  | trailing => exact hm
  | _ => intro j hj; simp at hj

theorem steps_mode {cx : Cx V} {κ κ1 : Ctx V} {toks rest : Toks} {evs : List Event} (h : Steps cx κ toks evs κ1 rest)
    (hm : ModeOk κ) : ModeOk κ1 := by
  induction h with
  | refl => exact hm
  | step h _ ih => exact ih (step_mode h hm)

theorem start_mode (argv0 : Bytes) (d : ArgsDef V) : ModeOk (start argv0 d) := by intro j hj; simp [start] at hj

/-- Occurrences belong to fields of the entered commands. -/
theorem step_fields {cx : Cx V} {κ κ1 : Ctx V} {toks rest : Toks} {evs : List Event} (h : Step cx κ toks evs κ1 rest)
    (hm : ModeOk κ) : ∀ x ∈ evs, ∃ f, fieldAt κ.stack x.1 = some f := by
  intro x hx
  cases h with
  | longEq hr | longBare hr | longSep hr =>
    rw [List.mem_singleton] at hx; subst hx; exact ⟨_, resolves_fieldAt hr⟩
  | cluster hb hc | clusterSep hb hc => exact cluster_fields hc x hx
  | sub | dashdash => simp at hx
  | positional hp hns ht => rw [List.mem_singleton] at hx; subst hx; exact ⟨_, fieldAt_main (posTarget_field ht).2.2⟩
  | dashed hl ht => rw [List.mem_singleton] at hx; subst hx; exact ⟨_, fieldAt_main (posTarget_field ht).2.2⟩
  | last ht => rw [List.mem_singleton] at hx; subst hx; exact ⟨_, fieldAt_main (lastArg_field ht).2.2⟩
  | trailing =>
    rw [List.mem_singleton] at hx; subst hx
    obtain ⟨i, d, st, y, k, h1, h2, _, h3⟩ := hm _ rfl
    simp only at h1
    cases h1
    exact ⟨y.1, fieldAt_main (h2 ▸ (posTarget_field h3).2.2)⟩

theorem steps_fields {cx : Cx V} {κ κ1 : Ctx V} {toks rest : Toks} {evs : List Event} (h : Steps cx κ toks evs κ1 rest)
    (hm : ModeOk κ) : ∀ x ∈ evs, ∃ f, fieldAt κ1.stack x.1 = some f := by
  induction h with
  | refl => simp
  | step h hs ih =>
    intro x hx
    rcases List.mem_append.1 hx with hx | hx
    · obtain ⟨f, hf⟩ := step_fields h hm x hx
      obtain ⟨e1, q1⟩ := step_stack h
      obtain ⟨e2, q2⟩ := steps_stack hs
      rw [q2, q1]
      exact ⟨f, fieldAt_ext_some (fieldAt_ext_some hf)⟩
    · exact ih (step_mode h hm) x hx

theorem occs_mem {evs : List Event} {a : Addr} {v : Option Bytes} : v ∈ occs evs a ↔ (a, v) ∈ evs := by
  unfold occs
  simp only [List.mem_map, List.mem_filter, decide_eq_true_eq]
  constructor
  · rintro ⟨e, ⟨h1, rfl⟩, rfl⟩; exact h1
  · intro h; exact ⟨(a, v), ⟨h, rfl⟩, rfl⟩

/-- A field occurs iff it has occurrences. -/
theorem occs_ne_nil {evs : List Event} {a : Addr} : occs evs a ≠ [] ↔ ∃ v, (a, v) ∈ evs := by
  constructor
  · intro h
    obtain ⟨v, hv⟩ := List.exists_mem_of_ne_nil _ h
    exact ⟨v, occs_mem.1 hv⟩
  · rintro ⟨v, hv⟩ hn
    have := occs_mem.2 hv
    rw [hn] at this
    cases this

/-- Parses a command line of the sample CLI, reads it by the grammar, and checks the results. -/
def Sample.check (args : List String) (p : List Event → Ctx Sample.Val → Out Sample.Val → Bool) : Bool :=
  match read Sample.cx (args.map blit) ⟨[Sample.root], 0, .opts⟩, Sample.parse ("app" :: args) with
  | some (evs, κ), .ok out => p evs κ out
  | _, _ => false

/-- A successful parse of the sample CLI, by computation. -/
theorem Sample.parsed (args : List String) (p : List Event → Ctx Sample.Val → Out Sample.Val → Bool)
    (h : Sample.check args p = true) :
    ∃ evs κ out, Parsed Sample.cx Sample.cli (blit "app") (args.map blit) evs κ out ∧ p evs κ out = true := by
  unfold Sample.check at h
  split at h
  · rename_i evs κ out hr hp
    exact ⟨evs, κ, out, ⟨Sample.cli_derived, by rw [Sample.start_app]; exact read_sound hr, hp⟩, h⟩
  · simp at h

/-- A reading of arguments of the sample CLI, by computation. -/
theorem Sample.reads (args : List String) (p : List Event → Ctx Sample.Val → Bool)
    (h : (read Sample.cx (args.map blit) ⟨[Sample.root], 0, .opts⟩).any (fun x => p x.1 x.2) = true) :
    ∃ evs κ, Reads Sample.cx (start (blit "app") Sample.cli) (args.map blit) evs κ ∧ p evs κ = true := by
  rw [Option.any_eq_true] at h
  obtain ⟨⟨evs, κ⟩, hr, hp⟩ := h
  exact ⟨evs, κ, by rw [Sample.start_app]; exact read_sound hr, hp⟩

/-- `app run`. -/
theorem Sample.reads_run : Reads Sample.cx (start (blit "app") Sample.cli) [blit "run"] []
    ⟨[Sample.entry "Run" "run" Sample.run, Sample.root], 0, .opts⟩ := by
  rw [Sample.start_app]
  exact .sub (v := .args (lit "Run") (lit "run") Sample.run) (Sample.selected (List.mem_cons_of_mem _ List.mem_cons_self)) (.inl (by decide)) .done

/-- The outcome of parsing, from what it is by computation. -/
theorem Sample.fails (args : List String) {e : Fail} (h : Sample.failure (Sample.parse args) = some e) :
    tryParseFrom Sample.cli (args.map blit) = .error e := by
  unfold Sample.failure Sample.parse at h
  split at h
  · cases h
  · rename_i e' he; cases h; exact he

end Palc
