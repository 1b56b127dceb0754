import Verif.Lemmas.Siblings
import Verif.Props.Language
import Verif.Example
/-!
# Subcommands do not interfere with each other (C84)
-/

namespace Palc

open Spec

variable {V : Type} {cx : Cx V} {d d' : ArgsDef V} {argv0 : Bytes} {toks : List Bytes}

theorem cmdline_ids {st st' : List (Entry V)} (h : st'.map (·.1) = st.map (·.1)) : cmdline st' = cmdline st := by
  induction st generalizing st' with
  | nil => cases st' with
    | nil => rfl
    | cons _ _ => cases h
  | cons x st ih => cases st' with
    | nil => cases h
    | cons y st' =>
      obtain ⟨i, e⟩ := x
      obtain ⟨i', e'⟩ := y
      simp only [List.map_cons, List.cons.injEq] at h
      simp only [cmdline, ih h.2, h.1]

theorem bothHelp_of {T : Bytes → Prop} {st st' : List (Entry V)} (h : OtherStack cx T st st') (hne : st ≠ []) :
    BothHelp (V := V) (errR (helpRequest st)) (errR (helpRequest st')) := by
  cases h with
  | nil => exact absurd rfl hne
  | @cons i e e' st st' h hd =>
    refine ⟨i, e, e', st, st', rfl, rfl, h.ids, hd.structs, fun hs => ?_⟩
    have : e' = e := by
      obtain ⟨core, flats, sub, sub', rfl, rfl, rfl | ⟨i, o, vs, vs', rfl, rfl⟩⟩ := hd.shape
      · rfl
      · cases hs
    subst this
    simp only [helpRequest, commandHelp, cmdline, cmdline_ids h.ids]

/-- C84: two programs that differ only in subcommands whose names are not on the command line do the same with it: the same value, the
same error, or the help of the same command. -/
theorem C84_others (hD : DerivedArgs cx d) (hD' : DerivedArgs cx d') (h : OtherSubs cx (· ∈ toks) d d') (argv0 : Bytes) :
    tryParseFrom d' (argv0 :: toks) = tryParseFrom d (argv0 :: toks)
    ∨ BothHelp (tryParseFrom d (argv0 :: toks)) (tryParseFrom d' (argv0 :: toks)) := by
  have wf := hD.wf
  have wf' := hD'.wf
  have hT : ∀ t ∈ toks, t ∈ toks := fun _ h => h
  have c0 := start_others h argv0
  have hreads : ∀ {evs κ}, Reads cx (start argv0 d) toks evs κ → tryParseFrom d' (argv0 :: toks) = tryParseFrom d (argv0 :: toks) := by
    intro evs κ hr
    obtain ⟨κ', hs', c⟩ := steps_others (reads_steps hr) c0 hT
    rcases outcome_reads wf hr with ⟨_, ha, _, h2⟩ | ⟨e, hb, h2⟩ <;>
      rcases outcome_reads wf' (reads_iff_steps.2 hs') with ⟨_, ha', _, h2'⟩ | ⟨e', hb', h2'⟩
    · rw [c.stack.allFail, c.stack.outAll] at h2'
      cases hf : allFail evs κ.stack false with
      | some x => rw [hf] at h2 h2'; exact Eq.trans h2' h2.symm
      | none =>
        rw [hf] at h2 h2'
        obtain ⟨o, q1, q2⟩ := h2
        obtain ⟨o', q1', q2'⟩ := h2'
        rw [q1] at q1'
        cases q1'
        rw [q2, q2']
    · exact absurd (c.stack.acceptable.2 ha) hb'.not_acceptable
    · exact absurd (c.stack.acceptable.1 ha') hb.not_acceptable
    · rw [h2, h2', hb.unique (c.stack.firstBad.1 hb')]
  have hhalts : ∀ {evs κ e}, Halts cx (start argv0 d) toks evs κ e →
      tryParseFrom d' (argv0 :: toks) = tryParseFrom d (argv0 :: toks)
      ∨ BothHelp (tryParseFrom d (argv0 :: toks)) (tryParseFrom d' (argv0 :: toks)) := by
    intro evs κ e hh
    obtain ⟨e1, e2, rest, hs, hstk, rfl⟩ := hh
    obtain ⟨κ', hs', c⟩ := steps_others hs c0 hT
    obtain ⟨e', hstk', hsame⟩ := stuck_others hstk c (fun t ht => steps_rest hs t ht)
    rcases outcome_halts wf ⟨_, _, _, hs, hstk, rfl⟩ with ⟨ha, h2⟩ | ⟨x, hb, h2⟩ <;>
      rcases outcome_halts wf' ⟨_, _, _, hs', hstk', rfl⟩ with ⟨ha', h2'⟩ | ⟨x', hb', h2'⟩
    · rcases hsame with rfl | ⟨rfl, rfl⟩
      · exact .inl (by rw [h2, h2'])
      · rw [h2, h2']
        exact .inr (bothHelp_of c.stack (stack_wf wf hs).2)
    · exact absurd (c.stack.acceptable.2 ha) hb'.not_acceptable
    · exact absurd (c.stack.acceptable.1 ha') hb.not_acceptable
    · exact .inl (by rw [h2, h2', hb.unique (c.stack.firstBad.1 hb')])
  cases hx : tryParseFrom d (argv0 :: toks) with
  | ok out =>
    obtain ⟨evs, κ, hr, _⟩ := (C23_accepts_iff hD argv0 toks out).1 hx
    exact .inl ((hreads hr).trans hx)
  | error x =>
    rw [← hx]
    cases (C23_rejects_iff hD argv0 toks x).1 hx with
    | value hs hb =>
      obtain ⟨κ', hs', c⟩ := steps_others hs c0 hT
      rw [outcome_steps wf hs hb, outcome_steps wf' hs' (c.stack.firstBad.2 hb)]
      exact .inl rfl
    | valueStuck hh _ => exact hhalts hh
    | stuck hh _ => exact hhalts hh
    | invalid hr _ _ => exact .inl (hreads hr)

/-! ## Examples -/

namespace Sample

/-- Other arguments for `run`, no `drop`, and a new `init`. -/
def otherCmd : Variants Val := deriveSub Sample.cx
  [.unit (lit "Init") none, .args (lit "Run") drop, .args (lit "Add") add, .unit (lit "Status") none]

def otherDecls : List (FieldDecl Val) :=
  cliDecls.take 9 ++ .subcommand (lit "cmd") true otherCmd :: cliDecls.drop 10
def otherCli : ArgsDef Val := get (deriveArgs Sample.cx none otherDecls)

theorem otherCli_derived : DerivedArgs Sample.cx otherCli := by
  refine .mk none otherDecls ?_ ?_ (get_ok (by decide +kernel))
  · intro i e hm
    simp only [otherDecls, cliDecls, List.take, List.drop, List.cons_append, List.nil_append, List.mem_cons, reduceCtorEq, FieldDecl.flatten.injEq,
      List.not_mem_nil, or_false, false_or] at hm
    obtain ⟨_, rfl⟩ := hm
    exact derived_leaf (by decide) (by decide)
  · intro i o vs hm
    simp only [otherDecls, cliDecls, List.take, List.drop, List.cons_append, List.nil_append, List.mem_cons, reduceCtorEq,
      FieldDecl.subcommand.injEq, List.not_mem_nil, or_false, false_or] at hm
    obtain ⟨_, _, rfl⟩ := hm
    refine .mk _ ?_ rfl
    intro i e hm
    simp only [List.mem_cons, VariantDecl.args.injEq, reduceCtorEq, List.not_mem_nil, or_false, false_or] at hm
    rcases hm with ⟨_, rfl⟩ | ⟨_, rfl⟩ <;> exact derived_leaf (by decide) (by decide)

theorem cli_others {toks : List Bytes} (h1 : blit "run" ∉ toks) (h2 : blit "drop" ∉ toks) (h3 : blit "init" ∉ toks) :
    OtherSubs Sample.cx (· ∈ toks) cli otherCli := by
  have hv : variantList cmd = [.args (lit "Add") (lit "add") add, .args (lit "Run") (lit "run") run, .args (lit "Drop") (lit "drop") drop,
      .unit (lit "Status") (lit "status") none] := by
    simp only [cmd, cmdDecls, deriveSub, variantList]; rfl
  have hv' : variantList otherCmd = [.unit (lit "Init") (lit "init") none, .args (lit "Run") (lit "run") drop, .args (lit "Add") (lit "add") add,
      .unit (lit "Status") (lit "status") none] := by
    simp only [otherCmd, deriveSub, variantList]; rfl
  refine .struct (cm := none) (ds := cliDecls.take 9) (more := cliDecls.drop 10) (i := lit "cmd") (o := true) (vs := cmd) (vs' := otherCmd)
    (get_ok (r := deriveArgs Sample.cx none cliDecls) (by decide +kernel)) (get_ok (r := deriveArgs Sample.cx none otherDecls) (by decide +kernel))
    (by rw [hv]; decide) (by rw [hv']; decide) id ?_ ?_ (fun _ _ _ => .same)
  · rw [hv, hv']
    intro v hm ht
    simp only [List.mem_cons, List.not_mem_nil, or_false] at hm
    rcases hm with rfl | rfl | rfl | rfl
    · exact ⟨by simp, rfl, rfl⟩
    · exact absurd ht h1
    · exact absurd ht h2
    · exact ⟨by simp, rfl, rfl⟩
  · rw [hv, hv']
    intro v hm ht
    simp only [List.mem_cons, List.not_mem_nil, or_false] at hm
    rcases hm with rfl | rfl | rfl | rfl
    · exact absurd ht h3
    · exact absurd ht h1
    · exact ⟨.args (lit "Add") (lit "add") add, by simp, rfl⟩
    · exact ⟨.unit (lit "Status") (lit "status") none, by simp, rfl⟩

end Sample

/-- Any command line without `run`, `drop` and `init`. -/
example (toks : List Bytes) (h1 : blit "run" ∉ toks) (h2 : blit "drop" ∉ toks) (h3 : blit "init" ∉ toks) :
    tryParseFrom Sample.otherCli (blit "app" :: toks) = tryParseFrom Sample.cli (blit "app" :: toks)
    ∨ BothHelp (tryParseFrom Sample.cli (blit "app" :: toks)) (tryParseFrom Sample.otherCli (blit "app" :: toks)) :=
  C84_others Sample.cli_derived Sample.otherCli_derived (Sample.cli_others h1 h2 h3) _

example : Sample.value (tryParseFrom Sample.otherCli ([("app" : String), "-v", "add", "p", "-f"].map blit)) ["cmd", "Add", "force"] = some (.bool true)
    ∧ Sample.isOk (tryParseFrom Sample.otherCli ([("app" : String), "run", "ls", "-", "-x"].map blit)) = false
    ∧ Sample.isOk (tryParseFrom Sample.cli ([("app" : String), "run", "ls", "-", "-x"].map blit)) = true := by
  decide +kernel

end Palc
