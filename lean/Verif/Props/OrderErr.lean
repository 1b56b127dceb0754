import Verif.Props.Order
import Verif.Props.Language
import Verif.Lemmas.Mirror
import Verif.Lemmas.Kinds
/-!
# Errors when declarations are in another order (C81)
-/

namespace Palc

open Spec

variable {V : Type} {cx : Cx V} {d d' : ArgsDef V} {argv0 : Bytes} {toks : List Bytes} {evs : List Event} {κ : Ctx V} {x : Fail}

theorem atEnd_of (h : x.ofConstraint = true) : AtEnd x := by
  cases x with
  | panic => exact .panic
  | error e =>
    refine .error ?_
    simp only [Fail.ofConstraint, ErrorKind.ofConstraint] at h
    cases hk : e.kind <;> rw [hk] at h <;> simp at h ⊢

theorem rearranged_at (h : Rearranged cx d d') {ns : List Str} {e e' : ArgsDef V} (hc : CommandAt d ns e) (hc' : CommandAt d' ns e') :
    Rearranged cx e e' := by
  induction hc generalizing d' with
  | here => cases hc'; exact h
  | @sub d v ns e hv hc ih =>
    cases h with
    | same => cases command_unique (.sub hv hc) hc'; exact .same
    | struct hd hd' fields positionals flattened required subcommand unique C subcommands names subs =>
      generalize hn : v.name :: ns = l at hc'
      cases hc' with
      | here => cases hn
      | @sub _ w _ _ hw hc' =>
        simp only [List.cons.injEq] at hn
        obtain ⟨h1, rfl⟩ := hn
        have hn : ((subVariants d').map Variant.name).Perm ((subVariants d).map Variant.name) := by
          refine (subcommands.map Variant.name).symm.trans ?_
          rw [List.map_map, List.map_congr_left (f := Variant.name ∘ C) (g := Variant.name) (fun v hv => (names v hv).1)]
        have hC : Selected d' (C v) := .of_nodup (hn.nodup_iff.2 unique) (subcommands.mem_iff.1 (List.mem_map_of_mem hv.1))
        cases selected_unique hC hw (by rw [(names v hv.1).1, h1])
        exact ih (subs v hv.1) hc'

theorem rearranged_hasSub (h : Rearranged cx d d') : hasSub d' = hasSub d := by
  cases h with
  | same => rfl
  | struct => assumption

/-- Reading goes on in the same way, in both directions. -/
theorem steps_mirror (h : Rearranged cx d d') {rest : List Bytes} (hs : Steps cx (start argv0 d) toks evs κ rest) :
    ∃ μ ν κ', Steps cx (start argv0 d') toks (evs.map (movedEvent μ)) κ' rest ∧ CtxGrown cx (fun _ => True) μ κ κ'
      ∧ Grown cx (fun _ => True) ν κ'.stack κ.stack
      ∧ ∀ x x', κ.stack.head? = some x → κ'.stack.head? = some x' → hasSub x'.2 = hasSub x.2 := by
  obtain ⟨φ, h1⟩ := evolved_extends (rearranged_evolved h (fun _ => True) (fun _ => False)).1
  obtain ⟨ψ, h2⟩ := evolved_extends (rearranged_evolved h (fun _ => True) (fun _ => False)).2
  obtain ⟨μ, κ', _, h3, h4⟩ := steps_grown hs (fun _ _ => trivial) (start_mode argv0 d) (μ := fun _ => φ) (κ' := start argv0 d')
    ⟨.cons .nil (h1.mono (by rintro n ⟨a, f, hf, _⟩; simp [fieldAt] at hf)), rfl, rfl⟩
  obtain ⟨ν, κ'', _, h5, h6⟩ := steps_grown h3 (fun _ _ => trivial) (start_mode argv0 d') (μ := fun _ => ψ) (κ' := start argv0 d)
    ⟨.cons .nil (h2.mono (by rintro n ⟨a, f, hf, _⟩; simp [fieldAt] at hf)), rfl, rfl⟩
  obtain ⟨_, rfl⟩ := steps_det hs h5
  refine ⟨μ, ν, κ', h3, h4, h6.stack, ?_⟩
  · intro x x' hx hx'
    have a1 := along_steps hs (along_start argv0 d)
    have a2 := along_steps h3 (along_start argv0 d')
    have hl := h4.stack.length
    have key : ∀ (st : List (Entry V)) (y : Entry V), st.head? = some y → st.reverse[st.length - 1]? = some y := by
      intro st y hy
      cases st with
      | nil => cases hy
      | cons z st => cases hy; simp
    have b1 := a1 _ x (key _ _ hx)
    have b2 := a2 _ x' (key _ _ hx')
    rw [hl, entered_ids h4.stack.ids] at b2
    exact rearranged_hasSub (rearranged_at h b1 b2)

theorem stuck_occs {e1 e2 : List Event} {rest : List Bytes} {e : Error} (hs : Steps cx (start argv0 d) toks e1 κ rest)
    (hstk : Stuck cx κ rest e2 e) : ∀ x ∈ e1 ++ e2, ∃ f, fieldAt κ.stack x.1 = some f := by
  intro x hx
  rcases List.mem_append.1 hx with hx | hx
  · exact steps_fields hs (start_mode argv0 d) x hx
  · exact stuck_fields hstk x hx

/-- C81: where the one fails, the other fails, after reading the same arguments and entering the same commands.  It is the same error, or
the help of that command, or all arguments have been read and both complain about a constraint. -/
theorem C81_errors (hD : DerivedArgs cx d) (hD' : DerivedArgs cx d') (h : Rearranged cx d d')
    (hx : tryParseFrom d (argv0 :: toks) = .error x) :
    ∃ x' evs evs' κ κ' rest, tryParseFrom d' (argv0 :: toks) = .error x'
      ∧ Steps cx (start argv0 d) toks evs κ rest ∧ Steps cx (start argv0 d') toks evs' κ' rest ∧ κ'.stack.map (·.1) = κ.stack.map (·.1)
      ∧ (x' = x ∨ (x = .error (helpRequest κ.stack) ∧ x' = .error (helpRequest κ'.stack)) ∨ (rest = [] ∧ AtEnd x ∧ AtEnd x')) := by
  have wf := hD.wf
  have wf' := hD'.wf
  rcases (C23_rejects_iff hD argv0 toks x).1 hx with ⟨hs, hb⟩ | ⟨hh, hb⟩ | ⟨hh, ha⟩ | ⟨hr, ha, hf⟩
  · obtain ⟨μ, ν, κ', h3, h4, h5, h7⟩ := steps_mirror h hs
    have he := steps_fields hs (start_mode argv0 d)
    exact ⟨_, _, _, _, κ', _, outcome_steps wf' h3 (firstBad_mirror h4.stack he hb), hs, h3, h4.stack.ids, .inl rfl⟩
  · obtain ⟨e1, e2, rest, hs, hstk, rfl⟩ := hh
    obtain ⟨μ, ν, κ', h3, h4, h5, h7⟩ := steps_mirror h hs
    obtain ⟨e', hstk', hsame⟩ := stuck_mirror hstk h4 h5 h7
    have he := stuck_occs hs hstk
    have hb' := firstBad_mirror h4.stack he hb
    rw [List.map_append] at hb'
    rcases outcome_halts wf' ⟨_, _, _, h3, hstk', rfl⟩ with ⟨ha', _⟩ | ⟨x'', hb'', h1'⟩
    · exact absurd ha' hb'.not_acceptable
    · rw [← hb'.unique hb''] at h1'
      exact ⟨_, _, _, _, κ', _, h1', hs, h3, h4.stack.ids, .inl rfl⟩
  · obtain ⟨e1, e2, rest, hs, hstk, rfl⟩ := hh
    obtain ⟨μ, ν, κ', h3, h4, h5, h7⟩ := steps_mirror h hs
    obtain ⟨e', hstk', hsame⟩ := stuck_mirror hstk h4 h5 h7
    have he := stuck_occs hs hstk
    have ha' := acceptable_grown h4.stack he ha
    rw [List.map_append] at ha'
    rcases outcome_halts wf' ⟨_, _, _, h3, hstk', rfl⟩ with ⟨_, h1'⟩ | ⟨x'', hb'', _⟩
    · refine ⟨_, _, _, _, κ', _, h1', hs, h3, h4.stack.ids, ?_⟩
      rcases hsame with rfl | ⟨rfl, rfl⟩
      · exact .inl rfl
      · exact .inr (.inl ⟨rfl, rfl⟩)
    · exact absurd ha' hb''.not_acceptable
  · obtain ⟨μ, ν, κ', h3, h4, h5, h7⟩ := steps_mirror h (reads_steps hr)
    cases hf' : tryParseFrom d' (argv0 :: toks) with
    | ok out =>
      obtain ⟨out, hok⟩ := (C79_accepted hD hD' h argv0 toks).2 ⟨out, hf'⟩
      rw [hx] at hok
      cases hok
    | error x' =>
      refine ⟨x', _, _, _, κ', _, rfl, reads_steps hr, h3, h4.stack.ids, .inr (.inr ⟨rfl, atEnd_of (allFail_kind hf), ?_⟩)⟩
      have he := steps_fields (reads_steps hr) (start_mode argv0 d)
      rcases outcome_reads wf' (reads_iff_steps.2 h3) with ⟨_, _, _, h2'⟩ | ⟨x'', hb'', _⟩
      · revert h2'
        cases hfail : allFail (evs := _) κ'.stack false with
        | none => rintro ⟨o, _, ho⟩; rw [hf'] at ho; cases ho
        | some y => intro h2'; rw [hf'] at h2'; cases h2'; exact atEnd_of (allFail_kind hfail)
      · exact absurd (acceptable_grown h4.stack he ha) hb''.not_acceptable

/-- C81: in particular, all errors about an argument of the command line (other than help requests) are exactly the same. -/
theorem C81_same (hD : DerivedArgs cx d) (hD' : DerivedArgs cx d') (h : Rearranged cx d d') {e : Error}
    (hx : tryParseFrom d (argv0 :: toks) = .error (.error e)) (hh : e.kind ≠ .help) (ha : ¬ AtEnd (.error e)) :
    tryParseFrom d' (argv0 :: toks) = .error (.error e) := by
  obtain ⟨x', _, _, _, _, _, h1, _, _, _, h2⟩ := C81_errors hD hD' h hx
  rcases h2 with rfl | ⟨h2, _⟩ | ⟨_, h2, _⟩
  · exact h1
  · cases h2; exact absurd rfl hh
  · exact absurd h2 ha

/-! ## Examples -/

namespace Sample

/-- Two required options. -/
def pairDecls : List (FieldDecl Val) :=
  [ .arg (lit "host") string { long := some .inherit }, .arg (lit "port") number { long := some .inherit } ]
def pairCli : ArgsDef Val := get (deriveArgs Sample.cx none pairDecls)
def pairCli2 : ArgsDef Val := get (deriveArgs Sample.cx none pairDecls.reverse)

theorem pairCli_derived : DerivedArgs Sample.cx pairCli := derived_leaf (by decide) (by decide)
theorem pairCli2_derived : DerivedArgs Sample.cx pairCli2 := derived_leaf (by decide) (by decide)

theorem pairCli_rearranged : Rearranged Sample.cx pairCli pairCli2 := by
  have hv : subVariants pairCli = [] := by decide
  have hv' : subVariants pairCli2 = [] := by decide
  refine .struct (ds := pairDecls) (ds' := pairDecls.reverse) (get_ok (by decide)) (get_ok (by decide)) ((pairDecls.reverse_perm.symm).filter _)
    rfl rfl (by decide) (by decide) ?_ id ?_ ?_ ?_
  · rw [hv]; exact List.nodup_nil
  · rw [hv, hv']; exact .nil
  · rw [hv]; exact fun _ h => by cases h
  · rw [hv]; exact fun _ h => by cases h

end Sample

/-- Which of several violated constraints is reported does depend on the order of declarations. -/
theorem C81_not_first : Sample.failure (tryParseFrom Sample.pairCli [blit "app"])
      = some (.error { kind := .missingRequiredArgument, argDesc := some (lit "--host <HOST>") })
    ∧ Sample.failure (tryParseFrom Sample.pairCli2 [blit "app"])
      = some (.error { kind := .missingRequiredArgument, argDesc := some (lit "--port <PORT>") }) := by
  decide +kernel

/-- An undeclared option of the subcommand. -/
example : ∃ e : Error, Sample.failure (Sample.parse ["app", "add", "p", "-x"]) = some (.error e) ∧ e.kind = .unknownNamedArgument
    ∧ tryParseFrom Sample.mixedCli ([("app" : String), "add", "p", "-x"].map blit) = .error (.error e) := by
  cases h : Sample.parse ["app", "add", "p", "-x"] with
  | ok out =>
    have : (Sample.failure (Sample.parse ["app", "add", "p", "-x"])).isSome = true := by decide +kernel
    rw [h] at this
    cases this
  | error x =>
    cases x with
    | panic =>
      have : Sample.failure (Sample.parse ["app", "add", "p", "-x"]) ≠ some .panic := by decide +kernel
      rw [h] at this
      exact absurd rfl this
    | error e =>
      have hk : (Sample.failure (Sample.parse ["app", "add", "p", "-x"])).map
          (fun x => match x with | .error e => e.kind | .panic => .help) = some .unknownNamedArgument := by decide +kernel
      rw [h] at hk
      simp only [Sample.failure, Option.map_some, Option.some.injEq] at hk
      refine ⟨e, rfl, hk, ?_⟩
      refine C81_same Sample.cli_derived Sample.mixedCli_derived Sample.cli_rearranged h (by rw [hk]; exact fun h => by cases h) ?_
      intro ha
      cases ha with
      | error ha =>
        rw [hk] at ha
        simp at ha

example : ∃ x, tryParseFrom Sample.pairCli2 ([("app" : String), "--host", "h"].map blit) = .error x ∧ AtEnd x := by
  cases h : tryParseFrom Sample.pairCli ([("app" : String), "--host", "h"].map blit) with
  | ok out =>
    have : (Sample.failure (tryParseFrom Sample.pairCli ([("app" : String), "--host", "h"].map blit))).isSome = true := by decide +kernel
    rw [h] at this
    cases this
  | error x =>
    have hk : Sample.failure (tryParseFrom Sample.pairCli ([("app" : String), "--host", "h"].map blit))
      = some (.error { kind := .missingRequiredArgument, argDesc := some (lit "--port <PORT>") }) := by decide +kernel
    rw [h] at hk
    cases hk
    obtain ⟨x', _, _, _, _, _, h1, _, _, _, h2⟩ := C81_errors Sample.pairCli_derived Sample.pairCli2_derived Sample.pairCli_rearranged h
    refine ⟨x', h1, ?_⟩
    rcases h2 with rfl | ⟨h2, _⟩ | ⟨_, _, h2⟩
    · exact .error (.inl rfl)
    · cases h2
    · exact h2

end Palc
