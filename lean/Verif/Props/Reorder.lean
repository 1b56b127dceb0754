import Verif.Lemmas.Reorder
import Verif.Props.Flatten
/-!
# The order of fields (C65)

The order in which the options, the flattened fields and the subcommand field of a struct are declared does not matter to parsing:
only the positional arguments have to keep their order, and so have the flattened structs among each other (the first one
declaring an option takes precedence, C14).
-/

namespace Palc

open Spec

variable {V : Type} {cx : Cx V} {d d' : ArgsDef V} {argv0 : Bytes} {toks : List Bytes} {evs : List Event} {κ : Ctx V} {out : Out V}

namespace Spec

/-- The same fields in another order, where positional arguments keep their order, and so do flattened structs. -/
structure Reordered (ds ds' : List (FieldDecl V)) : Prop where
  fields : ds.Perm ds'
  positionals : ds.filter (fun x => isSinglePos x || isManyPos x) = ds'.filter (fun x => isSinglePos x || isManyPos x)
  flattened : flattenFields ds = flattenFields ds'

end Spec

theorem flattenFields_eq (ds : List (FieldDecl V)) : flattenFields ds = ds.filterMap declFlat := by
  unfold flattenFields
  refine filterMap_congr' fun x _ => ?_
  cases x <;> rfl

section

variable {cm cm' : Option CommandMeta} {ds ds' : List (FieldDecl V)}

theorem reorder_command (hd : deriveArgs cx cm ds = .ok d) (hd' : deriveArgs cx cm' ds' = .ok d') (h : Reordered ds ds') :
    SameCommand cx d d' (renumbered d d') (renumbered d' d) ∧ subOf d' = subOf d := by
  obtain ⟨O, O', P, hr⟩ := reordering hd hd' h.fields h.positionals (by rw [← flattenFields_eq, ← flattenFields_eq, h.flattened])
  exact ⟨⟨hr.sameArgs, Reordering.sameConstraints⟩, reordering_sub hd hd' h.fields⟩

/-- Command lines are read in the same way: the same commands are entered, and the arguments of the root command that occur are
those of the same name, in the same order with the same values; both parsers go on from there. -/
theorem C65_reads (hD : DerivedArgs cx d) (hD' : DerivedArgs cx d') (hd : deriveArgs cx cm ds = .ok d) (hd' : deriveArgs cx cm' ds' = .ok d')
    (h : Reordered ds ds') (hr : Reads cx (start argv0 d) toks evs κ) :
    After cx d argv0 toks evs κ ∧ ∃ evs' κ', After cx d' argv0 toks evs' κ' ∧ κ'.stack.map (·.1) = κ.stack.map (·.1)
      ∧ evs'.map (fun e => ((fieldAt κ'.stack e.1).map (·.ident), e.1.level, e.1.struct, e.2))
        = evs.map (fun e => ((fieldAt κ.stack e.1).map (·.ident), e.1.level, e.1.struct, e.2)) := by
  obtain ⟨h1, h2⟩ := reorder_command hd hd' h
  have hsame : Same (SameBelow cx d) d d' (renumbered d d') (renumbered d' d) :=
    same_of_sub (fun v => ⟨sameCommand_refl cx _, fun _ => rfl⟩) ⟨h1, fun h => absurd h (Nat.lt_irrefl _)⟩ h2
  obtain ⟨μ, ν, κ', e1, _, hr', hst⟩ := reads_same (fun _ _ _ _ h => h.1.1) hsame hr
  have hst1 : StackSame cx μ ν κ.stack κ'.stack := SameStack.mono (fun _ _ _ _ h => h.1.1) hst
  refine ⟨after_reads hD hr, _, κ', after_reads hD' hr', hst.ids, ?_⟩
  rw [List.map_map]
  refine List.map_congr_left fun e he => ?_
  obtain ⟨f, hf⟩ := steps_fields (reads_steps hr) (start_mode argv0 d) e he
  obtain ⟨⟨f', hf', ef⟩, _⟩ := hst1.to hf
  have hs : (moved μ e.1).struct = e.1.struct := by
    by_cases hl : e.1.level = 0
    · show (μ e.1.level (e.1.struct, e.1.field)).1 = e.1.struct
      rw [hl, e1, Reordering.same_struct]
    · obtain ⟨⟨l, s, k⟩, v⟩ := e
      rw [sameBelow_moved hst (below_reads hr) hf (by simp only at hl ⊢; omega)]
  show ((fieldAt κ'.stack (moved μ e.1)).map (·.ident), e.1.level, (moved μ e.1).struct, e.2) = _
  rw [hf', hf, hs]
  simp only [Option.map_some, alike_ident ef]

/-- The same command lines are accepted, … -/
theorem C65_accepted (hD : DerivedArgs cx d) (hD' : DerivedArgs cx d') (hd : deriveArgs cx cm ds = .ok d) (hd' : deriveArgs cx cm' ds' = .ok d')
    (h : Reordered ds ds') (argv0 : Bytes) (toks : List Bytes) :
    (∃ out, tryParseFrom d (argv0 :: toks) = .ok out) ↔ ∃ out, tryParseFrom d' (argv0 :: toks) = .ok out :=
  C16_accepted hD hD' (same_of_sub (fun _ => sameCommand_refl cx _) (reorder_command hd hd' h).1 (reorder_command hd hd' h).2) argv0 toks

/-- … and every argument gets the same value: those of the struct are found under the same name, all others (of flattened
structs, of subcommands) at the same place. -/
theorem C65_values (hD' : DerivedArgs cx d') (hd : deriveArgs cx cm ds = .ok d) (hd' : deriveArgs cx cm' ds' = .ok d')
    (h : Reordered ds ds') (hp : Parsed cx d argv0 toks evs κ out) :
    ∃ evs' κ' out', Parsed cx d' argv0 toks evs' κ' out'
      ∧ κ'.stack.map (·.1) = κ.stack.map (·.1)
      ∧ (∀ k f k' f', fieldAt κ.stack ⟨0, 0, k⟩ = some f → fieldAt κ'.stack ⟨0, 0, k'⟩ = some f' → f'.ident = f.ident →
        outAt κ'.stack out' ⟨0, 0, k'⟩ = outAt κ.stack out ⟨0, 0, k⟩)
      ∧ ∀ l s k f, ¬ (l = 0 ∧ s = 0) → fieldAt κ.stack ⟨l, s, k⟩ = some f → outAt κ'.stack out' ⟨l, s, k⟩ = outAt κ.stack out ⟨l, s, k⟩ := by
  obtain ⟨h1, h2⟩ := reorder_command hd hd' h
  have hsame : Same (SameBelow cx d) d d' (renumbered d d') (renumbered d' d) :=
    same_of_sub (fun v => ⟨sameCommand_refl cx _, fun _ => rfl⟩) ⟨h1, fun h => absurd h (Nat.lt_irrefl _)⟩ h2
  obtain ⟨μ, ν, κ', out', e1, _, hp', hst, hv, _⟩ := values_same (fun _ _ _ _ h => h.1) hD' hsame hp
  refine ⟨_, κ', out', hp', hst.ids, ?_, ?_⟩
  · intro k f k' f' hf hf' he
    have := hv _ f hf
    have hk : (renumbered d d' (0, k)) = (0, k') := by
      have g1 := root_field hp.reads 0 k
      have g2 := root_field hp'.reads 0 k'
      rw [hf, argAt_main] at g1
      rw [hf', argAt_main] at g2
      unfold renumbered
      rw [if_pos rfl, sameIdent_eq (accepted_wf hd') g1.symm g2.symm he]
    unfold moved at this
    simp only [e1, hk] at this
    exact this
  · intro l s k f hne hf
    have := hv _ f hf
    by_cases hl : l = 0
    · subst hl
      have hs : s ≠ 0 := fun h => hne ⟨rfl, h⟩
      unfold moved at this
      simp only [e1, renumbered, if_neg hs] at this
      exact this
    · rw [sameBelow_moved hst (below_reads hp.reads) hf (by omega)] at this
      exact this

end

/-! ## Examples -/

namespace Sample

/-- The fields of the sample CLI in reverse. -/
def reverseCli : ArgsDef Val := get (deriveArgs Sample.cx none cliDecls.reverse)

theorem reverseCli_ok : deriveArgs Sample.cx none cliDecls.reverse = .ok reverseCli := get_ok (by decide)

theorem reverse_reordered : Reordered cliDecls cliDecls.reverse := ⟨cliDecls.reverse_perm.symm, rfl, rfl⟩

theorem reverseCli_derived : DerivedArgs Sample.cx reverseCli := by
  refine .mk none cliDecls.reverse ?_ ?_ reverseCli_ok
  · intro i d hm
    simp [cliDecls] at hm
    obtain ⟨_, rfl⟩ := hm
    exact output_derived
  · intro i o vs hm
    simp [cliDecls] at hm
    obtain ⟨_, _, rfl⟩ := hm
    exact cmd_derived

theorem cli_ok : deriveArgs Sample.cx none cliDecls = .ok cli := get_ok (by decide)

/-- Two flattened structs declaring the same option. -/
def dup1 : ArgsDef Val := get (deriveArgs Sample.cx none [.arg (lit "one") .bool { short := some (.explicit 'x') }])
def dup2 : ArgsDef Val := get (deriveArgs Sample.cx none [.arg (lit "two") string { short := some (.explicit 'x') }])
def dupDecls : List (FieldDecl Val) := [.flatten (lit "a") dup1, .flatten (lit "b") dup2]
def dupCli : ArgsDef Val := get (deriveArgs Sample.cx none dupDecls)
def dupCli' : ArgsDef Val := get (deriveArgs Sample.cx none dupDecls.reverse)

end Sample

/-- All fields but `file` are declared elsewhere: `--verbose` is the eighth option instead of the first, … -/
example : (coreOf Sample.cli).fields.findIdx (fun f => decide (f.ident = lit "verbose")) = 0
    ∧ (coreOf Sample.reverseCli).fields.findIdx (fun f => decide (f.ident = lit "verbose")) = 7 := by decide

/-- … which makes no difference. -/
example (argv0 : Bytes) (toks : List Bytes) :
    (∃ out, tryParseFrom Sample.cli (argv0 :: toks) = .ok out) ↔ ∃ out, tryParseFrom Sample.reverseCli (argv0 :: toks) = .ok out :=
  C65_accepted Sample.cli_derived Sample.reverseCli_derived Sample.cli_ok Sample.reverseCli_ok Sample.reverse_reordered argv0 toks

example : ∃ evs κ, Reads Sample.cx (start (blit "app") Sample.cli) ([("-vj2" : String), "-q"].map blit) evs κ ∧
    ∃ evs' κ', After Sample.cx Sample.reverseCli (blit "app") ([("-vj2" : String), "-q"].map blit) evs' κ'
      ∧ evs'.map (fun e => ((fieldAt κ'.stack e.1).map (·.ident), e.1.level, e.1.struct, e.2))
        = [(some (lit "verbose"), 0, 0, none), (some (lit "jobs"), 0, 0, some (blit "2")), (some (lit "quiet"), 0, 1, none)] := by
  obtain ⟨evs, κ, h, h0⟩ := Sample.reads ["-vj2", "-q"] (fun evs κ => decide (evs.map (fun e =>
    ((fieldAt κ.stack e.1).map (·.ident), e.1.level, e.1.struct, e.2))
      = [(some (lit "verbose"), 0, 0, none), (some (lit "jobs"), 0, 0, some (blit "2")), (some (lit "quiet"), 0, 1, none)])) (by decide +kernel)
  obtain ⟨_, evs', κ', h1, _, h2⟩ := C65_reads Sample.cli_derived Sample.reverseCli_derived Sample.cli_ok Sample.reverseCli_ok
    Sample.reverse_reordered h
  exact ⟨evs, κ, h, evs', κ', h1, h2.trans (by simpa using h0)⟩

/-- Values: `--jobs` moves from index 2 to 5. -/
example : ∃ evs' κ' out', Parsed Sample.cx Sample.reverseCli (blit "app") ([("-j" : String), "7", "add", "-f", "p"].map blit) evs' κ' out'
    ∧ (outAt κ'.stack out' ⟨0, 0, 5⟩).map (fun x => Sample.value (.ok x.2) []) = some (some (.value (lit "7"))) := by
  obtain ⟨evs, κ, out, h, h0⟩ := Sample.parsed ["-j", "7", "add", "-f", "p"]
    (fun _ κ out => decide ((fieldAt κ.stack (⟨0, 0, 2⟩ : Addr)).map (·.ident) = some (lit "jobs"))
      && decide ((outAt κ.stack out (⟨0, 0, 2⟩ : Addr)).map (fun x => Sample.value (.ok x.2) []) = some (some (.value (lit "7"))))) (by decide +kernel)
  simp only [Bool.and_eq_true, decide_eq_true_eq, Option.map_eq_some_iff] at h0
  obtain ⟨⟨f, h1, h2⟩, h3⟩ := h0
  obtain ⟨evs', κ', out', hp, _, h5, _⟩ := C65_values Sample.reverseCli_derived Sample.cli_ok Sample.reverseCli_ok Sample.reverse_reordered h
  refine ⟨evs', κ', out', hp, ?_⟩
  have h6 : (argAt Sample.reverseCli (0, 5)).map (·.ident) = some (lit "jobs") := by decide
  rw [← root_field hp.reads, Option.map_eq_some_iff] at h6
  obtain ⟨f', h6, h7⟩ := h6
  rw [h5 2 f 5 f' h1 h6 (h7.trans h2.symm)]
  exact Option.map_eq_some_iff.2 h3

/-- The order of flattened structs does matter if they declare the same option: `-x` is the flag of the first one here and takes
a value there. -/
theorem C65_flatten_order_matters : Sample.dupDecls.Perm Sample.dupDecls.reverse
    ∧ (Sample.failure (tryParseFrom Sample.dupCli [blit "app", blit "-x", blit "v"])).isSome = true
    ∧ (Sample.failure (tryParseFrom Sample.dupCli' [blit "app", blit "-x", blit "v"])).isSome = false :=
  ⟨Sample.dupDecls.reverse_perm.symm, by decide +kernel, by decide +kernel⟩

end Palc
