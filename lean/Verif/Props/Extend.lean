import Verif.Lemmas.Evolve
import Verif.Props.Reorder
/-!
# Later versions of a command line interface (C66)

A struct can grow without breaking its users: further options and positional arguments that can be left out, further flattened
structs of such options, further subcommands.  Command lines written for the old version, if they do not contain the name of an added
subcommand, are read as before and give all arguments the same values; the added ones have their defaults.
-/

namespace Palc

open Spec

variable {V : Type} {cx : Cx V} {T : Bytes → Prop} {d d' : ArgsDef V} {argv0 : Bytes} {toks : List Bytes} {evs : List Event} {κ : Ctx V} {out : Out V}

/-- Command lines for the old version are read in the same way by the new one: the same commands are entered, and the same arguments
occur in the same order with the same values. -/
theorem C66_reads (hD' : DerivedArgs cx d') (h : Evolved cx T (fun _ => False) d d') (hT : ∀ t ∈ toks, T t)
    (hr : Reads cx (start argv0 d) toks evs κ) :
    ∃ evs' κ', After cx d' argv0 toks evs' κ' ∧ κ'.stack.map (·.1) = κ.stack.map (·.1)
      ∧ evs'.map (fun e => ((fieldAt κ'.stack e.1).map (·.ident), e.1.level, e.1.struct, e.2))
        = evs.map (fun e => ((fieldAt κ.stack e.1).map (·.ident), e.1.level, e.1.struct, e.2)) := by
  obtain ⟨φ, hx⟩ := evolved_extends h
  obtain ⟨μ, κ', _, hr', hst⟩ := reads_grown hx hT hr
  refine ⟨_, κ', after_reads hD' hr', hst.ids, ?_⟩
  rw [List.map_map]
  refine List.map_congr_left fun e he => ?_
  obtain ⟨f, hf⟩ := steps_fields (reads_steps hr) (start_mode argv0 d) e he
  obtain ⟨f', hf', ef⟩ := hst.to hf
  show ((fieldAt κ'.stack (moved μ e.1)).map (·.ident), e.1.level, (moved μ e.1).struct, e.2) = _
  rw [hf', hf, hst.struct hf]
  simp only [Option.map_some, alike_ident ef]

/-- Each argument of the old version gets the same value.  All other arguments get the value they have without occurrences. -/
theorem C66_values (hD' : DerivedArgs cx d') (h : Evolved cx T (fun _ => False) d d') (hT : ∀ t ∈ toks, T t)
    (hp : Parsed cx d argv0 toks evs κ out) :
    ∃ evs' κ' out', Parsed cx d' argv0 toks evs' κ' out'
      ∧ κ'.stack.map (·.1) = κ.stack.map (·.1)
      ∧ (∀ l s k f, fieldAt κ.stack ⟨l, s, k⟩ = some f → ∃ k' f', fieldAt κ'.stack ⟨l, s, k'⟩ = some f' ∧ f'.ident = f.ident)
      ∧ (∀ l s k f k' f', fieldAt κ.stack ⟨l, s, k⟩ = some f → fieldAt κ'.stack ⟨l, s, k'⟩ = some f' → f'.ident = f.ident →
        outAt κ'.stack out' ⟨l, s, k'⟩ = outAt κ.stack out ⟨l, s, k⟩)
      ∧ ∀ l s k' f', fieldAt κ'.stack ⟨l, s, k'⟩ = some f' → (∀ k f, fieldAt κ.stack ⟨l, s, k⟩ = some f → f.ident ≠ f'.ident) →
        ∃ v, fieldOut f' [] = some v ∧ outAt κ'.stack out' ⟨l, s, k'⟩ = some (f'.ident, .field v) := by
  obtain ⟨φ, hx⟩ := evolved_extends h
  obtain ⟨μ, κ', out', _, hp', hst, hold, hnew⟩ := values_grown hD' hx hT hp
  have old : ∀ l s k f, fieldAt κ.stack ⟨l, s, k⟩ = some f → ∃ k' f', fieldAt κ'.stack ⟨l, s, k'⟩ = some f' ∧ f'.ident = f.ident
      ∧ outAt κ'.stack out' ⟨l, s, k'⟩ = outAt κ.stack out ⟨l, s, k⟩ := by
    intro l s k f hf
    obtain ⟨f', hf', ef⟩ := hst.to hf
    have hs : (moved μ ⟨l, s, k⟩).struct = s := hst.struct hf
    have ha : ∃ k', moved μ ⟨l, s, k⟩ = ⟨l, s, k'⟩ := ⟨(moved μ ⟨l, s, k⟩).field, by rw [Addr.mk.injEq]; exact ⟨rfl, hs, rfl⟩⟩
    obtain ⟨k', ha⟩ := ha
    have hv := hold _ f hf
    rw [ha] at hf' hv
    exact ⟨k', f', hf', alike_ident ef, hv⟩
  refine ⟨_, κ', out', hp', hst.ids, ?_, ?_, ?_⟩
  · intro l s k f hf
    obtain ⟨k', f', h1, h2, _⟩ := old l s k f hf
    exact ⟨k', f', h1, h2⟩
  · intro l s k f k' f' hf hf' he
    obtain ⟨k2, f2, h1, h2, h3⟩ := old l s k f hf
    rw [fieldAt_unique (stack_wf hD'.wf (reads_steps hp'.reads)).1 hf' h1 (he.trans h2.symm)]
    exact h3
  · intro l s k' f' hf' hne
    refine hnew _ f' hf' ?_
    intro a f hf he
    obtain ⟨g, hg, eg⟩ := hst.to hf
    have hs := hst.struct hf
    rw [he] at hs hg
    rw [hf'] at hg
    cases hg
    have hl : a.level = l := congrArg Addr.level (a₁ := moved μ a) (a₂ := ⟨l, s, k'⟩) he
    obtain ⟨la, sa, ka⟩ := a
    simp only at hs hl
    subst hs hl
    exact hne ka f hf (alike_ident eg).symm

/-- In particular, command lines remain accepted. -/
theorem C66_accepted (hD : DerivedArgs cx d) (hD' : DerivedArgs cx d') (h : Evolved cx T (fun _ => False) d d') (hT : ∀ t ∈ toks, T t)
    (hok : tryParseFrom d (argv0 :: toks) = .ok out) : ∃ out', tryParseFrom d' (argv0 :: toks) = .ok out' := by
  obtain ⟨evs, κ, hp⟩ := Parsed.of_ok hD hok
  obtain ⟨_, _, out', hp', _⟩ := C66_values hD' h hT hp
  exact ⟨out', hp'.ok⟩

/-! ## Examples -/

theorem argAt_mem {p : Pos} {f : FieldInfo V} (h : argAt d p = some f) : ∃ c ∈ structs d, f ∈ c.fields := by
  obtain ⟨c, hc, hf⟩ := argAt_core (p := p) h
  exact ⟨c, List.mem_of_getElem? hc, List.mem_of_getElem? hf⟩

namespace Sample

/-- A new flattened struct. -/
def logDecls : List (FieldDecl Val) :=
  [ .arg (lit "log") (.option string) { long := some .inherit },
    .arg (lit "trace") .bool { short := some .inherit } ]

def log : ArgsDef Val := get (deriveArgs Sample.cx none logDecls)

/-- `add` with the new option `--depth`. -/
def add2Decls : List (FieldDecl Val) :=
  .arg (lit "depth") number { long := some .inherit, short := some .inherit, defaultValue := some (lit "1") } :: addDecls

def add2 : ArgsDef Val := get (deriveArgs Sample.cx none add2Decls)

/-- A new subcommand, and the changed `add`. -/
def cmd2Decls : List (VariantDecl Val) :=
  [.unit (lit "Init") none, .args (lit "Add") add2, .args (lit "Run") run, .args (lit "Drop") drop, .unit (lit "Status") none]

def cmd2 : Variants Val := deriveSub Sample.cx cmd2Decls

/-- The sample CLI with two new options, a new flattened struct, a new subcommand and a new positional argument. -/
def cli2Decls : List (FieldDecl Val) :=
  [ .arg (lit "dry_run") .bool { short := some (.explicit 'n'), long := some .inherit },
    .arg (lit "timeout") number { long := some .inherit, defaultValue := some (lit "30"), conflictsWith := [lit "jobs"] } ]
  ++ (cliDecls.take 9
  ++ ([ .flatten (lit "log") log, .subcommand (lit "cmd") true cmd2 ]
  ++ (cliDecls.drop 10
  ++ [ .arg (lit "target") (.option string) {} ])))

def cli2 : ArgsDef Val := get (deriveArgs Sample.cx none cli2Decls)

theorem log_derived : DerivedArgs Sample.cx log := derived_leaf (by decide) (by decide)
theorem add2_derived : DerivedArgs Sample.cx add2 := derived_leaf (by decide) (by decide)

theorem cmd2_derived : DerivedVariants Sample.cx cmd2 := by
  refine .mk cmd2Decls ?_ rfl
  intro i d hm
  simp only [cmd2Decls, List.mem_cons, VariantDecl.args.injEq, reduceCtorEq, List.not_mem_nil, or_false, false_or] at hm
  rcases hm with ⟨_, rfl⟩ | ⟨_, rfl⟩ | ⟨_, rfl⟩
  · exact add2_derived
  · exact run_derived
  · exact drop_derived

theorem cli2_ok : deriveArgs Sample.cx none cli2Decls = .ok cli2 := get_ok (by decide)

theorem cli2_derived : DerivedArgs Sample.cx cli2 := by
  refine .mk none cli2Decls ?_ ?_ cli2_ok
  · intro i d hm
    simp [cli2Decls, cliDecls] at hm
    rcases hm with ⟨_, rfl⟩ | ⟨_, rfl⟩
    · exact output_derived
    · exact log_derived
  · intro i o vs hm
    simp [cli2Decls, cliDecls] at hm
    obtain ⟨_, _, rfl⟩ := hm
    exact cmd2_derived

theorem valid {r : Except Error Val} (h : isOk r = true) : ∃ v, r = .ok v := by
  cases r with
  | ok v => exact ⟨v, rfl⟩
  | error e => cases h

/-- Names declared by flattened fields, by computation. -/
theorem not_flat {ds : List (FieldDecl Val)} {n : Name}
    (h : (flattenFields ds).all (fun x => (structs x.2).all (fun c => c.fields.all (fun f => !declares Sample.cx f n))) = true) :
    ¬ FlatDeclares Sample.cx ds n := by
  rintro ⟨i, e, c, f, hm, hc, hf, hn⟩
  have h1 := List.all_eq_true.1 (List.all_eq_true.1 (List.all_eq_true.1 h _ (mem_flattenFields.2 hm)) c hc) f hf
  rw [hn] at h1
  cases h1

theorem not_global {d : ArgsDef Val} {n : Name}
    (h : (structs d).all (fun c => c.fields.all (fun f => !(f.src.global && declares Sample.cx f n))) = true) :
    ¬ ∃ p f, argAt d p = some f ∧ f.src.global = true ∧ declares Sample.cx f n = true := by
  rintro ⟨p, f, hf, hg, hn⟩
  obtain ⟨c, hc, hfc⟩ := argAt_mem hf
  have h1 := List.all_eq_true.1 (List.all_eq_true.1 h c hc) f hfc
  rw [hg, hn] at h1
  cases h1

theorem cli2_fields : AddedFields Sample.cx (fun _ => False) cliDecls cli2Decls where
  kept x hx hs := by
    rw [← List.take_append_drop 9 cliDecls, List.mem_append] at hx
    unfold cli2Decls
    simp only [List.mem_append]
    rcases hx with hx | hx
    · exact .inr (.inl hx)
    · rcases List.mem_cons.1 hx with rfl | hx
      · cases hs
      · exact .inr (.inr (.inr (.inl hx)))
  positionals := ⟨[.arg (lit "target") (.option string) {}], rfl⟩
  last x hx hl := by
    have : cli2Decls.filter isLastPos = [] := rfl
    rw [List.filter_eq_nil_iff] at this
    exact absurd hl (this x hx)
  args i ty m hm := by
    unfold cli2Decls at hm
    simp only [List.mem_append] at hm
    rcases hm with hm | hm | hm | hm | hm
    · right
      simp only [List.mem_cons, List.not_mem_nil, or_false] at hm
      rcases hm with hm | hm <;> cases hm
      · refine ⟨.absent rfl rfl rfl (by intro v h; cases h), fun n hn => ⟨fun h => h, ?_⟩⟩
        have hn : n = .long (lit "dry-run") ∨ n = .short 'n' := by
          have e : requestedNames Sample.cx (.arg (lit "dry_run") .bool { short := some (.explicit 'n'), long := some .inherit })
            = [.long (lit "dry-run"), .short 'n'] := by decide
          rw [e] at hn
          simpa using hn
        rcases hn with rfl | rfl <;> exact not_flat (by decide)
      · refine ⟨.text (p := .fromStr numberOf) rfl (by intro h; cases h) rfl (.str rfl rfl rfl) (valid (by decide +kernel)).choose_spec, fun n hn => ⟨fun h => h, ?_⟩⟩
        have hn : n = .long (lit "timeout") := by
          have e : requestedNames Sample.cx (.arg (lit "timeout") number
            { long := some .inherit, defaultValue := some (lit "30"), conflictsWith := [lit "jobs"] }) = [.long (lit "timeout")] := by decide
          rw [e] at hn
          simpa using hn
        subst hn
        exact not_flat (by decide)
    · exact .inl (List.mem_of_mem_take hm)
    · simp at hm
    · exact .inl (List.mem_of_mem_drop hm)
    · right
      rw [List.mem_singleton] at hm
      cases hm
      refine ⟨.absent rfl rfl rfl (by intro v h; cases h), fun n hn => ?_⟩
      cases hn
  flats := by
    refine ⟨[(lit "log", log)], rfl, ?_⟩
    have key : (structs log).all (fun c => c.fields.all (fun f => !isRequired f && (fieldOut f []).isSome
        && (fieldNames Sample.cx f).all (fun n =>
          (flattenFields cliDecls).all (fun x => (structs x.2).all (fun c => c.fields.all (fun f => !declares Sample.cx f n)))
          && cliDecls.all (fun x => !decide (n ∈ requestedNames Sample.cx x))))) = true := by decide
    intro x hx c hc f hf
    rw [List.mem_singleton] at hx
    subst hx
    have h1 := List.all_eq_true.1 (List.all_eq_true.1 key c hc) f hf
    simp only [Bool.and_eq_true, Bool.not_eq_true', Option.isSome_iff_ne_none] at h1
    refine ⟨⟨h1.1.1, h1.1.2⟩, fun n hn => ?_⟩
    have h2 := List.all_eq_true.1 h1.2 n (mem_fieldNames.2 hn)
    rw [Bool.and_eq_true] at h2
    refine ⟨fun h => h, not_flat h2.1, fun x hx hr => ?_⟩
    have := List.all_eq_true.1 h2.2 x hx
    simp [hr] at this

theorem add2_fields {G : Name → Prop} (h1 : ¬ G (.long (lit "depth"))) (h2 : ¬ G (.short 'd')) :
    AddedFields Sample.cx G addDecls add2Decls where
  kept x hx _ := List.mem_cons_of_mem _ hx
  positionals := ⟨[], rfl⟩
  last x hx hl := by
    rcases List.mem_cons.1 hx with rfl | hx
    · cases hl
    · exact hx
  args i ty m hm := by
    rcases List.mem_cons.1 hm with hm | hm
    · right
      cases hm
      refine ⟨.text (p := .fromStr numberOf) rfl (by intro h; cases h) rfl (.str rfl rfl rfl) (valid (by decide +kernel)).choose_spec, fun n hn => ?_⟩
      have hn : n = .long (lit "depth") ∨ n = .short 'd' := by
        have e : requestedNames Sample.cx (.arg (lit "depth") number
          { long := some .inherit, short := some .inherit, defaultValue := some (lit "1") }) = [.long (lit "depth"), .short 'd'] := by decide
        rw [e] at hn
        simpa using hn
      rcases hn with rfl | rfl
      · exact ⟨h1, not_flat (by decide)⟩
      · exact ⟨h2, not_flat (by decide)⟩
    · exact .inl hm
  flats := ⟨[], rfl, fun x hx => by cases hx⟩

/-- All arguments but `init`. -/
def notInit (t : Bytes) : Prop := t ≠ blit "init"

theorem notInit_all {toks : List Bytes} (h : blit "init" ∉ toks) : ∀ t ∈ toks, notInit t := fun _ ht he => h (he ▸ ht)

theorem cli_variants : subVariants cli = [.args (lit "Add") (lit "add") add, .args (lit "Run") (lit "run") run, .args (lit "Drop") (lit "drop") drop,
    .unit (lit "Status") (lit "status") none] := rfl

theorem cli2_variants : subVariants cli2 = [.unit (lit "Init") (lit "init") none, .args (lit "Add") (lit "add") add2, .args (lit "Run") (lit "run") run,
    .args (lit "Drop") (lit "drop") drop, .unit (lit "Status") (lit "status") none] := rfl

/-- The new version of a subcommand. -/
def later : Variant Val → Variant Val
  | .args i n d => if n = lit "add" then .args i n add2 else .args i n d
  | v => v

theorem later_add : later (.args (lit "Add") (lit "add") add) = .args (lit "Add") (lit "add") add2 := by
  unfold later; exact if_pos rfl
theorem later_run : later (.args (lit "Run") (lit "run") run) = .args (lit "Run") (lit "run") run := by
  unfold later; exact if_neg (by decide)
theorem later_drop : later (.args (lit "Drop") (lit "drop") drop) = .args (lit "Drop") (lit "drop") drop := by
  unfold later; exact if_neg (by decide)

theorem add2_evolved {G : Name → Prop} (h1 : ¬ G (.long (lit "depth"))) (h2 : ¬ G (.short 'd')) : Evolved Sample.cx notInit G add add2 := by
  have h : subVariants add = [] := rfl
  have h' : subVariants add2 = [] := rfl
  refine .struct (get_ok (by decide)) (get_ok (by decide)) (add2_fields h1 h2) (fun h => by cases h) (by rw [h']; exact .nil) id ?_ ?_ ?_
  · intro v hv; rw [h] at hv; cases hv
  · intro v hv; rw [h'] at hv; cases hv
  · intro v hv; rw [h] at hv; cases hv

theorem init_new : enc (lit "init") = blit "init" := by decide

theorem cli_depth : ¬ ∃ p f, argAt cli p = some f ∧ f.src.global = true ∧ declares Sample.cx f (.long (lit "depth")) = true := not_global (by decide)
theorem cli_d : ¬ ∃ p f, argAt cli p = some f ∧ f.src.global = true ∧ declares Sample.cx f (.short 'd') = true := not_global (by decide)
theorem cli2_optional : ¬ subRequired cli2 = true := by decide
theorem cli2_unique : ((subVariants cli2).map Variant.name).Nodup := by decide +kernel

section

attribute [local irreducible] lit blit add add2 run drop cli cli2 later

theorem cli2_evolved : Evolved Sample.cx notInit (fun _ => False) cli cli2 := by
  refine .struct cli_ok cli2_ok cli2_fields (fun h => absurd h cli2_optional) cli2_unique later ?_ ?_ ?_
  · intro v hv
    rw [cli_variants] at hv
    rw [cli2_variants]
    simp only [List.mem_cons, List.not_mem_nil, or_false] at hv
    rcases hv with rfl | rfl | rfl | rfl
    · rw [later_add]; exact ⟨by simp, rfl, rfl⟩
    · rw [later_run]; exact ⟨by simp, rfl, rfl⟩
    · rw [later_drop]; exact ⟨by simp, rfl, rfl⟩
    · rw [show later (.unit (lit "Status") (lit "status") none) = .unit (lit "Status") (lit "status") none by unfold later; rfl]
      exact ⟨by simp, rfl, rfl⟩
  · intro v' hv' hT
    rw [cli2_variants] at hv'
    rw [cli_variants]
    simp only [List.mem_cons, List.not_mem_nil, or_false] at hv'
    rcases hv' with rfl | rfl | rfl | rfl | rfl
    · exact absurd init_new hT
    all_goals simp [Variant.name]
  · intro v hv
    rw [cli_variants] at hv
    simp only [List.mem_cons, List.not_mem_nil, or_false] at hv
    rcases hv with rfl | rfl | rfl | rfl
    · rw [later_add]
      refine add2_evolved ?_ ?_
      · rintro (h | h)
        · exact h
        · exact cli_depth h
      · rintro (h | h)
        · exact h
        · exact cli_d h
    · rw [later_run]; exact .same
    · rw [later_drop]; exact .same
    · rw [show later (.unit (lit "Status") (lit "status") none) = .unit (lit "Status") (lit "status") none by unfold later; rfl]
      exact .same

end

/-- A new option named like an option of a flattened struct, but with a value. -/
def shadowDecls : List (FieldDecl Val) := .arg (lit "quick") (.option string) { short := some .inherit } :: cliDecls

def shadowCli : ArgsDef Val := get (deriveArgs Sample.cx none shadowDecls)

/-- A new option of `add` named like a global option. -/
def add3 : ArgsDef Val := get (deriveArgs Sample.cx none (.arg (lit "version") (.option string) { short := some .inherit } :: addDecls))

def globalCli : ArgsDef Val :=
  get (deriveArgs Sample.cx none (cliDecls.take 9 ++ .subcommand (lit "cmd") true (deriveSub Sample.cx [.args (lit "Add") add3]) :: cliDecls.drop 10))

end Sample

/-- `app -v -j7 add -f p q` and all other command lines without `init` remain accepted … -/
example (argv0 : Bytes) (toks : List Bytes) (h : blit "init" ∉ toks) (out : Out Sample.Val) (hok : tryParseFrom Sample.cli (argv0 :: toks) = .ok out) :
    ∃ out', tryParseFrom Sample.cli2 (argv0 :: toks) = .ok out' :=
  C66_accepted Sample.cli_derived Sample.cli2_derived Sample.cli2_evolved (Sample.notInit_all h) hok

/-- … with the same values, although all arguments have moved.  The new ones have their defaults. -/
example : ∃ evs' κ' out', Parsed Sample.cx Sample.cli2 (blit "app") ([("-j" : String), "7", "add", "-f", "p"].map blit) evs' κ' out'
    ∧ (outAt κ'.stack out' ⟨0, 0, 4⟩).map (fun x => Sample.value (.ok x.2) []) = some (some (.value (lit "7")))
    ∧ (outAt κ'.stack out' ⟨0, 0, 1⟩).map (fun x => Sample.value (.ok x.2) []) = some (some (.value (lit "30"))) := by
  obtain ⟨evs, κ, out, h, h0⟩ := Sample.parsed ["-j", "7", "add", "-f", "p"]
    (fun _ κ out => decide ((fieldAt κ.stack (⟨0, 0, 2⟩ : Addr)).map (·.ident) = some (lit "jobs"))
      && decide ((outAt κ.stack out (⟨0, 0, 2⟩ : Addr)).map (fun x => Sample.value (.ok x.2) []) = some (some (.value (lit "7"))))) (by decide +kernel)
  simp only [Bool.and_eq_true, decide_eq_true_eq, Option.map_eq_some_iff] at h0
  obtain ⟨⟨f, h1, h2⟩, h3⟩ := h0
  obtain ⟨evs', κ', out', hp, _, _, h5, h6⟩ := C66_values Sample.cli2_derived Sample.cli2_evolved (Sample.notInit_all (by decide)) h
  refine ⟨evs', κ', out', hp, ?_, ?_⟩
  · have h7 : (argAt Sample.cli2 (0, 4)).map (·.ident) = some (lit "jobs") := by decide
    rw [← root_field hp.reads, Option.map_eq_some_iff] at h7
    obtain ⟨f', h7, h8⟩ := h7
    rw [h5 0 0 2 f 4 f' h1 h7 (h8.trans h2.symm)]
    exact Option.map_eq_some_iff.2 h3
  · have h7 : (argAt Sample.cli2 (0, 1)).map (fun f => (f.ident, fieldOut f [])) = some (lit "timeout", some (.value (lit "30"))) := by decide +kernel
    rw [← root_field hp.reads, Option.map_eq_some_iff] at h7
    obtain ⟨f', h7, h8⟩ := h7
    rw [Prod.mk.injEq] at h8
    obtain ⟨v, hv, ho⟩ := h6 0 0 1 f' h7 (by
      intro k f hf
      rw [root_field h.reads] at hf
      obtain ⟨c, hc, hfc⟩ := argAt_mem hf
      have hall : (structs Sample.cli).all (fun c => c.fields.all (fun f => !decide (f.ident = lit "timeout"))) = true := by decide
      have := List.all_eq_true.1 (List.all_eq_true.1 hall c hc) f hfc
      rw [h8.1]
      simpa using this)
    rw [h8.2] at hv
    cases hv
    rw [ho]
    rfl

example : ∃ evs κ, Reads Sample.cx (start (blit "app") Sample.cli) ([("-vj2" : String), "-q", "add"].map blit) evs κ ∧
    ∃ evs' κ', After Sample.cx Sample.cli2 (blit "app") ([("-vj2" : String), "-q", "add"].map blit) evs' κ'
      ∧ evs'.map (fun e => ((fieldAt κ'.stack e.1).map (·.ident), e.1.level, e.1.struct, e.2))
        = [(some (lit "verbose"), 0, 0, none), (some (lit "jobs"), 0, 0, some (blit "2")), (some (lit "quiet"), 0, 1, none)] := by
  obtain ⟨evs, κ, h, h0⟩ := Sample.reads ["-vj2", "-q", "add"] (fun evs κ => decide (evs.map (fun e =>
    ((fieldAt κ.stack e.1).map (·.ident), e.1.level, e.1.struct, e.2))
      = [(some (lit "verbose"), 0, 0, none), (some (lit "jobs"), 0, 0, some (blit "2")), (some (lit "quiet"), 0, 1, none)])) (by decide +kernel)
  obtain ⟨evs', κ', h1, _, h2⟩ := C66_reads Sample.cli2_derived Sample.cli2_evolved
    (Sample.notInit_all (by decide)) h
  exact ⟨evs, κ, h, evs', κ', h1, h2.trans (by simpa using h0)⟩

/-- The conditions are needed.  Without them, a new option takes precedence over one of a flattened struct (`-q` was a flag there), … -/
theorem C66_shadowing_breaks : (Sample.failure (tryParseFrom Sample.cli [blit "app", blit "-q"])).isSome = false
    ∧ (Sample.failure (tryParseFrom Sample.shadowCli [blit "app", blit "-q"])).isSome = true := by decide +kernel

/-- … a new option of a subcommand over a global one, … -/
theorem C66_global_breaks : (Sample.failure (tryParseFrom Sample.cli [blit "app", blit "add", blit "p", blit "-v"])).isSome = false
    ∧ (Sample.failure (tryParseFrom Sample.globalCli [blit "app", blit "add", blit "p", blit "-v"])).isSome = true := by decide +kernel

/-- … and the name of a new subcommand is no longer a value of `file`. -/
theorem C66_subcommand_breaks : Sample.value (tryParseFrom Sample.cli [blit "app", blit "init"]) ["file"] = some (.option (some (lit "init")))
    ∧ Sample.value (tryParseFrom Sample.cli2 [blit "app", blit "init"]) ["file"] = some (.option none) := by decide +kernel

end Palc
