import Verif.SpecEntry
import Verif.Props.Usage
import Verif.Props.Help
import Verif.Props.Write
import Verif.Props.Extend
import Verif.Props.Options
import Verif.Lemmas.After
/-!
# Help entries can be followed (C77)
-/

namespace Palc

open Spec

variable {V : Type} {cx : Cx V} {d : ArgsDef V} {argv0 : Bytes} {evs : List Event}

/-- The names shown are names of the option. -/
theorem shown_name {f : FieldInfo V} {s : Str} (hs : s ∈ shortPart f ++ longPart cx f) :
    ∃ n, nameText n = s ∧ declares cx f n = true ∧ optToken n none = enc s ∧ (∀ v, optToken n (some v) = enc s ++ enc (lit "=") ++ v)
      ∧ (s ∈ longPart cx f → ∃ l, n = .long l) := by
  have heq : enc (lit "=") = [eqSign] := by decide
  by_cases h : s ∈ longPart cx f
  · have : ∃ l, s = lit "--" ++ l ∧ declares cx f (.long l) = true := by
      unfold longPart at h
      rcases hl : f.src.long with _ | (_ | l) <;> rw [hl] at h
      · simp at h
      · exact ⟨_, by simpa using h, by simp [declares, isOption, longNames, hl]⟩
      · exact ⟨_, by simpa using h, by simp [declares, isOption, longNames, hl]⟩
    obtain ⟨l, rfl, hl⟩ := this
    exact ⟨.long l, rfl, hl, rfl, fun v => by simp [optToken, heq], fun _ => ⟨l, rfl⟩⟩
  · have : ∃ c, s = ['-', c] ∧ declares cx f (.short c) = true := by
      have hs := (List.mem_append.1 hs).resolve_right h
      unfold shortPart at hs
      rcases hl : f.src.short with _ | (_ | c) <;> rw [hl] at hs
      · simp at hs
      · obtain ⟨c, hc, rfl⟩ := List.mem_map.1 hs
        exact ⟨c, rfl, by simp [declares, isOption, shortNames, hl, hc]⟩
      · exact ⟨c, by simpa using hs, by simp [declares, isOption, shortNames, hl]⟩
    obtain ⟨c, rfl, hc⟩ := this
    exact ⟨.short c, rfl, hc, rfl, fun v => by rw [heq]; simp [optToken, lit], fun h' => absurd h' h⟩

/-- What is shown for the value. -/
theorem valuePart_cases (cx : Cx V) (f : FieldInfo V) :
    (f.kind = .bool ∧ valuePart cx f = [])
    ∨ (f.kind = .optionOption ∧ valuePart cx f = lit "[=<" ++ valueName cx f ++ lit ">]")
    ∨ (takesValue f = true ∧ f.src.requireEquals = true ∧ valuePart cx f = lit "=<" ++ valueName cx f ++ lit ">")
    ∨ (takesValue f = true ∧ f.src.requireEquals = false ∧ valuePart cx f = lit " <" ++ valueName cx f ++ lit ">") := by
  unfold takesValue valuePart
  cases f.kind <;> cases f.src.requireEquals <;> simp

/-- A name means the argument of the command that declares it, unless an earlier struct of the command does so too. -/
theorem own_resolves {i : CmdId} {e : ArgsDef V} {st : List (Entry V)} (hwf : WFArgs cx e) {a : Addr} {f : FieldInfo V}
    (hf : (a, f) ∈ fieldsAt st.length e) {n : Name} (hn : declares cx f n = true)
    (hu : ∀ y ∈ fieldsAt st.length e, y.1.struct < a.struct → declares cx y.2 n = false) : Resolves cx ((i, e) :: st) n a f := by
  have hf' := (fieldsAt_cons_iff (i := i)).1 hf
  refine resolves_iff.2 ⟨hf'.2, .inl (by rw [hf'.1]; rfl), hn, ?_⟩
  intro b g hb _ hg
  have h1 := hf'.1
  by_cases hl : b.level = st.length
  · have hb' : (b, g) ∈ fieldsAt st.length e := (fieldsAt_cons_iff (i := i)).2 ⟨hl, hb⟩
    rcases Nat.lt_trichotomy b.struct a.struct with h | h | h
    · rw [hu _ hb' h] at hg; cases hg
    · left
      obtain ⟨_, c, hc, hcf⟩ := fieldsAt_mem_iff.1 hf
      obtain ⟨_, c', hc', hcg⟩ := fieldsAt_mem_iff.1 hb'
      rw [h, hc] at hc'
      cases hc'
      have := own_names_unique (WFArgs.structs e hwf c (List.mem_of_getElem? hc)) hcf hcg hn hg
      obtain ⟨al, as, af⟩ := a
      obtain ⟨bl, bs, bf⟩ := b
      dsimp only at h h1 hl this
      rw [h1, hl, h, this]
    · right; unfold Addr.precedes; omega
  · right
    have h2 := fieldAt_lt hb
    rw [List.length_cons] at h2
    unfold Addr.precedes
    omega

/-- C77: the entry of an option in the help of a command: its names, then how its value is given. -/
theorem C77_shown (hd : DerivedArgs cx d) {e : ArgsDef V} (he : Command d e) (path : Str) {level : Nat} {a : Addr} {f : FieldInfo V}
    (hf : (a, f) ∈ fieldsAt level e) (ho : isOption f = true) (hh : f.src.hide = false) :
    ∃ x y z, renderHelp e.info path = x ++ lit "Options:\n" ++ y ++ lit "  "
      ++ List.intercalate (lit ", ") (shortPart f ++ longPart cx f) ++ valuePart cx f ++ lit "\n" ++ z := by
  obtain ⟨_, c, hc, hcf⟩ := fieldsAt_mem_iff.1 hf
  obtain ⟨x, y, z, h⟩ := C46_entry hd he path (List.mem_of_getElem? hc) (List.mem_of_getElem? hcf) hh
  rw [h, if_pos ho]
  unfold entryText label
  rw [if_pos ho]
  split
  · rw [show lit "      " = lit "    " ++ lit "  " from by decide]
    exact ⟨x, y ++ lit "    ", _, by simp only [List.append_assoc]; rfl⟩
  · exact ⟨x, y, _, by simp only [List.append_assoc]; rfl⟩

/-- C77: what an entry of the help of the current command says can be typed.  It is read as an occurrence of this option with this value,
and nothing else.  (Values typed as arguments of their own must not look like options.)  Not so for the value of an `Option<Option<T>>`
option after its short name (finding 1), nor if an earlier struct of the command has an option of this name (finding 18). -/
theorem C77_followed_partial (hd : DerivedArgs cx d) {pre toks : List Bytes} {i : CmdId} {e : ArgsDef V} {st : List (Entry V)} {k : Nat}
    (hpre : Reads cx (start argv0 d) pre evs ⟨(i, e) :: st, k, .opts⟩) {a : Addr} {f : FieldInfo V} (hf : (a, f) ∈ fieldsAt st.length e)
    {s : Str} (hs : s ∈ shortPart f ++ longPart cx f) {o : Option Bytes} (ht : Typed s (valuePart cx f) toks o)
    (hv : ∀ v, toks = [enc s, v] → Standalone f v)
    (hk : ∀ v, o = some v → f.kind = .optionOption → s ∈ longPart cx f)
    (hu : ∀ n, nameText n = s → ∀ y ∈ fieldsAt st.length e, y.1.struct < a.struct → declares cx y.2 n = false) :
    After cx d argv0 (pre ++ toks) (evs ++ [(a, o)]) ⟨(i, e) :: st, k, .opts⟩ := by
  have hwf := (stack_wf hd.wf (reads_steps hpre)).1
  obtain ⟨n, hn, hdec, hbare, heq, hlong⟩ := shown_name hs
  have hr := own_resolves (i := i) (hwf (i, e) (by simp)) hf hdec (hu n hn)
  refine after_reads hd (reads_append hpre ?_)
  have one : ∀ {ts : List Bytes}, Step cx ⟨(i, e) :: st, k, .opts⟩ (ts ++ []) [(a, o)] ⟨(i, e) :: st, k, .opts⟩ [] →
      Reads cx ⟨(i, e) :: st, k, .opts⟩ ts [(a, o)] ⟨(i, e) :: st, k, .opts⟩ := by
    intro ts h
    rw [List.append_nil] at h
    simpa using steps_reads (.step h .refl) .done
  have takes : ∀ v, o = some v → f.kind ≠ .bool → Takes f n (some v) := by
    intro v hov hb
    cases n with
    | long l => exact hb
    | short c =>
      refine ⟨hb, fun hoo => ?_⟩
      obtain ⟨l, hl⟩ := hlong (hk v hov hoo)
      cases hl
  rcases valuePart_cases cx f with ⟨hb, hvp⟩ | ⟨hb, hvp⟩ | ⟨hb, hq, hvp⟩ | ⟨hb, hq, hvp⟩
  all_goals
    generalize valuePart cx f = t at ht hvp
    have h0 := congrArg List.head? hvp
  · cases ht with
    | flag =>
      rw [← hbare]
      exact one (option_step hwf (w := (n, none)) ⟨f, hr, by cases n <;> exact .inl hb⟩ k [])
    | separate => cases h0
    | equals => cases h0
    | without => cases h0
    | optional => cases h0
  · cases ht with
    | flag => cases h0
    | separate => exact absurd (show some ' ' = some '[' from h0) (by decide)
    | equals => exact absurd (show some '=' = some '[' from h0) (by decide)
    | without =>
      rw [← hbare]
      exact one (option_step hwf (w := (n, none)) ⟨f, hr, by cases n <;> exact .inr hb⟩ k [])
    | optional =>
      rw [← heq]
      exact one (option_step hwf (w := (n, some _)) ⟨f, hr, takes _ rfl (by rw [hb]; decide)⟩ k [])
  · cases ht with
    | flag => cases h0
    | separate => exact absurd (show some ' ' = some '=' from h0) (by decide)
    | equals =>
      rw [← heq]
      exact one (option_step hwf (w := (n, some _)) ⟨f, hr, takes _ rfl (by intro h; simp [takesValue, h] at hb)⟩ k [])
    | without => exact absurd (show some '[' = some '=' from h0) (by decide)
    | optional => exact absurd (show some '[' = some '=' from h0) (by decide)
  · cases ht with
    | flag => cases h0
    | separate =>
      have := hv _ rfl
      rw [← hbare]
      exact one (sep_step hwf hr hb hq this k [])
    | equals => exact absurd (show some '=' = some ' ' from h0) (by decide)
    | without => exact absurd (show some '[' = some ' ' from h0) (by decide)
    | optional => exact absurd (show some '[' = some ' ' from h0) (by decide)

/-- C77: conversely, what is understood in a command is shown in its help, except for hidden options, aliases and the global options of
the commands around it. -/
theorem C77_documented (hd : DerivedArgs cx d) {pre : List Bytes} {i : CmdId} {e : ArgsDef V} {st : List (Entry V)} {k : Nat}
    (hpre : Reads cx (start argv0 d) pre evs ⟨(i, e) :: st, k, .opts⟩) {n : Name} {a : Addr} {f : FieldInfo V}
    (hr : Resolves cx ((i, e) :: st) n a f) (path : Str) :
    f.src.hide = true
    ∨ (∃ s, n = .long s ∧ s ∈ f.src.alias) ∨ (∃ c, n = .short c ∧ c ∈ f.src.shortAlias)
    ∨ (a.level < st.length ∧ f.src.global = true)
    ∨ nameText n ∈ shortPart f ++ longPart cx f ∧ (a, f) ∈ fieldsAt st.length e
      ∧ ∃ x y z, renderHelp e.info path = x ++ lit "Options:\n" ++ y ++ lit "  "
        ++ List.intercalate (lit ", ") (shortPart f ++ longPart cx f) ++ valuePart cx f ++ lit "\n" ++ z := by
  have ho := resolves_option hr
  obtain ⟨h1, h2, h3, _⟩ := resolves_iff.1 hr
  by_cases hh : f.src.hide = true
  · exact .inl hh
  by_cases ha : ∃ s, n = .long s ∧ s ∈ f.src.alias
  · exact .inr (.inl ha)
  by_cases hb : ∃ c, n = .short c ∧ c ∈ f.src.shortAlias
  · exact .inr (.inr (.inl hb))
  by_cases hl : a.level = st.length
  · have hf : (a, f) ∈ fieldsAt st.length e := (fieldsAt_cons_iff (i := i)).2 ⟨hl, h1⟩
    refine .inr (.inr (.inr (.inr ⟨?_, hf, C77_shown hd (command_of_reads hpre (i, e) (by simp)) path hf ho (by simpa using hh)⟩)))
    cases n with
    | long s =>
      refine List.mem_append_right _ ?_
      simp only [declares, ho, Bool.true_and, List.contains_iff_mem, longNames, List.mem_append] at h3
      have h3 := h3.resolve_left (fun h => ha ⟨s, rfl, h⟩)
      unfold longPart
      rcases hs : f.src.long with _ | (_ | l) <;> rw [hs] at h3 <;> simp at h3 <;> simp [nameText, h3]
    | short c =>
      refine List.mem_append_left _ ?_
      simp only [declares, ho, Bool.true_and, List.contains_iff_mem, shortNames, List.mem_append] at h3
      have h3 := h3.resolve_left (fun h => hb ⟨c, rfl, h⟩)
      unfold shortPart
      rcases hs : f.src.short with _ | (_ | c) <;> rw [hs] at h3
      · simp at h3
      · exact List.mem_map.2 ⟨_, h3, rfl⟩
      · simp at h3; simp [nameText, h3]
  · have := fieldAt_lt h1
    rw [List.length_cons] at this
    refine .inr (.inr (.inr (.inl ⟨by omega, h2.resolve_left ?_⟩)))
    rw [List.length_cons]
    omega

/-- C77: a subcommand in the list of commands can be entered by typing its name. -/
theorem C77_command (hd : DerivedArgs cx d) {pre : List Bytes} {i : CmdId} {e : ArgsDef V} {st : List (Entry V)} {k : Nat}
    (hpre : Reads cx (start argv0 d) pre evs ⟨(i, e) :: st, k, .opts⟩) {v : Variant V} (hv : Selected e v) (hp : Plain (enc v.name))
    (hn : ∀ w ∈ subVariants e, Char.ofNat 0 ∉ w.name) (path : Str) :
    (∃ x y z, renderHelp e.info path = x ++ lit "Commands:\n" ++ y ++ lit "    " ++ v.name ++ lit " " ++ z)
    ∧ After cx d argv0 (pre ++ [enc v.name]) evs ⟨(⟨variantIdent v, v.name⟩, variantDef v) :: (i, e) :: st, 0, .opts⟩ := by
  constructor
  · obtain ⟨commands, h, hc⟩ := C46_help hd (command_of_reads hpre (i, e) (by simp)) path
    rw [h, hc hn]
    have hm : v ∈ subVariants e := hv.1
    have hlist : ∃ y z, commandList e = lit "Commands:\n" ++ y ++ lit "    " ++ v.name ++ lit " " ++ z := by
      unfold commandList
      obtain ⟨y, z, hyz⟩ := flatMap_at hm (commandLine (nameWidth (subVariants e)))
      have hr : ∃ r, List.replicate (min 24 (nameWidth (subVariants e) - (enc v.name).length + 2)) ' ' = lit " " ++ r := by
        obtain ⟨m, hm⟩ : ∃ m, min 24 (nameWidth (subVariants e) - (enc v.name).length + 2) = m + 1 := ⟨min 23 (nameWidth (subVariants e) - (enc v.name).length + 1), by omega⟩
        rw [hm, List.replicate_succ]
        exact ⟨_, rfl⟩
      obtain ⟨r, hr⟩ := hr
      cases hs : subOf e with
      | none => unfold subVariants at hm; rw [hs] at hm; simp at hm
      | some _ _ _ =>
        dsimp only
        rw [hyz, commandLine, hr]
        exact ⟨y, _, by simp only [List.append_assoc]; rfl⟩
    obtain ⟨y, z, hyz⟩ := hlist
    unfold helpPage
    rw [hyz]
    refine ⟨(if aboutText (coreOf e).cmdMeta = [] then [] else aboutText (coreOf e).cmdMeta ++ lit "\n\n")
      ++ lit "Usage:" ++ path ++ usageLine cx e ++ lit "\n\n", y, z ++ entryList cx (lit "Arguments:\n") (shownPositionals e)
      ++ entryList cx (lit "Options:\n") (shownOptions e) ++ afterText (coreOf e).cmdMeta, ?_⟩
    simp only [List.append_assoc]
  · refine after_reads hd ?_
    have := reads_append hpre (.sub (k := k) hv hp .done)
    simpa using this

/-! ### Examples -/

/-- The first options of the help of `app`: `-v, --verbose`, `-c, --config <CONFIG>`, … -/
example : ((shownOptions Sample.cli).map (label Sample.cx)).take 6
    = [lit "-v, --verbose", lit "-c, --config <CONFIG>", lit "-j, --jobs <JOBS>", lit "-D <DEFINE>", lit "--color[=<COLOR>]", lit "--level=<LEVEL>"] := by
  decide +kernel

/-- An argument of `app` with given properties. -/
theorem Sample.arg_at (p : FieldInfo Sample.Val → Bool) {a : Addr}
    (h : (fieldsAt 0 Sample.cli).any (fun x => decide (x.1 = a) && p x.2) = true) : ∃ f, (a, f) ∈ fieldsAt 0 Sample.cli ∧ p f = true := by
  rw [List.any_eq_true] at h
  obtain ⟨⟨b, f⟩, hm, hp⟩ := h
  rw [Bool.and_eq_true, decide_eq_true_eq] at hp
  obtain ⟨rfl, hp⟩ := hp
  exact ⟨f, hm, hp⟩

/-- `app -v --config a.toml`: `<CONFIG>` is `a.toml`. -/
example : After Sample.cx Sample.cli (blit "app") [blit "-v", blit "--config", blit "a.toml"]
    [(⟨0, 0, 0⟩, none), (⟨0, 0, 1⟩, some (blit "a.toml"))] ⟨[Sample.root], 0, .opts⟩ := by
  obtain ⟨f, hf, hp⟩ := Sample.arg_at (a := ⟨0, 0, 1⟩) (fun f => decide (lit "--config" ∈ shortPart f ++ longPart Sample.cx f)
    && decide (valuePart Sample.cx f = lit " <" ++ lit "CONFIG" ++ lit ">") && decide (f.kind = .option)) (by decide +kernel)
  simp only [Bool.and_eq_true, decide_eq_true_eq] at hp
  exact C77_followed_partial Sample.cli_derived Sample.reads_v hf hp.1.1 (toks := [blit "--config", blit "a.toml"]) (by rw [hp.1.2]; exact .separate)
    (fun v h => by cases h; exact .inl (.inl (by decide))) (fun v _ h => by rw [hp.2] at h; cases h)
    (fun n _ y _ h => absurd h (Nat.not_lt_zero _))

/-- `app -v -q`: the flattened struct has the only option called `-q`. -/
example : After Sample.cx Sample.cli (blit "app") [blit "-v", blit "-q"] [(⟨0, 0, 0⟩, none), (⟨0, 1, 0⟩, none)] ⟨[Sample.root], 0, .opts⟩ := by
  obtain ⟨f, hf, hp⟩ := Sample.arg_at (a := ⟨0, 1, 0⟩) (fun f => decide (lit "-q" ∈ shortPart f ++ longPart Sample.cx f)
    && decide (valuePart Sample.cx f = [])) (by decide +kernel)
  simp only [Bool.and_eq_true, decide_eq_true_eq] at hp
  refine C77_followed_partial Sample.cli_derived Sample.reads_v hf hp.1 (toks := [blit "-q"]) (by rw [hp.2]; exact .flag)
    (fun v h => by cases h) (fun v h => by cases h) (fun n hn y hy hlt => ?_)
  have hn : n = .short 'q' := by
    cases n with
    | long s => exact absurd (congrArg (fun s => s[1]?) hn) (by intro h; exact absurd (show some '-' = some 'q' from h) (by decide))
    | short c => cases hn; rfl
  subst hn
  have all : ∀ y ∈ fieldsAt 0 Sample.cli, y.1.struct < 1 → declares Sample.cx y.2 (.short 'q') = false := by decide +kernel
  exact all y hy hlt

/-- `app add` from the list of commands of `app`. -/
example : After Sample.cx Sample.cli (blit "app") [blit "-v", blit "add"] [(⟨0, 0, 0⟩, none)]
    ⟨[Sample.entry "Add" "add" Sample.add, Sample.root], 0, .opts⟩ :=
  (C77_command Sample.cli_derived Sample.reads_v (v := .args (lit "Add") (lit "add") Sample.add)
    (Sample.selected (by exact List.mem_cons_self)) (.inl (by decide)) (by decide +kernel) []).2

/-- `--cfg` is an alias, `--verbose` in `app add` a global option, `--config` is shown. -/
example : (∃ f, Resolves Sample.cx [Sample.root] (.long (lit "cfg")) ⟨0, 0, 1⟩ f ∧ lit "--cfg" ∉ shortPart f ++ longPart Sample.cx f)
    ∧ (∃ f, Resolves Sample.cx [Sample.entry "Add" "add" Sample.add, Sample.root] (.long (lit "verbose")) ⟨0, 0, 0⟩ f ∧ f.src.global = true)
    ∧ (∃ f, Resolves Sample.cx [Sample.root] (.long (lit "config")) ⟨0, 0, 1⟩ f ∧ lit "--config" ∈ shortPart f ++ longPart Sample.cx f) := by
  obtain ⟨f, h1, h2⟩ := Sample.resolve (a := ⟨0, 0, 1⟩) (n := .long (lit "cfg")) (st := [Sample.root])
    (fun f => decide (lit "--cfg" ∉ shortPart f ++ longPart Sample.cx f)) (by decide +kernel)
  obtain ⟨g, h3, h4⟩ := Sample.resolve (a := ⟨0, 0, 0⟩) (n := .long (lit "verbose")) (st := [Sample.entry "Add" "add" Sample.add, Sample.root])
    (fun f => f.src.global) (by decide +kernel)
  obtain ⟨g', h5, h6⟩ := Sample.resolve (a := ⟨0, 0, 1⟩) (n := .long (lit "config")) (st := [Sample.root])
    (fun f => decide (lit "--config" ∈ shortPart f ++ longPart Sample.cx f)) (by decide +kernel)
  exact ⟨⟨f, h1, by simpa using h2⟩, ⟨g, h3, h4⟩, ⟨g', h5, by simpa using h6⟩⟩

/-! ### Entries that cannot be followed -/

/-- The help says `-c, --color[=<COLOR>]`, but `-c=x` is not understood (finding 1). -/
theorem C77_not_short : DerivedArgs Sample.cx Sample.colorCli
    ∧ (shownOptions Sample.colorCli).map (label Sample.cx) = [lit "-c, --color[=<COLOR>]"]
    ∧ Typed (lit "-c") (lit "[=<" ++ lit "COLOR" ++ lit ">]") [blit "-c=x"] (some (blit "x"))
    ∧ Sample.failure (tryParseFrom Sample.colorCli [blit "app", blit "-c=x"])
      = some (.error { kind := .unknownNamedArgument, input := some (blit "-=") }) :=
  ⟨Sample.colorCli_derived, by decide +kernel, .optional, by decide +kernel⟩

theorem Sample.shadowCli_derived : DerivedArgs Sample.cx Sample.shadowCli := by
  refine .mk none Sample.shadowDecls ?_ ?_ (Sample.get_ok (by decide))
  · intro i d hm
    simp only [Sample.shadowDecls, Sample.cliDecls, List.mem_cons, FieldDecl.flatten.injEq, reduceCtorEq, List.not_mem_nil, or_false, false_or] at hm
    obtain ⟨_, rfl⟩ := hm
    exact Sample.output_derived
  · intro i o vs hm
    simp only [Sample.shadowDecls, Sample.cliDecls, List.mem_cons, FieldDecl.subcommand.injEq, reduceCtorEq, List.not_mem_nil, or_false, false_or] at hm
    obtain ⟨_, _, rfl⟩ := hm
    exact Sample.cmd_derived

/-- The help shows `-q <QUICK>` and, from the flattened struct, `-q, --quiet`: the latter cannot be given by `-q` (finding 18). -/
theorem C77_not_shadowed : DerivedArgs Sample.cx Sample.shadowCli ∧ lit "-q <QUICK>" ∈ (shownOptions Sample.shadowCli).map (label Sample.cx)
    ∧ lit "-q, --quiet" ∈ (shownOptions Sample.shadowCli).map (label Sample.cx)
    ∧ Typed (lit "-q") [] [blit "-q"] none
    ∧ Sample.failure (tryParseFrom Sample.shadowCli [blit "app", blit "-q"])
      = some (.error { kind := .missingValue, argDesc := some (lit "-q <QUICK>") }) :=
  ⟨Sample.shadowCli_derived, by decide +kernel, by decide +kernel, .flag, by decide +kernel⟩

end Palc
