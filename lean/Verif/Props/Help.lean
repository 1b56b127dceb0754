import Verif.Lemmas.HelpSpec
import Verif.SpecInline
import Verif.Props.Request
import Verif.Props.NoPanic
/-!
# The contents of the help text (C46)
-/

namespace Palc

open Spec

variable {V : Type} {cx : Cx V} {d : ArgsDef V} {argv0 : Bytes}

/-- The help page of command `e` entered as `path`, with the given list of subcommands. -/
def helpPage (cx : Cx V) (path : Str) (e : ArgsDef V) (commands : Str) : Str :=
  (if aboutText (coreOf e).cmdMeta = [] then [] else aboutText (coreOf e).cmdMeta ++ lit "\n\n")
    ++ lit "Usage:" ++ path ++ usageLine cx e ++ lit "\n\n" ++ commands
    ++ entryList cx (lit "Arguments:\n") (shownPositionals e) ++ entryList cx (lit "Options:\n") (shownOptions e)
    ++ afterText (coreOf e).cmdMeta

/-- C46: the help text of every command of a CLI.  The names of subcommands are assumed to contain no NUL characters (they are
identifiers in kebab case); otherwise only the list of commands differs. -/
theorem C46_help (hd : DerivedArgs cx d) {e : ArgsDef V} (he : Command d e) (path : Str) :
    ∃ commands, renderHelp e.info path = helpPage cx path e commands
      ∧ ((∀ v ∈ subVariants e, Char.ofNat 0 ∉ v.name) → commands = commandList e) :=
  ⟨commandsPart e.info, renderHelp_spec (command_wf hd he) path, commandsPart_spec⟩

/-- C46: what is shown for `--help` after any arguments. -/
theorem C46_request (hd : DerivedArgs cx d) {pre ts : List Bytes} {evs : List Event} {i : CmdId} {e : ArgsDef V}
    {outer : List (Entry V)} {k : Nat} (hpre : Reads cx (start argv0 d) pre evs ⟨(i, e) :: outer, k, .opts⟩)
    (hu : Unknown cx ((i, e) :: outer) (.long (lit "help"))) (hacc : Acceptable ((i, e) :: outer) evs)
    (hn : ∀ v ∈ subVariants e, Char.ofNat 0 ∉ v.name) :
    tryParseFrom d (argv0 :: pre ++ blit "--help" :: ts) = .error (.error ({ kind := .help, help := (some (helpPage cx
      ((commandPath ((i, e) :: outer)).flatMap (fun n => ' ' :: n)) e (commandList e))) } : Error)) := by
  have hwf := stack_wf hd.wf (reads_steps hpre)
  have hs : Stuck cx ⟨(i, e) :: outer, k, .opts⟩ ((blit "--help" ++ []) :: ts) [] (helpRequest ((i, e) :: outer)) :=
    .longHelp (.inl rfl) hu
  obtain ⟨e', h1, _, h3⟩ := stuck_fails hd hpre hs
  rw [List.append_nil] at h1
  have hp : commandHelp ((i, e) :: outer) = helpPage cx ((commandPath ((i, e) :: outer)).flatMap (fun n => ' ' :: n)) e (commandList e) := by
    rw [commandHelp, renderHelp_spec (hwf.1 (i, e) (by simp)), cmdline_path, commandsPart_spec hn]
    rfl
  rw [h1, h3 (by simpa using hacc), helpRequest, hp]

/-- C46: `render_long_help` of the root command. -/
theorem C46_render (hd : DerivedArgs cx d) (hh : ¬ OwnHelp cx d) (hn : ∀ v ∈ subVariants d, Char.ofNat 0 ∉ v.name) (name : Str) :
    ∃ shown, (start (enc name) d).stack = [(⟨[], shown⟩, d)]
      ∧ renderLongHelp d name = .ok (helpPage cx (' ' :: shown) d (commandList d)) := by
  refine ⟨_, rfl, ?_⟩
  rw [C36_render hd hh name]
  show Except.ok (renderHelp d.info _) = _
  rw [renderHelp_spec hd.wf, commandsPart_spec hn]
  rfl

theorem mem_shown {e : ArgsDef V} {c : Core V} {f : FieldInfo V} (hc : c ∈ structs e) (hf : f ∈ c.fields) (hs : f.src.hide = false) :
    f ∈ shownArgs e := by
  unfold shownArgs
  rw [List.mem_filter, List.mem_flatMap]
  exact ⟨⟨c, hc, hf⟩, by simp [hs]⟩

theorem flatMap_at {α : Type} {l : List α} {x : α} (h : x ∈ l) (g : α → Str) : ∃ a b, l.flatMap g = a ++ g x ++ b := by
  obtain ⟨s, t, rfl⟩ := List.append_of_mem h
  exact ⟨s.flatMap g, t.flatMap g, by simp⟩

theorem app_mid (x t a s b y : Str) : x ++ (t ++ (a ++ s ++ b)) ++ y = x ++ t ++ a ++ s ++ (b ++ y) := by simp

/-- C46: every option of a command or of a struct flattened into it that is not hidden has its entry in the help text, after the
title of the list of options; every positional argument has one after the title of the list of arguments. -/
theorem C46_entry (hd : DerivedArgs cx d) {e : ArgsDef V} (he : Command d e) (path : Str) {c : Core V} {f : FieldInfo V}
    (hc : c ∈ structs e) (hf : f ∈ c.fields) (hs : f.src.hide = false) :
    ∃ a b c, renderHelp e.info path
      = a ++ (if isOption f then lit "Options:\n" else lit "Arguments:\n") ++ b ++ entryText cx f ++ c := by
  obtain ⟨commands, h, _⟩ := C46_help hd he path
  have hm := mem_shown hc hf hs
  rw [h]
  unfold helpPage
  cases ho : isOption f with
  | true =>
    have hm : f ∈ shownOptions e := List.mem_filter.2 ⟨hm, ho⟩
    obtain ⟨a, b, hab⟩ := flatMap_at hm (entryText cx)
    have : entryList cx (lit "Options:\n") (shownOptions e) = lit "Options:\n" ++ (a ++ entryText cx f ++ b) := by
      unfold entryList
      rw [if_neg (List.ne_nil_of_mem hm), hab]
    rw [this]
    exact ⟨_, a, _, app_mid _ _ _ _ _ _⟩
  | false =>
    have hm : f ∈ shownPositionals e := List.mem_filter.2 ⟨hm, by simp [ho]⟩
    obtain ⟨a, b, hab⟩ := flatMap_at hm (entryText cx)
    have : entryList cx (lit "Arguments:\n") (shownPositionals e) = lit "Arguments:\n" ++ (a ++ entryText cx f ++ b) := by
      unfold entryList
      rw [if_neg (List.ne_nil_of_mem hm), hab]
    rw [this]
    exact ⟨_, a, _, by rw [List.append_assoc _ (entryList _ _ _)]; exact app_mid _ _ _ _ _ _⟩

theorem withoutIndex_text (l : List (FieldInfo V)) (p : FieldInfo V → Bool) (g : FieldInfo V → Str) (hp : ∀ f, p (withoutIndex f) = p f)
    (hg : ∀ f, g (withoutIndex f) = g f) : (l.filter p).flatMap g = ((l.map withoutIndex).filter p).flatMap g := by
  induction l with
  | nil => rfl
  | cons f l ih =>
    rw [List.map_cons, List.filter_cons, List.filter_cons, hp]
    cases p f with
    | false => exact ih
    | true => rw [if_pos rfl, if_pos rfl, List.flatMap_cons, List.flatMap_cons, ih, hg]

theorem withoutIndex_any (l : List (FieldInfo V)) (p : FieldInfo V → Bool) (q : FieldInfo V → Prop) (hp : ∀ f, p (withoutIndex f) = p f)
    (hq : ∀ f, q (withoutIndex f) ↔ q f) : (∃ f ∈ l.filter p, q f) ↔ ∃ f ∈ (l.map withoutIndex).filter p, q f := by
  simp only [List.mem_filter, List.mem_map]
  constructor
  · rintro ⟨f, ⟨h1, h2⟩, h3⟩
    exact ⟨withoutIndex f, ⟨⟨f, h1, rfl⟩, by rw [hp]; exact h2⟩, (hq f).2 h3⟩
  · rintro ⟨_, ⟨⟨f, h1, rfl⟩, h2⟩, h3⟩
    exact ⟨f, ⟨h1, by rw [hp] at h2; exact h2⟩, (hq f).1 h3⟩

/-- C46: the help text is determined by the arguments that are not hidden, the subcommands and the texts of the command: hidden
arguments leave no trace in it. -/
theorem C46_hidden {d' e e' : ArgsDef V} (hd : DerivedArgs cx d) (he : Command d e) (hd' : DerivedArgs cx d') (he' : Command d' e')
    (ha : (shownArgs e).map withoutIndex = (shownArgs e').map withoutIndex) (hs : subOf e = subOf e')
    (hm : (coreOf e).cmdMeta = (coreOf e').cmdMeta) (path : Str) :
    renderHelp e.info path = renderHelp e'.info path := by
  rw [renderHelp_spec (command_wf hd he), renderHelp_spec (command_wf hd' he')]
  have hc : commandsPart e.info = commandsPart e'.info := by
    unfold commandsPart ArgsInfo.subcommandsWithHelp
    rw [(help_sub e).1, (help_sub e').1, hs]
  have text : ∀ (p : FieldInfo V → Bool) (g : FieldInfo V → Str), (∀ f, p (withoutIndex f) = p f) → (∀ f, g (withoutIndex f) = g f) →
      ((shownArgs e).filter p).flatMap g = ((shownArgs e').filter p).flatMap g := by
    intro p g hp hg
    rw [withoutIndex_text _ p g hp hg, withoutIndex_text (shownArgs e') p g hp hg, ha]
  have hu : usageLine cx e = usageLine cx e' := by
    unfold usageLine shownOptions shownPositionals
    rw [text isOption (usageText cx) (fun _ => rfl) (fun _ => rfl), text (fun f => !isOption f) (usageText cx) (fun _ => rfl) (fun _ => rfl), hs]
    have : (∃ f ∈ (shownArgs e).filter isOption, isRequired f = false) ↔ ∃ f ∈ (shownArgs e').filter isOption, isRequired f = false := by
      rw [withoutIndex_any _ _ _ (fun _ => rfl) (fun _ => Iff.rfl), ha, ← withoutIndex_any _ _ _ (fun _ => rfl) (fun _ => Iff.rfl)]
    simp only [this]
  have hl : ∀ title p, (∀ f, p (withoutIndex f) = p f) →
      entryList cx title ((shownArgs e).filter p) = entryList cx title ((shownArgs e').filter p) := by
    intro title p hp
    rw [← section_spec, ← section_spec, text p (entryText cx) hp (fun _ => rfl)]
  unfold shownOptions shownPositionals
  rw [hu, hm, hc, hl _ isOption (fun _ => rfl), hl _ (fun f => !isOption f) (fun _ => rfl)]

theorem usageLine_required {e : ArgsDef V} {c : Core V} {f : FieldInfo V} (hc : c ∈ structs e) (hf : f ∈ c.fields)
    (hs : f.src.hide = false) (hr : isRequired f = true) :
    ∃ a b, usageLine cx e = a ++ (if f.src.last then lit " -- " ++ label cx f else lit " " ++ usageLabel cx f) ++ b := by
  have hm := mem_shown hc hf hs
  have ht : usageText cx f = if f.src.last then lit " -- " ++ label cx f else lit " " ++ usageLabel cx f := by
    unfold usageText
    rw [hr]
    cases f.src.last <;> rfl
  rw [← ht]
  unfold usageLine
  cases ho : isOption f with
  | true =>
    have hm : f ∈ shownOptions e := List.mem_filter.2 ⟨hm, ho⟩
    obtain ⟨a, b, hab⟩ := flatMap_at hm (usageText cx)
    rw [hab]
    simp only [List.append_assoc]
    exact ⟨_, _, rfl⟩
  | false =>
    have hm : f ∈ shownPositionals e := List.mem_filter.2 ⟨hm, by simp [ho]⟩
    obtain ⟨a, b, hab⟩ := flatMap_at hm (usageText cx)
    rw [hab]
    exact ⟨_, _, (app_mid _ [] a _ b _).trans (by rw [List.append_nil])⟩

/-- C46: the usage line shows every required argument that is not hidden: options by (long) name and value, positional arguments
by their label. -/
theorem C46_required (hd : DerivedArgs cx d) {e : ArgsDef V} (he : Command d e) (path : Str) {c : Core V} {f : FieldInfo V}
    (hc : c ∈ structs e) (hf : f ∈ c.fields) (hs : f.src.hide = false) (hr : isRequired f = true) :
    ∃ x a b y, renderHelp e.info path = x ++ lit "Usage:" ++ path ++ a
      ++ (if f.src.last then lit " -- " ++ label cx f else lit " " ++ usageLabel cx f) ++ b ++ lit "\n\n" ++ y
      ∧ usageLine cx e = a ++ (if f.src.last then lit " -- " ++ label cx f else lit " " ++ usageLabel cx f) ++ b := by
  obtain ⟨a, b, hab⟩ := usageLine_required (cx := cx) hc hf hs hr
  obtain ⟨commands, hr, _⟩ := C46_help hd he path
  refine ⟨if aboutText (coreOf e).cmdMeta = [] then [] else aboutText (coreOf e).cmdMeta ++ lit "\n\n", a, b, commands
    ++ entryList cx (lit "Arguments:\n") (shownPositionals e) ++ entryList cx (lit "Options:\n") (shownOptions e)
    ++ afterText (coreOf e).cmdMeta, ?_, hab⟩
  rw [hr]
  unfold helpPage
  rw [hab]
  simp only [List.append_assoc]

/-- The options of a list of declarations. -/
def declaredOptions (ds : List (FieldDecl V)) : List (Str × ArgMeta V) :=
  ds.filterMap (fun x => match x with
    | .arg i _ m => if m.long.isSome || m.short.isSome then some (i, m) else none
    | _ => none)

/-- The positional arguments of a list of declarations, those marked `last` or not. -/
def declaredPositionals (last : Bool) (ds : List (FieldDecl V)) : List (Str × ArgMeta V) :=
  ds.filterMap (fun x => match x with
    | .arg i _ m => if !(m.long.isSome || m.short.isSome) && m.last == last then some (i, m) else none
    | _ => none)

theorem declFields_filter (cx : Cx V) (ds : List (FieldDecl V)) (p : FieldInfo V → Bool) (q : ArgMeta V → Bool)
    (h : ∀ i ty m, p (argField cx i ty m).2 = q m) :
    ((declFields cx ds).filter p).map (fun f => (f.ident, f.src)) = ds.filterMap (fun x => match x with
      | .arg i _ m => if q m then some (i, m) else none
      | _ => none) := by
  induction ds with
  | nil => rfl
  | cons x ds ih =>
    cases x with
    | subcommand => exact ih
    | flatten => exact ih
    | arg i ty m =>
      have hp := h i ty m
      have hs := argField_src cx i ty m
      simp only [declFields, List.filterMap_cons, declField] at ih ⊢
      rw [List.filter_cons, hp]
      cases hq : q m with
      | false => simpa using ih
      | true => simpa [hs.1, hs.2] using ih

theorem fin_filter (D : List (FieldInfo V)) (l : List (FieldInfo V)) (k : Nat) (p : FieldInfo V → Bool)
    (hp : ∀ x, p (finField D x) = p x.1) :
    (((l.zipIdx k).map (finField D)).filter p).map (fun f => (f.ident, f.src)) = (l.filter p).map (fun f => (f.ident, f.src)) := by
  induction l generalizing k with
  | nil => rfl
  | cons f l ih =>
    rw [List.zipIdx_cons, List.map_cons, List.filter_cons, List.filter_cons, hp]
    cases hq : p f with
    | false => simpa using ih (k + 1)
    | true =>
      simp only [if_true, List.map_cons, ih (k + 1)]
      rfl

theorem flatStructs_ofList (l : List (Str × ArgsDef V)) : flatStructs (Flats.ofList l) = (l.map (·.2)).flatMap structs := by
  induction l with
  | nil => rw [Flats.ofList, flatStructs]; rfl
  | cons x l ih => obtain ⟨i, d⟩ := x; rw [Flats.ofList, flatStructs, ih]; rfl

/-- C46: arguments are listed in the order of their declarations: the options, and the positional arguments with the one marked
`last` at the end.  Flattened structs follow the fields of the struct itself, in the order of their declarations. -/
theorem C46_order {cmeta : Option CommandMeta} {ds : List (FieldDecl V)} (h : deriveArgs cx cmeta ds = .ok d) :
    ((coreOf d).fields.filter isOption).map (fun f => (f.ident, f.src)) = declaredOptions ds
    ∧ ((coreOf d).fields.filter (fun f => !isOption f)).map (fun f => (f.ident, f.src)) =
        declaredPositionals false ds ++ declaredPositionals true ds
    ∧ structs d = coreOf d :: (ds.filterMap (fun x => match x with
        | .flatten _ e => some e
        | _ => none)).flatMap structs := by
  obtain ⟨core, flats, sub⟩ := d
  have ha := deriveArgs_ok h
  obtain ⟨D, hD⟩ := ha.fields
  have sel : ∀ (l : List (FieldInfo V)) (p q : FieldInfo V → Bool), (∀ f, p f = true → q f = true) → (l.filter p).filter q = l.filter p := by
    intro l p q hpq
    rw [List.filter_eq_self]
    intro f hf
    exact hpq f (List.mem_filter.1 hf).2
  have non : ∀ (l : List (FieldInfo V)) (p q : FieldInfo V → Bool), (∀ f, p f = true → q f = false) → (l.filter p).filter q = [] := by
    intro l p q hpq
    rw [List.filter_eq_nil_iff]
    intro f hf
    rw [hpq f (List.mem_filter.1 hf).2]
    decide
  refine ⟨?_, ?_, ?_⟩
  · show (core.fields.filter isOption).map _ = _
    rw [hD, fin_filter _ _ _ _ (fun x => rfl)]
    simp only [List.filter_append]
    rw [sel _ _ _ (fun f h => h), non _ _ _ (by simp +contextual [isSingle]), non _ _ _ (by simp +contextual [isVar]), non _ _ _ (by simp +contextual [isLastF])]
    simp only [List.append_nil]
    exact declFields_filter cx ds isOption (fun m => m.long.isSome || m.short.isSome) (fun i ty m => argField_isOption cx i ty m)
  · show (core.fields.filter _).map _ = _
    rw [hD, fin_filter _ _ _ _ (fun x => rfl)]
    simp only [List.filter_append]
    rw [non _ _ _ (by simp), sel _ _ _ (by simp +contextual [isSingle]), sel _ _ _ (by simp +contextual [isVar]),
      sel _ _ _ (by simp +contextual [isLastF])]
    simp only [List.nil_append]
    rw [← ha.order, List.map_append]
    congr 1
    · refine declFields_filter cx ds _ (fun m => !(m.long.isSome || m.short.isSome) && m.last == false) (fun i ty m => ?_)
      have h1 := argField_isOption cx i ty m
      have h2 := (argField_src cx i ty m).1
      unfold isSingle isVar
      rw [h1, h2]
      show _ = (!m.isNamed && m.last == false)
      cases m.isNamed <;> cases isMulti (argField cx i ty m).2 <;> cases m.last <;> rfl
    · refine declFields_filter cx ds _ (fun m => !(m.long.isSome || m.short.isSome) && m.last == true) (fun i ty m => ?_)
      have h1 := argField_isOption cx i ty m
      have h2 := (argField_src cx i ty m).1
      unfold isLastF
      rw [h1, h2]
      show _ = (!m.isNamed && m.last == true)
      cases m.isNamed <;> cases m.last <;> rfl
  · rw [structs, coreOf, ha.flatsEq, flatStructs_ofList]
    congr 2
    rw [List.map_filterMap]
    congr 1
    funext x
    cases x <;> rfl

/-! ## A sample -/

namespace Sample

def helpOutDecls : List (FieldDecl Val) :=
  [ .arg (lit "quiet") .bool { short := some .inherit, long := some .inherit, doc := lit "Print less." },
    .arg (lit "trace") .bool { long := some .inherit, hide := true },
    .arg (lit "token") string { long := some .inherit } ]

def helpDecls : List (FieldDecl Val) :=
  [ .arg (lit "files") (.vec string) {},
    .flatten (lit "out") (get (deriveArgs Sample.cx none helpOutDecls)),
    .arg (lit "rest") (.vec string) { last := true },
    .arg (lit "jobs") number { short := some .inherit, long := some .inherit, defaultValue := some (lit "1"), doc := lit "Workers" },
    .arg (lit "key") string { short := some .inherit, long := some .inherit, valueName := some (lit "K"), requireEquals := true },
    .subcommand (lit "cmd") true (deriveSub Sample.cx [.unit (lit "Go") (some { doc := lit "Go on.\nNow." }), .args (lit "Status") drop]) ]

def helpCli : ArgsDef Val := get (deriveArgs Sample.cx (some { doc := lit "A tool." }) helpDecls)

theorem helpCli_derived : DerivedArgs Sample.cx helpCli := by
  refine .mk (some { doc := lit "A tool." }) helpDecls ?_ ?_ (get_ok (by decide +kernel))
  · intro i d hm
    simp only [helpDecls, List.mem_cons, reduceCtorEq, FieldDecl.flatten.injEq, List.not_mem_nil, or_false, false_or] at hm
    obtain ⟨_, rfl⟩ := hm
    exact derived_leaf (by decide +kernel) (by decide +kernel)
  · intro i o vs hm
    simp only [helpDecls, List.mem_cons, reduceCtorEq, FieldDecl.subcommand.injEq, List.not_mem_nil, or_false, false_or] at hm
    obtain ⟨_, _, rfl⟩ := hm
    refine .mk _ ?_ rfl
    intro i d hm
    simp only [List.mem_cons, reduceCtorEq, VariantDecl.args.injEq, List.not_mem_nil, or_false, false_or] at hm
    obtain ⟨_, rfl⟩ := hm
    exact derived_leaf (by decide +kernel) (by decide +kernel)

end Sample

/-- The page of the sample. -/
example : renderHelp Sample.helpCli.info (lit " tool") = lit "A tool.

Usage: tool --key=<K> --token <TOKEN> [OPTIONS] [FILES]... [-- [REST]...] [COMMAND]

Commands:
    go      Go on.
    status  \n
Arguments:
  [FILES]...

  [REST]...

Options:
  -j, --jobs <JOBS>
          Workers
          [default: 1]

  -k, --key=<K>

  -q, --quiet
          Print less.

      --token <TOKEN>

" := by decide +kernel

example : ∃ f c, c ∈ structs Sample.helpCli ∧ f ∈ c.fields ∧ f.src.hide = false ∧ isRequired f = true ∧ isOption f = true
    ∧ usageLabel Sample.cx f = lit "--key=<K>" := by
  have h : ((structs Sample.helpCli)[0]?.bind (fun c => c.fields[1]?.map (fun f => (c, f)))).any (fun x : Core Sample.Val × FieldInfo Sample.Val =>
      x.2.src.hide == false && (isRequired x.2 && (isOption x.2 && decide (usageLabel Sample.cx x.2 = lit "--key=<K>")))) = true := by
    decide +kernel
  obtain ⟨x, hx, hp⟩ := (Option.any_eq_true _ _).1 h
  obtain ⟨c, hc, hf⟩ := Option.bind_eq_some_iff.1 hx
  obtain ⟨f, hf', rfl⟩ := Option.map_eq_some_iff.1 hf
  simp only [Bool.and_eq_true, beq_iff_eq, decide_eq_true_eq] at hp
  exact ⟨f, c, List.mem_of_getElem? hc, List.mem_of_getElem? hf', hp⟩

namespace Sample

/-- The sample without `--trace`. -/
def shortOutDecls : List (FieldDecl Val) := helpOutDecls.take 1 ++ helpOutDecls.drop 2

def shortDecls : List (FieldDecl Val) :=
  helpDecls.take 1 ++ .flatten (lit "out") (get (deriveArgs Sample.cx none shortOutDecls)) :: helpDecls.drop 2

def shortCli : ArgsDef Val := get (deriveArgs Sample.cx (some { doc := lit "A tool." }) shortDecls)

end Sample

/-- A hidden argument leaves no trace: the sample with `--trace` left out shows the same arguments. -/
example : (shownArgs Sample.helpCli).length = 6 ∧ (shownArgs Sample.shortCli).length = 6
    ∧ ((structs Sample.helpCli).flatMap (·.fields)).length = 7 ∧ ((structs Sample.shortCli).flatMap (·.fields)).length = 6
    ∧ (shownArgs Sample.helpCli).map (fun f => (f.ident, f.kind, f.src.doc, f.description))
      = (shownArgs Sample.shortCli).map (fun f => (f.ident, f.kind, f.src.doc, f.description)) := by decide +kernel

example : renderHelp Sample.helpCli.info (lit " tool") = renderHelp Sample.shortCli.info (lit " tool") := by decide +kernel

end Palc
