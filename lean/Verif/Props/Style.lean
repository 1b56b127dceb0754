import Verif.Props.Language
import Verif.Props.Relax
import Verif.Lemmas.Style
import Verif.Lemmas.HelpSpec
/-!
# Presentation does not influence behaviour (C78)
-/

namespace Palc

open Spec

variable {V : Type} {cx : Cx V} {d d' : ArgsDef V} {argv0 : Bytes} {toks : List Bytes}

instance : Styling (V := V) (fun _ => DocsArg) := ⟨And.left⟩

theorem shown_label {st : List (Entry V)} (hwf : StackWF cx st) {a : Addr} {f : FieldInfo V} (hf : fieldAt st a = some f) :
    f.description = label cx f := by
  obtain ⟨x, hx, c, hc, hcf⟩ : ∃ x ∈ st, ∃ c ∈ structs x.2, f ∈ c.fields := by
    clear hwf
    induction st with
    | nil => cases hf
    | cons x st ih =>
      obtain ⟨i, e⟩ := x
      rw [fieldAt] at hf
      split at hf
      · cases hc : (structs e)[a.struct]? with
        | none => rw [hc] at hf; cases hf
        | some c => rw [hc] at hf; exact ⟨_, List.mem_cons_self, c, List.mem_of_getElem? hc, List.mem_of_getElem? hf⟩
      · obtain ⟨y, hy, h⟩ := ih hf
        exact ⟨y, List.mem_cons_of_mem _ hy, h⟩
  obtain ⟨j, hj⟩ := List.mem_iff_getElem?.1 hcf
  exact ((WFArgs.structs x.2 (hwf x hx) c hc).fields j f hj).toFieldPre.desc

theorem SameFail.label {st st' : List (Entry V)} (hwf : StackWF cx st) (hwf' : StackWF cx st') {x x' : Fail}
    (h : SameFail (·.description) st st' x x') : SameFail (label cx) st st' x x' := by
  cases h with
  | panic => exact .panic
  | error h =>
    refine .error ⟨h.rest, ?_, h.help⟩
    rcases h.arg with h | ⟨a, f, f', h1, h2, h3, h4, h5, h6⟩
    · exact .inl h
    · exact .inr ⟨a, f, f', h1, h2, h3, h4, by rw [h5, shown_label hwf h1], by rw [h6, shown_label hwf' h2]⟩

theorem All₂.names {M : Change V} {st st' : List (Entry V)} (h : All₂ (LooseEntry M) st st') :
    st'.map (·.1) = st.map (·.1) := by
  induction h with
  | nil => rfl
  | cons h _ ih => rw [List.map_cons, List.map_cons, ih, h.1]

/-- C78: two programs that look different: they accept the same command lines, with the same results.  Otherwise they fail after reading
the same arguments, with the same error, except that in it the same argument is shown as each of them shows it, and that each shows its
own help of the same command. -/
theorem C78_same (hd : DerivedArgs cx d) (hd' : DerivedArgs cx d') (h : Changed (fun _ => StyledArg) cx d d') :
    (∃ out, tryParseFrom d (argv0 :: toks) = .ok out ∧ tryParseFrom d' (argv0 :: toks) = .ok out)
    ∨ ∃ x x' evs κ κ' rest, tryParseFrom d (argv0 :: toks) = .error x ∧ tryParseFrom d' (argv0 :: toks) = .error x'
      ∧ Steps cx (start argv0 d) toks evs κ rest ∧ Steps cx (start argv0 d') toks evs κ' rest
      ∧ κ'.stack.map (·.1) = κ.stack.map (·.1) ∧ SameFail (label cx) κ.stack κ'.stack x x' := by
  rcases outcome_styled hd.wf hd'.wf (changed_loose h) argv0 toks with h | ⟨x, x', evs, κ, κ', rest, h1, h2, h3, h4, h5, h6⟩
  · exact .inl h
  · refine .inr ⟨x, x', evs, κ, κ', rest, h1, h2, h3, h4, ?_, SameFail.label (stack_wf hd.wf h3).1 (stack_wf hd'.wf h4).1 h6⟩
    exact h5.stack.names

/-- C78: in particular the kind of the error, the quoted input and the error of the value parser are the same. -/
theorem C78_kind (hd : DerivedArgs cx d) (hd' : DerivedArgs cx d') (h : Changed (fun _ => StyledArg) cx d d') {e : Error}
    (he : tryParseFrom d (argv0 :: toks) = .error (.error e)) :
    ∃ e', tryParseFrom d' (argv0 :: toks) = .error (.error e') ∧ e'.kind = e.kind ∧ e'.input = e.input ∧ e'.source = e.source := by
  rcases C78_same hd hd' h (argv0 := argv0) (toks := toks) with ⟨out, h1, _⟩ | ⟨x, x', _, _, _, _, h1, h2, _, _, _, h6⟩
  · rw [h1] at he; cases he
  · rw [h1] at he
    cases he
    cases h6 with
    | error h =>
      have := h.rest
      exact ⟨_, h2, by rw [this], by rw [this], by rw [this]⟩

theorem label_docs {f f' : FieldInfo V} (h : LooseField (.of fun _ => DocsArg) f f') : label cx f' = label cx f := by
  have hv : valueName cx f' = valueName cx f := by unfold valueName; rw [h.src.2, h.ident]
  unfold label positionalLabel valuePart shortPart longPart
  rw [h.isOption, hv, h.isRequired_eq, h.isMulti, h.kind, h.styled.1, h.src.1.relaxed.short, h.src.1.relaxed.long, h.ident]

/-- C78: changing only documentation, and which arguments are shown in the help, changes nothing at all, except for help texts. -/
theorem C78_docs (hd : DerivedArgs cx d) (hd' : DerivedArgs cx d') (h : Changed (fun _ => DocsArg) cx d d') :
    tryParseFrom d' (argv0 :: toks) = tryParseFrom d (argv0 :: toks)
    ∨ ∃ evs κ κ' rest, Steps cx (start argv0 d) toks evs κ rest ∧ Steps cx (start argv0 d') toks evs κ' rest
      ∧ κ'.stack.map (·.1) = κ.stack.map (·.1) ∧ tryParseFrom d (argv0 :: toks) = .error (.error (helpRequest κ.stack))
      ∧ tryParseFrom d' (argv0 :: toks) = .error (.error (helpRequest κ'.stack)) := by
  rcases outcome_styled hd.wf hd'.wf (changed_loose h) argv0 toks with ⟨out, h1, h2⟩ | ⟨x, x', evs, κ, κ', rest, h1, h2, h3, h4, h5, h6⟩
  · left; rw [h1, h2]
  · have h6 := SameFail.label (stack_wf hd.wf h3).1 (stack_wf hd'.wf h4).1 h6
    cases h6 with
    | panic => left; rw [h1, h2]
    | @error e e' hs =>
      have ha : e'.argDesc = e.argDesc := by
        rcases hs.arg with ha | ⟨a, f, f', g1, g2, _, _, g5, g6⟩
        · exact ha
        · rcases fieldAt_loose h5.stack (a := a) with ⟨q1, _⟩ | ⟨f0, f0', q1, q2, q3⟩
          · rw [q1] at g1; cases g1
          · rw [q1] at g1
            rw [q2] at g2
            cases g1
            cases g2
            rw [g5, g6, label_docs q3]
      rcases hs.help with hh | ⟨hh, hh'⟩
      · left
        rw [h1, h2, hs.rest, ha, hh]
      · right
        exact ⟨evs, κ, κ', rest, h3, h4, h5.stack.names, by rw [h1, hh], by rw [h2, hh']⟩

namespace Sample

/-- The program of `Example.lean` with other documentation, hidden options and other names of values. -/
def styledDecls : List (FieldDecl Val) :=
  [ .arg (lit "verbose") .bool { short := some .inherit, long := some .inherit, global := true, hide := true },
    .arg (lit "config") (.option string)
      { short := some (.explicit 'c'), long := some .inherit, alias := [lit "cfg"], global := true, valueName := some (lit "PATH") },
    .arg (lit "jobs") number
      { short := some .inherit, long := some .inherit, defaultValue := some (lit "1"), help := some (lit "How many") },
    .arg (lit "define") (.vec string) { short := some (.explicit 'D'), valueDelimiter := some ',' },
    .arg (lit "color") (.option (.option string)) { long := some .inherit, requireEquals := true },
    .arg (lit "level") (.option number) { long := some .inherit, requireEquals := true, valueName := some (lit "N") },
    .arg (lit "offset") (.option number)
      { long := some .inherit, allowNegativeNumbers := true, conflictsWith := [lit "level"] },
    .arg (lit "pattern") (.option string)
      { long := some .inherit, allowHyphenValues := true, requires := [lit "config"] },
    .flatten (lit "output") output,
    .subcommand (lit "cmd") true cmd,
    .arg (lit "file") (.option string) {} ]

def styled : ArgsDef Val := get (deriveArgs Sample.cx none styledDecls)

/-- Only with other documentation. -/
def docsDecls : List (FieldDecl Val) :=
  [ .arg (lit "all") .bool { long := some .inherit, exclusive := true, hide := true },
    .arg (lit "soft") .bool { short := some .inherit, help := some (lit "Softly") },
    .arg (lit "name") (.option string) { longHelp := some (lit "What to drop") } ]

def docs : ArgsDef Val := get (deriveArgs Sample.cx none docsDecls)

theorem changed_leaf {M : Str → ArgMeta Val → ArgMeta Val → Prop} (hM : ∀ i m, M i m m) {decls : List (FieldDecl Val)}
    (h : isOk (deriveArgs Sample.cx none decls) = true) (hl : decls.all (fun x => match x with | .arg .. => true | _ => false) = true) :
    Changed M Sample.cx (get (deriveArgs Sample.cx none decls)) (get (deriveArgs Sample.cx none decls)) := by
  refine .mk ?_ (get_ok h) (get_ok h)
  clear h
  induction decls with
  | nil => exact .nil
  | cons x ds ih =>
    simp only [List.all_cons, Bool.and_eq_true] at hl
    cases x with
    | arg i ty m => exact .arg (hM i m) (ih hl.2)
    | flatten => cases hl.1
    | subcommand => cases hl.1

theorem styled_derived : DerivedArgs Sample.cx styled := by
  refine .mk none styledDecls ?_ ?_ (get_ok (by decide))
  · intro i d hm
    simp only [styledDecls, List.mem_cons, FieldDecl.flatten.injEq, reduceCtorEq, List.not_mem_nil, or_false, false_or] at hm
    obtain ⟨_, rfl⟩ := hm
    exact output_derived
  · intro i o vs hm
    simp only [styledDecls, List.mem_cons, FieldDecl.subcommand.injEq, reduceCtorEq, List.not_mem_nil, or_false, false_or] at hm
    obtain ⟨_, _, rfl⟩ := hm
    exact cmd_derived

theorem styled_changed : Changed (fun _ => StyledArg) Sample.cx cli styled := by
  refine .mk (ds := cliDecls) (ds' := styledDecls) ?_ (get_ok (by decide)) (get_ok (by decide))
  have leaf {decls : List (FieldDecl Val)} := changed_leaf (M := fun _ => StyledArg) (fun _ _ => rfl) (decls := decls)
  have hcmd : ChangedVariants (fun _ => StyledArg) Sample.cx cmd cmd :=
    .args (leaf (by decide) (by decide)) (.args (leaf (by decide) (by decide)) (.args (leaf (by decide) (by decide)) (.unit .nil)))
  exact .arg rfl (.arg rfl (.arg rfl (.arg rfl (.arg rfl (.arg rfl (.arg rfl (.arg rfl
    (.flatten (leaf (by decide) (by decide)) (.subcommand hcmd (.arg rfl .nil))))))))))

/-- The same problem of the same option, shown differently. -/
example : (failure (parse ["app", "-v", "add", "--config"])).map (fun x => match x with | .error e => (e.kind, e.argDesc) | _ => (.help, none))
      = some (.missingValue, some (lit "-c, --config <CONFIG>"))
    ∧ (failure (tryParseFrom styled [blit "app", blit "-v", blit "add", blit "--config"])).map
        (fun x => match x with | .error e => (e.kind, e.argDesc) | _ => (.help, none))
      = some (.missingValue, some (lit "-c, --config <PATH>")) := by
  decide +kernel

example {toks : List Bytes} {e : Error} (h : tryParseFrom cli (blit "app" :: toks) = .error (.error e)) :
    ∃ e', tryParseFrom styled (blit "app" :: toks) = .error (.error e') ∧ e'.kind = e.kind ∧ e'.input = e.input ∧ e'.source = e.source :=
  C78_kind cli_derived styled_derived styled_changed h

theorem docs_changed : Changed (fun _ => DocsArg) Sample.cx drop docs := by
  refine .mk (ds := dropDecls) (ds' := docsDecls) ?_ (get_ok (by decide)) (get_ok (by decide))
  exact .arg ⟨rfl, rfl⟩ (.arg ⟨rfl, rfl⟩ (.arg ⟨rfl, rfl⟩ .nil))

/-- Both alternatives of `C78_docs` occur. -/
example : failure (tryParseFrom drop [blit "drop", blit "--all", blit "-s"]) = failure (tryParseFrom docs [blit "drop", blit "--all", blit "-s"])
    ∧ failure (tryParseFrom drop [blit "drop", blit "--help"]) ≠ failure (tryParseFrom docs [blit "drop", blit "--help"]) := by
  decide +kernel

end Sample

end Palc
