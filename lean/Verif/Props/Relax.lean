import Verif.Props.Language
import Verif.Lemmas.Relax
/-!
# Relaxing the attributes of arguments (C74)
-/

namespace Palc

open Spec

variable {V : Type} {cx : Cx V} {d d' : ArgsDef V} {argv0 : Bytes} {toks : List Bytes} {out : Out V}

/-- C74: a command line accepted by a program is accepted, with the same result, after relaxing attributes of its arguments. -/
theorem C74_accepted (hd : DerivedArgs cx d) (hd' : DerivedArgs cx d') (h : Relaxed cx d d')
    (hok : tryParseFrom d (argv0 :: toks) = .ok out) : tryParseFrom d' (argv0 :: toks) = .ok out :=
  (C23_accepts_iff hd' argv0 toks out).2 (accepts_loose (changed_loose h) ((C23_accepts_iff hd argv0 toks out).1 hok))

/-- C74: two programs which differ only in what is shown in help texts and error messages accept the same command lines, with the same
results. -/
theorem C74_presentation (hd : DerivedArgs cx d) (hd' : DerivedArgs cx d') (h : Relaxed cx d d') (h' : Relaxed cx d' d) :
    tryParseFrom d (argv0 :: toks) = .ok out ↔ tryParseFrom d' (argv0 :: toks) = .ok out :=
  ⟨C74_accepted hd hd' h, C74_accepted hd' hd h'⟩

/-- C74: a command line rejected after relaxing attributes was rejected before. -/
theorem C74_rejected (hd : DerivedArgs cx d) (hd' : DerivedArgs cx d') (h : Relaxed cx d d')
    {e : Fail} (hno : tryParseFrom d' (argv0 :: toks) = .error e) : ∃ e', tryParseFrom d (argv0 :: toks) = .error e' := by
  cases hp : tryParseFrom d (argv0 :: toks) with
  | error e' => exact ⟨e', rfl⟩
  | ok o => rw [C74_accepted hd hd' h hp] at hno; cases hno

namespace Sample

/-- `drop`, whose `--all` is not exclusive any more. -/
def looseDropDecls : List (FieldDecl Val) :=
  [ .arg (lit "all") .bool { long := some .inherit },
    .arg (lit "soft") .bool { short := some .inherit },
    .arg (lit "name") (.option string) { valueName := some (lit "WHAT") } ]

def looseDrop : ArgsDef Val := get (deriveArgs Sample.cx none looseDropDecls)

def looseCmd : Variants Val :=
  deriveSub Sample.cx [.args (lit "Add") add, .args (lit "Run") run, .args (lit "Drop") looseDrop, .unit (lit "Status") none]

/-- The program of `Example.lean`, where `--level` does not need '=', `--offset` can have any value and does not conflict with `--level`,
and `--pattern` does not require `--config`. -/
def looseDecls : List (FieldDecl Val) :=
  [ .arg (lit "verbose") .bool { short := some .inherit, long := some .inherit, global := true },
    .arg (lit "config") (.option string)
      { short := some (.explicit 'c'), long := some .inherit, alias := [lit "cfg"], global := true, valueName := some (lit "FILE") },
    .arg (lit "jobs") number { short := some .inherit, long := some .inherit, defaultValue := some (lit "1") },
    .arg (lit "define") (.vec string) { short := some (.explicit 'D'), valueDelimiter := some ',' },
    .arg (lit "color") (.option (.option string)) { long := some .inherit, requireEquals := true },
    .arg (lit "level") (.option number) { long := some .inherit },
    .arg (lit "offset") (.option number) { long := some .inherit, allowHyphenValues := true },
    .arg (lit "pattern") (.option string) { long := some .inherit, allowHyphenValues := true },
    .flatten (lit "output") output,
    .subcommand (lit "cmd") true looseCmd,
    .arg (lit "file") (.option string) {} ]

def loose : ArgsDef Val := get (deriveArgs Sample.cx none looseDecls)

theorem looseDrop_derived : DerivedArgs Sample.cx looseDrop := derived_leaf (by decide) (by decide)

theorem looseCmd_derived : DerivedVariants Sample.cx looseCmd := by
  refine .mk _ ?_ rfl
  intro i d hm
  simp only [List.mem_cons, VariantDecl.args.injEq, reduceCtorEq, List.not_mem_nil, or_false] at hm
  rcases hm with ⟨_, rfl⟩ | ⟨_, rfl⟩ | ⟨_, rfl⟩
  · exact add_derived
  · exact run_derived
  · exact looseDrop_derived

theorem loose_derived : DerivedArgs Sample.cx loose := by
  refine .mk none looseDecls ?_ ?_ (get_ok (by decide))
  · intro i d hm
    simp only [looseDecls, List.mem_cons, FieldDecl.flatten.injEq, reduceCtorEq, List.not_mem_nil, or_false, false_or] at hm
    obtain ⟨_, rfl⟩ := hm
    exact output_derived
  · intro i o vs hm
    simp only [looseDecls, List.mem_cons, FieldDecl.subcommand.injEq, reduceCtorEq, List.not_mem_nil, or_false, false_or] at hm
    obtain ⟨_, _, rfl⟩ := hm
    exact looseCmd_derived

theorem relaxedArg_refl (m : ArgMeta Val) : RelaxedArg m m :=
  ⟨rfl, rfl, rfl, rfl, rfl, rfl, rfl, rfl, rfl, rfl, rfl, id, id, id, .inl, id, fun _ => id, fun _ => id⟩

theorem relaxed_leaf {decls : List (FieldDecl Val)} (h : isOk (deriveArgs Sample.cx none decls) = true)
    (hl : decls.all (fun x => match x with | .arg .. => true | _ => false) = true) :
    Relaxed Sample.cx (get (deriveArgs Sample.cx none decls)) (get (deriveArgs Sample.cx none decls)) := by
  refine .mk ?_ (get_ok h) (get_ok h)
  clear h
  induction decls with
  | nil => exact .nil
  | cons x ds ih =>
    simp only [List.all_cons, Bool.and_eq_true] at hl
    cases x with
    | arg i ty m => exact .arg (relaxedArg_refl m) (ih hl.2)
    | flatten => cases hl.1
    | subcommand => cases hl.1

theorem loose_relaxed : Relaxed Sample.cx cli loose := by
  refine .mk (ds := cliDecls) (ds' := looseDecls) ?_ (get_ok (by decide)) (get_ok (by decide))
  have hdrop : Relaxed Sample.cx drop looseDrop := by
    refine .mk (ds := dropDecls) (ds' := looseDropDecls) ?_ (get_ok (by decide)) (get_ok (by decide))
    refine .arg ?_ (.arg ?_ (.arg ?_ .nil)) <;> constructor <;> first | rfl | decide
  have hcmd : ChangedVariants (fun _ => RelaxedArg) Sample.cx cmd looseCmd :=
    .args (relaxed_leaf (by decide) (by decide)) (.args (relaxed_leaf (by decide) (by decide)) (.args hdrop (.unit .nil)))
  refine .arg ?_ (.arg ?_ (.arg ?_ (.arg ?_ (.arg ?_ (.arg ?_ (.arg ?_ (.arg ?_
    (.flatten (relaxed_leaf (by decide) (by decide)) (.subcommand hcmd (.arg ?_ .nil))))))))))
    <;> constructor <;> first | rfl | decide

/-- A command line and its result, before and after. -/
example : ∃ out, tryParseFrom cli [blit "app", blit "-v", blit "--level=3", blit "-c", blit "x", blit "--pattern", blit "-z", blit "drop", blit "--all"] = .ok out
    ∧ tryParseFrom loose [blit "app", blit "-v", blit "--level=3", blit "-c", blit "x", blit "--pattern", blit "-z", blit "drop", blit "--all"] = .ok out := by
  have h : isOk (tryParseFrom cli [blit "app", blit "-v", blit "--level=3", blit "-c", blit "x", blit "--pattern", blit "-z", blit "drop", blit "--all"]) = true := by
    decide +kernel
  cases hp : tryParseFrom cli [blit "app", blit "-v", blit "--level=3", blit "-c", blit "x", blit "--pattern", blit "-z", blit "drop", blit "--all"] with
  | error e => rw [hp] at h; cases h
  | ok out => exact ⟨out, rfl, C74_accepted cli_derived loose_derived loose_relaxed hp⟩

/-- The relaxed program accepts more. -/
example : failure (parse ["app", "--level", "3"]) ≠ none ∧ isOk (tryParseFrom loose [blit "app", blit "--level", blit "3"]) = true := by
  decide +kernel
example : failure (parse ["app", "drop", "--all", "-s"]) ≠ none
    ∧ isOk (tryParseFrom loose [blit "app", blit "drop", blit "--all", blit "-s"]) = true := by
  decide +kernel

/-- The program with other texts. -/
def shownDecls : List (FieldDecl Val) :=
  [ .arg (lit "all") .bool { long := some .inherit, exclusive := true, hide := true },
    .arg (lit "soft") .bool { short := some .inherit },
    .arg (lit "name") (.option string) { valueName := some (lit "WHAT") } ]

def shown : ArgsDef Val := get (deriveArgs Sample.cx none shownDecls)

example {toks : List Bytes} {out : Out Val} :
    tryParseFrom drop (blit "drop" :: toks) = .ok out ↔ tryParseFrom shown (blit "drop" :: toks) = .ok out := by
  refine C74_presentation (cx := Sample.cx) drop_derived (derived_leaf (by decide) (by decide)) ?_ ?_
  · refine .mk (ds := dropDecls) (ds' := shownDecls) ?_ (get_ok (by decide)) (get_ok (by decide))
    refine .arg ?_ (.arg ?_ (.arg ?_ .nil)) <;> constructor <;> first | rfl | decide
  · refine .mk (ds := shownDecls) (ds' := dropDecls) ?_ (get_ok (by decide)) (get_ok (by decide))
    refine .arg ?_ (.arg ?_ (.arg ?_ .nil)) <;> constructor <;> first | rfl | decide

end Sample

end Palc
