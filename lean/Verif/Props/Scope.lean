import Verif.SpecScope
import Verif.Props.MoreNames
/-!
# Making options global (C96)
-/

namespace Palc

open Spec

variable {V : Type} {cx : Cx V} {d d' : ArgsDef V} {argv0 : Bytes} {toks : List Bytes} {out : Out V}

theorem _root_.Palc.Spec.MadeGlobalArg.butNames {R : Name → Prop} {i : Str} {m m' : ArgMeta V} (h : MadeGlobalArg cx R i m m') :
    RelaxedButNames m m' := by
  rw [h.same]
  exact ⟨rfl, rfl, rfl, rfl, rfl, id, id, id, .inl, id, fun _ => id, fun _ => id⟩

theorem _root_.Palc.Spec.MadeGlobalArg.names {R : Name → Prop} {i : Str} {m m' : ArgMeta V} (h : MadeGlobalArg cx R i m m') :
    optionNames cx i m' = optionNames cx i m := by
  rw [h.same]
  rfl

instance {R : Name → Prop} : Relaxing (MadeGlobalArg cx R) := ⟨MadeGlobalArg.butNames⟩

instance {R : Name → Prop} : SameDefault (MadeGlobalArg cx R) := ⟨fun h => by rw [h.same]; exact ⟨rfl, rfl⟩⟩

theorem LooseField.declares_scope {R : Name → Prop} {f f' : FieldInfo V} (h : LooseField (.of (MadeGlobalArg cx R)) f f') (n : Name) :
    declares cx f' n = declares cx f n := by
  rw [Bool.eq_iff_iff, declares_names, declares_names, h.isOption, h.ident, h.src.names]

instance {R : Name → Prop} : Naming cx (.of (MadeGlobalArg cx R)) where
  kept _ h _ := h.declares_scope _
  scope h hg := (h.src.kept hg).1
  apart {f f' g g' n} h h' hg hn h1 h2 := by
    have hr : R n := (h.src.kept hg).2 n (declares_names.1 hn).2
    rw [h'.declares_scope, Bool.eq_false_iff]
    exact fun hx => h'.src.apart h1 h2 n (declares_names.1 hx).2 hr

/-- C96: a command line accepted by a program is accepted, with the same result, after making some of its options global which have no
names in common with those that were. -/
theorem C96_accepted (hd : DerivedArgs cx d) (hd' : DerivedArgs cx d') (h : MadeGlobal cx d d')
    (hok : tryParseFrom d (argv0 :: toks) = .ok out) : tryParseFrom d' (argv0 :: toks) = .ok out := by
  obtain ⟨R, h⟩ := h
  exact (C23_accepts_iff hd' argv0 toks out).2 (accepts_loose (changed_loose h) ((C23_accepts_iff hd argv0 toks out).1 hok))

/-- C96: a command line rejected after making options global was rejected before. -/
theorem C96_rejected (hd : DerivedArgs cx d) (hd' : DerivedArgs cx d') (h : MadeGlobal cx d d')
    {e : Fail} (hno : tryParseFrom d' (argv0 :: toks) = .error e) : ∃ e', tryParseFrom d (argv0 :: toks) = .error e' := by
  cases hp : tryParseFrom d (argv0 :: toks) with
  | error e' => exact ⟨e', rfl⟩
  | ok o => rw [C96_accepted hd hd' h hp] at hno; cases hno

namespace Sample

/-- The flattened struct of `Example.lean`, both options being global. -/
def scopeOutputDecls : List (FieldDecl Val) :=
  [ .arg (lit "quiet") .bool { short := some .inherit, long := some .inherit, global := true },
    .arg (lit "format") (.option format) { short := some .inherit, long := some .inherit, ignoreCase := true, global := true } ]

def scopeOutput : ArgsDef Val := get (deriveArgs Sample.cx none scopeOutputDecls)

/-- The program of `Example.lean`, where also `--jobs`, `--color` and the options of the flattened struct are global. -/
def scopeDecls : List (FieldDecl Val) :=
  [ .arg (lit "verbose") .bool { short := some .inherit, long := some .inherit, global := true },
    .arg (lit "config") (.option string)
      { short := some (.explicit 'c'), long := some .inherit, alias := [lit "cfg"], global := true },
    .arg (lit "jobs") number { short := some .inherit, long := some .inherit, defaultValue := some (lit "1"), global := true },
    .arg (lit "define") (.vec string) { short := some (.explicit 'D'), valueDelimiter := some ',' },
    .arg (lit "color") (.option (.option string)) { long := some .inherit, requireEquals := true, global := true },
    .arg (lit "level") (.option number) { long := some .inherit, requireEquals := true },
    .arg (lit "offset") (.option number)
      { long := some .inherit, allowNegativeNumbers := true, conflictsWith := [lit "level"] },
    .arg (lit "pattern") (.option string)
      { long := some .inherit, allowHyphenValues := true, requires := [lit "config"] },
    .flatten (lit "output") scopeOutput,
    .subcommand (lit "cmd") true cmd,
    .arg (lit "file") (.option string) {} ]

def scope : ArgsDef Val := get (deriveArgs Sample.cx none scopeDecls)

theorem scopeOutput_derived : DerivedArgs Sample.cx scopeOutput := derived_leaf (by decide) (by decide)

theorem scope_derived : DerivedArgs Sample.cx scope := by
  refine .mk none scopeDecls ?_ ?_ (get_ok (by decide))
  · intro i d hm
    simp only [scopeDecls, List.mem_cons, FieldDecl.flatten.injEq, reduceCtorEq, List.not_mem_nil, or_false, false_or] at hm
    obtain ⟨_, rfl⟩ := hm
    exact scopeOutput_derived
  · intro i o vs hm
    simp only [scopeDecls, List.mem_cons, FieldDecl.subcommand.injEq, reduceCtorEq, List.not_mem_nil, or_false, false_or] at hm
    obtain ⟨_, _, rfl⟩ := hm
    exact cmd_derived

/-- The names of the options that were global. -/
def reserved : List Name := [.long (lit "verbose"), .short 'v', .long (lit "config"), .long (lit "cfg"), .short 'c']

theorem scope_madeGlobal : MadeGlobal Sample.cx cli scope := by
  refine ⟨(· ∈ reserved), ?_⟩
  have houtput : Changed (MadeGlobalArg Sample.cx (· ∈ reserved)) Sample.cx output scopeOutput := by
    refine .mk (ds := outputDecls) (ds' := scopeOutputDecls) ?_ (get_ok (by decide)) (get_ok (by decide))
    refine .arg ?_ (.arg ?_ .nil) <;> refine ⟨rfl, ?_, ?_⟩ <;> decide
  have hadd : Changed (MadeGlobalArg Sample.cx (· ∈ reserved)) Sample.cx add add := by
    refine .mk (ds := addDecls) (ds' := addDecls) ?_ (get_ok (by decide)) (get_ok (by decide))
    refine .arg ?_ (.arg ?_ (.arg ?_ .nil)) <;> refine ⟨rfl, ?_, ?_⟩ <;> decide
  have hrun : Changed (MadeGlobalArg Sample.cx (· ∈ reserved)) Sample.cx run run := by
    refine .mk (ds := runDecls) (ds' := runDecls) ?_ (get_ok (by decide)) (get_ok (by decide))
    refine .arg ?_ (.arg ?_ .nil) <;> refine ⟨rfl, ?_, ?_⟩ <;> decide
  have hdrop : Changed (MadeGlobalArg Sample.cx (· ∈ reserved)) Sample.cx drop drop := by
    refine .mk (ds := dropDecls) (ds' := dropDecls) ?_ (get_ok (by decide)) (get_ok (by decide))
    refine .arg ?_ (.arg ?_ (.arg ?_ .nil)) <;> refine ⟨rfl, ?_, ?_⟩ <;> decide
  refine .mk (ds := cliDecls) (ds' := scopeDecls) ?_ (get_ok (by decide)) (get_ok (by decide))
  have hcmd : ChangedVariants (MadeGlobalArg Sample.cx (· ∈ reserved)) Sample.cx cmd cmd :=
    .args hadd (.args hrun (.args hdrop (.unit .nil)))
  refine .arg ?_ (.arg ?_ (.arg ?_ (.arg ?_ (.arg ?_ (.arg ?_ (.arg ?_ (.arg ?_
    (.flatten houtput (.subcommand hcmd (.arg ?_ .nil))))))))))
    <;> refine ⟨rfl, ?_, ?_⟩ <;> decide

/-- Every command line accepted before is accepted, with the same result; also where the subcommand `add` has a `-f` of its own. -/
example {toks : List Bytes} {out : Out Val} (h : tryParseFrom cli (blit "app" :: toks) = .ok out) :
    tryParseFrom scope (blit "app" :: toks) = .ok out :=
  C96_accepted cli_derived scope_derived scope_madeGlobal h

/-- There are such command lines, and others where the new global options follow the subcommand. -/
example : isOk (parse ["app", "-q", "-f", "json", "add", "-f", "-v", "x"]) = true
    ∧ failure (parse ["app", "add", "-q", "--jobs=3", "--color", "x"]) ≠ none
    ∧ value (tryParseFrom scope [blit "app", blit "add", blit "-q", blit "--jobs=3", blit "--color", blit "x"]) ["jobs"]
      = some (.value (lit "3")) := by
  decide +kernel

example {toks : List Bytes} {e : Fail} (h : tryParseFrom scope (blit "app" :: toks) = .error e) :
    ∃ e', tryParseFrom cli (blit "app" :: toks) = .error e' :=
  C96_rejected cli_derived scope_derived scope_madeGlobal h
example : failure (tryParseFrom scope [blit "app", blit "add", blit "--level=3", blit "x"]) ≠ none := by decide +kernel

/-- A subcommand with a subcommand and an option `--level`, global or not. -/
def middleDecls (g : Bool) : List (FieldDecl Val) :=
  [ .arg (lit "level") (.option string) { long := some .inherit, global := g },
    .subcommand (lit "sub") true (deriveSub Sample.cx [.unit (lit "B") none]) ]

def middle (g : Bool) : ArgsDef Val := get (deriveArgs Sample.cx none (middleDecls g))

/-- A program with that subcommand and a global `--level`. -/
def aboveDecls (g : Bool) : List (FieldDecl Val) :=
  [ .arg (lit "level") (.option string) { long := some .inherit, global := true },
    .subcommand (lit "cmd") true (deriveSub Sample.cx [.args (lit "A") (middle g)]) ]

def above (g : Bool) : ArgsDef Val := get (deriveArgs Sample.cx none (aboveDecls g))

theorem middle_derived {g : Bool} (h : isOk (deriveArgs Sample.cx none (middleDecls g)) = true) : DerivedArgs Sample.cx (middle g) := by
  refine .mk none (middleDecls g) ?_ ?_ (get_ok h)
  · intro i d hm
    simp only [middleDecls, List.mem_cons, reduceCtorEq, List.not_mem_nil, or_false] at hm
  · intro i o vs hm
    simp only [middleDecls, List.mem_cons, FieldDecl.subcommand.injEq, reduceCtorEq, List.not_mem_nil, or_false, false_or] at hm
    obtain ⟨_, _, rfl⟩ := hm
    refine .mk _ ?_ rfl
    intro i d hm
    simp only [List.mem_cons, reduceCtorEq, List.not_mem_nil, or_false] at hm

theorem above_derived {g : Bool} (h : isOk (deriveArgs Sample.cx none (middleDecls g)) = true)
    (h' : isOk (deriveArgs Sample.cx none (aboveDecls g)) = true) : DerivedArgs Sample.cx (above g) := by
  refine .mk none (aboveDecls g) ?_ ?_ (get_ok h')
  · intro i d hm
    simp only [aboveDecls, List.mem_cons, reduceCtorEq, List.not_mem_nil, or_false] at hm
  · intro i o vs hm
    simp only [aboveDecls, List.mem_cons, FieldDecl.subcommand.injEq, reduceCtorEq, List.not_mem_nil, or_false, false_or] at hm
    obtain ⟨_, _, rfl⟩ := hm
    refine .mk [.args (lit "A") (middle g)] ?_ rfl
    intro i d hm
    simp only [List.mem_cons, VariantDecl.args.injEq, List.not_mem_nil, or_false] at hm
    rw [hm.2]
    exact middle_derived h

end Sample

/-- C96: an option that has a name in common with a global option of an enclosing command must not be made global: it takes the name
from it in its subcommands. -/
theorem C96_taken : DerivedArgs Sample.cx (Sample.above false) ∧ DerivedArgs Sample.cx (Sample.above true)
    ∧ Sample.value (tryParseFrom (Sample.above false) [blit "app", blit "a", blit "b", blit "--level=3"]) ["level"] = some (.option (some (lit "3")))
    ∧ Sample.value (tryParseFrom (Sample.above true) [blit "app", blit "a", blit "b", blit "--level=3"]) ["level"] = some (.option none) :=
  ⟨Sample.above_derived (by decide) (by decide), Sample.above_derived (by decide) (by decide), by decide +kernel, by decide +kernel⟩

end Palc
