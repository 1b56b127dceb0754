import Verif.SpecMoreNames
import Verif.Props.Relax
/-!
# Giving arguments more names (C95)
-/

namespace Palc

open Spec

variable {V : Type} {cx : Cx V} {d d' : ArgsDef V} {argv0 : Bytes} {toks : List Bytes} {out : Out V}

theorem declares_names {f : FieldInfo V} {n : Name} :
    declares cx f n = true ↔ isOption f = true ∧ n ∈ optionNames cx f.ident f.src := by
  cases n <;> simp [declares, optionNames, longNames, shortNames] <;> exact fun _ => Iff.rfl

instance {Old : Name → Prop} : Relaxing (MoreNamesArg cx Old) := ⟨fun h => h.toRelaxedButNames⟩

instance {Old : Name → Prop} : Naming cx (.of (MoreNamesArg cx Old)) where
  kept {f f' g g' n} h h' hn := by
    have ho : Old n := h.src.inUse n (declares_names.1 hn).2
    rw [Bool.eq_iff_iff, declares_names, declares_names, h'.ident]
    have hi : isOption g' = isOption g := h'.src.named
    rw [hi]
    refine and_congr_right fun _ => ⟨fun hx => ?_, fun hx => h'.src.kept n hx⟩
    rcases h'.src.fresh n hx with hx | hx
    · exact hx
    · exact (hx ho).elim
  scope h hg := by rw [h.src.global, hg]
  apart _ h _ _ h1 h2 := by rw [h.src.global, h1] at h2; cases h2

instance {Old : Name → Prop} : SameDefault (MoreNamesArg cx Old) := ⟨fun h => ⟨h.defaultValue, h.defaultValueT⟩⟩

/-- C95: a command line accepted by a program is accepted, with the same result, after giving its arguments names which are new to
the program. -/
theorem C95_accepted (hd : DerivedArgs cx d) (hd' : DerivedArgs cx d') (h : MoreNames cx d d')
    (hok : tryParseFrom d (argv0 :: toks) = .ok out) : tryParseFrom d' (argv0 :: toks) = .ok out := by
  obtain ⟨Old, h⟩ := h
  exact (C23_accepts_iff hd' argv0 toks out).2 (accepts_loose (changed_loose h) ((C23_accepts_iff hd argv0 toks out).1 hok))

/-- C95: a command line rejected after giving arguments new names was rejected before. -/
theorem C95_rejected (hd : DerivedArgs cx d) (hd' : DerivedArgs cx d') (h : MoreNames cx d d')
    {e : Fail} (hno : tryParseFrom d' (argv0 :: toks) = .error e) : ∃ e', tryParseFrom d (argv0 :: toks) = .error e' := by
  cases hp : tryParseFrom d (argv0 :: toks) with
  | error e' => exact ⟨e', rfl⟩
  | ok o => rw [C95_accepted hd hd' h hp] at hno; cases hno

namespace Sample

/-- The names in use in the program of `Example.lean`. -/
def inUse : List Name :=
  [.long (lit "verbose"), .short 'v', .long (lit "config"), .long (lit "cfg"), .short 'c', .long (lit "jobs"), .short 'j', .short 'D',
   .long (lit "color"), .long (lit "level"), .long (lit "offset"), .long (lit "pattern"), .long (lit "quiet"), .short 'q',
   .long (lit "format"), .short 'f', .long (lit "force"), .long (lit "all"), .short 's']

/-- The flattened struct, `--quiet` having an alias. -/
def aliasedOutputDecls : List (FieldDecl Val) :=
  [ .arg (lit "quiet") .bool { short := some .inherit, long := some .inherit, alias := [lit "silent"] },
    .arg (lit "format") (.option format) { short := some .inherit, long := some .inherit, ignoreCase := true } ]

def aliasedOutput : ArgsDef Val := get (deriveArgs Sample.cx none aliasedOutputDecls)

/-- `drop`, whose `-s` can be written `--soft`. -/
def aliasedDropDecls : List (FieldDecl Val) :=
  [ .arg (lit "all") .bool { long := some .inherit, exclusive := true },
    .arg (lit "soft") .bool { short := some .inherit, long := some .inherit },
    .arg (lit "name") (.option string) {} ]

def aliasedDrop : ArgsDef Val := get (deriveArgs Sample.cx none aliasedDropDecls)

def aliasedCmd : Variants Val :=
  deriveSub Sample.cx [.args (lit "Add") add, .args (lit "Run") run, .args (lit "Drop") aliasedDrop, .unit (lit "Status") none]

/-- The program of `Example.lean`, where `--color` is now called `--colour` (the old name being an alias), `-D` can be written
`--define` or `-d`, and `--level` has a short name. -/
def aliasedDecls : List (FieldDecl Val) :=
  [ .arg (lit "verbose") .bool { short := some .inherit, long := some .inherit, global := true },
    .arg (lit "config") (.option string)
      { short := some (.explicit 'c'), long := some .inherit, alias := [lit "cfg"], global := true },
    .arg (lit "jobs") number { short := some .inherit, long := some .inherit, defaultValue := some (lit "1") },
    .arg (lit "define") (.vec string) { short := some (.explicit 'D'), shortAlias := ['d'], long := some .inherit, valueDelimiter := some ',' },
    .arg (lit "color") (.option (.option string)) { long := some (.explicit (lit "colour")), alias := [lit "color"], requireEquals := true },
    .arg (lit "level") (.option number) { long := some .inherit, short := some .inherit, requireEquals := true },
    .arg (lit "offset") (.option number)
      { long := some .inherit, allowNegativeNumbers := true, conflictsWith := [lit "level"] },
    .arg (lit "pattern") (.option string)
      { long := some .inherit, allowHyphenValues := true, requires := [lit "config"] },
    .flatten (lit "output") aliasedOutput,
    .subcommand (lit "cmd") true aliasedCmd,
    .arg (lit "file") (.option string) {} ]

def aliased : ArgsDef Val := get (deriveArgs Sample.cx none aliasedDecls)

theorem aliasedDrop_derived : DerivedArgs Sample.cx aliasedDrop := derived_leaf (by decide) (by decide)
theorem aliasedOutput_derived : DerivedArgs Sample.cx aliasedOutput := derived_leaf (by decide) (by decide)

theorem aliasedCmd_derived : DerivedVariants Sample.cx aliasedCmd := by
  refine .mk _ ?_ rfl
  intro i d hm
  simp only [List.mem_cons, VariantDecl.args.injEq, reduceCtorEq, List.not_mem_nil, or_false] at hm
  rcases hm with ⟨_, rfl⟩ | ⟨_, rfl⟩ | ⟨_, rfl⟩
  · exact add_derived
  · exact run_derived
  · exact aliasedDrop_derived

theorem aliased_derived : DerivedArgs Sample.cx aliased := by
  refine .mk none aliasedDecls ?_ ?_ (get_ok (by decide))
  · intro i d hm
    simp only [aliasedDecls, List.mem_cons, FieldDecl.flatten.injEq, reduceCtorEq, List.not_mem_nil, or_false, false_or] at hm
    obtain ⟨_, rfl⟩ := hm
    exact aliasedOutput_derived
  · intro i o vs hm
    simp only [aliasedDecls, List.mem_cons, FieldDecl.subcommand.injEq, reduceCtorEq, List.not_mem_nil, or_false, false_or] at hm
    obtain ⟨_, _, rfl⟩ := hm
    exact aliasedCmd_derived

theorem aliased_moreNames : MoreNames Sample.cx cli aliased := by
  refine ⟨(· ∈ inUse), ?_⟩
  have hdrop : Changed (MoreNamesArg Sample.cx (· ∈ inUse)) Sample.cx drop aliasedDrop := by
    refine .mk (ds := dropDecls) (ds' := aliasedDropDecls) ?_ (get_ok (by decide)) (get_ok (by decide))
    refine .arg ?_ (.arg ?_ (.arg ?_ .nil)) <;> refine ⟨?_, ?_, ?_, ?_, ?_, ?_, ?_⟩ <;> first | rfl | decide | (constructor <;> first | rfl | decide)
  have houtput : Changed (MoreNamesArg Sample.cx (· ∈ inUse)) Sample.cx output aliasedOutput := by
    refine .mk (ds := outputDecls) (ds' := aliasedOutputDecls) ?_ (get_ok (by decide)) (get_ok (by decide))
    refine .arg ?_ (.arg ?_ .nil) <;> refine ⟨?_, ?_, ?_, ?_, ?_, ?_, ?_⟩ <;> first | rfl | decide | (constructor <;> first | rfl | decide)
  have hadd : Changed (MoreNamesArg Sample.cx (· ∈ inUse)) Sample.cx add add := by
    refine .mk (ds := addDecls) (ds' := addDecls) ?_ (get_ok (by decide)) (get_ok (by decide))
    refine .arg ?_ (.arg ?_ (.arg ?_ .nil)) <;> refine ⟨?_, ?_, ?_, ?_, ?_, ?_, ?_⟩ <;> first | rfl | decide | (constructor <;> first | rfl | decide)
  have hrun : Changed (MoreNamesArg Sample.cx (· ∈ inUse)) Sample.cx run run := by
    refine .mk (ds := runDecls) (ds' := runDecls) ?_ (get_ok (by decide)) (get_ok (by decide))
    refine .arg ?_ (.arg ?_ .nil) <;> refine ⟨?_, ?_, ?_, ?_, ?_, ?_, ?_⟩ <;> first | rfl | decide | (constructor <;> first | rfl | decide)
  refine .mk (ds := cliDecls) (ds' := aliasedDecls) ?_ (get_ok (by decide)) (get_ok (by decide))
  have hcmd : ChangedVariants (MoreNamesArg Sample.cx (· ∈ inUse)) Sample.cx cmd aliasedCmd :=
    .args hadd (.args hrun (.args hdrop (.unit .nil)))
  refine .arg ?_ (.arg ?_ (.arg ?_ (.arg ?_ (.arg ?_ (.arg ?_ (.arg ?_ (.arg ?_
    (.flatten houtput (.subcommand hcmd (.arg ?_ .nil))))))))))
    <;> refine ⟨?_, ?_, ?_, ?_, ?_, ?_, ?_⟩ <;> first | rfl | decide | (constructor <;> first | rfl | decide)

/-- Every command line accepted before is accepted, with the same result. -/
example {toks : List Bytes} {out : Out Val} (h : tryParseFrom cli (blit "app" :: toks) = .ok out) :
    tryParseFrom aliased (blit "app" :: toks) = .ok out :=
  C95_accepted cli_derived aliased_derived aliased_moreNames h

/-- There are such command lines, and others with the new names. -/
example : isOk (parse ["app", "--color=x", "-Da,b", "--level=3", "-q", "drop", "-s"]) = true
    ∧ failure (parse ["app", "--colour=x", "--define", "a,b", "-l=3", "--silent", "drop", "--soft"]) ≠ none
    ∧ isOk (tryParseFrom aliased [blit "app", blit "--colour=x", blit "--define", blit "a,b", blit "-l=3", blit "--silent", blit "drop", blit "--soft"])
      = true := by
  decide +kernel

/-- What is still rejected was rejected before. -/
example {toks : List Bytes} {e : Fail} (h : tryParseFrom aliased (blit "app" :: toks) = .error e) :
    ∃ e', tryParseFrom cli (blit "app" :: toks) = .error e' :=
  C95_rejected cli_derived aliased_derived aliased_moreNames h
example : failure (tryParseFrom aliased [blit "app", blit "--couleur=x"]) ≠ none := by decide +kernel

/-- Two programs with a flattened `--format`, where in the second `--color` has the alias `format`. -/
def takenDecls (al : List Str) : List (FieldDecl Val) :=
  [ .arg (lit "color") (.option string) { long := some .inherit, alias := al }, .flatten (lit "output") output ]

def taken (al : List Str) : ArgsDef Val := get (deriveArgs Sample.cx none (takenDecls al))

theorem taken_derived {al : List Str} (h : isOk (deriveArgs Sample.cx none (takenDecls al)) = true) : DerivedArgs Sample.cx (taken al) := by
  refine .mk none (takenDecls al) ?_ ?_ (get_ok h)
  · intro i d hm
    simp only [takenDecls, List.mem_cons, FieldDecl.flatten.injEq, reduceCtorEq, List.not_mem_nil, or_false, false_or] at hm
    obtain ⟨_, rfl⟩ := hm
    exact output_derived
  · intro i o vs hm
    simp only [takenDecls, List.mem_cons, reduceCtorEq, List.not_mem_nil, or_false] at hm

end Sample

/-- C95: the names have to be new to the whole program: an alias which is the name of an argument of a flattened struct takes the
name from it, without an error from the derive macro. -/
theorem C95_shadow : DerivedArgs Sample.cx (Sample.taken []) ∧ DerivedArgs Sample.cx (Sample.taken [lit "format"])
    ∧ Sample.value (tryParseFrom (Sample.taken []) [blit "app", blit "--format=json"]) ["color"] = some (.option none)
    ∧ Sample.value (tryParseFrom (Sample.taken [lit "format"]) [blit "app", blit "--format=json"]) ["color"] = some (.option (some (lit "json"))) :=
  ⟨Sample.taken_derived (by decide), Sample.taken_derived (by decide), by decide +kernel, by decide +kernel⟩

end Palc
