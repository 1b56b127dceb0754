import Verif.Lemmas.AnyStd
import Verif.Example
/-!
# What the standard library leaves open does not matter (C91)

`sort_unstable_by` and `binary_search_by_key` are documented by contracts that allow several results.  `tryParseFromS std` is the
library on top of functions `std` of which nothing but these contracts (`StdLib.Meets`) is known.
-/

namespace Palc

open Spec

variable {V : Type} {cx : Cx V} {d : ArgsDef V}

/-- C91: with any standard library that keeps its promises every command line has the same result, if variants of the same enum have
different names. -/
theorem C91_any_std (hd : DerivedArgs cx d) (hn : DistinctSubs d) {std : StdLib} (hm : std.Meets) (argv : List Bytes) :
    tryParseFromS std d argv = tryParseFrom d argv := tryParse_any hm hd.wf hn argv

/-- C91: for a program without subcommands no condition is needed, since names of options that collide are rejected by the macros. -/
theorem C91_no_subcommands (hd : DerivedArgs cx d) (hs : subOf d = .none) {std : StdLib} (hm : std.Meets) (argv : List Bytes) :
    tryParseFromS std d argv = tryParseFrom d argv := by
  exact tryParse_any hm hd.wf (flat_distinct d hd.wf hs) argv

namespace Sample

/-- The functions used by the model. -/
def modelStd : StdLib := { sortUnstable := sortByKey (fun e => enc e.1), search := binarySearch }

/-- Another library: the search goes from the start to the end. -/
def linearStd : StdLib := { sortUnstable := sortByKey (fun e => enc e.1), search := fun keys k => keys.findIdx? (· == k) }

/-- Another one: sorting reverses equal elements, searching takes the last match. -/
def lateStd : StdLib :=
  { sortUnstable := fun l => sortByKey (fun e => enc e.1) l.reverse
    search := fun keys k => (keys.reverse.findIdx? (· == k)).map (fun i => keys.length - 1 - i) }

theorem modelStd_meets : modelStd.Meets where
  perm := sortByKey_perm _
  sorted := sortByKey_sorted (fun e : Str × Nat => enc e.1)
  found _ _ _ _ h := binarySearch_some h
  missing keys k hs h := by
    intro hk
    have := binarySearch_isSome hs hk
    rw [show binarySearch keys k = none from h] at this
    cases this

theorem findIdx_get {keys : List Bytes} {k : Bytes} {i : Nat} (h : keys.findIdx? (· == k) = some i) : keys[i]? = some k := by
  obtain ⟨hi, h1, _⟩ := List.findIdx?_eq_some_iff_getElem.1 h
  rw [List.getElem?_eq_getElem hi]
  exact congrArg some (by simpa using h1)

theorem findIdx_none {keys : List Bytes} {k : Bytes} (h : keys.findIdx? (· == k) = none) : k ∉ keys := by
  intro hk
  have := List.findIdx?_eq_none_iff.1 h k hk
  simp at this

theorem linearStd_meets : linearStd.Meets where
  perm := sortByKey_perm _
  sorted := sortByKey_sorted (fun e : Str × Nat => enc e.1)
  found _ _ _ _ h := findIdx_get h
  missing _ _ _ h := findIdx_none h

theorem lateStd_meets : lateStd.Meets where
  perm l := (sortByKey_perm _ _).trans l.reverse_perm
  sorted l := sortByKey_sorted (fun e : Str × Nat => enc e.1) l.reverse
  found keys k i _ h := by
    obtain ⟨j, hj, rfl⟩ := Option.map_eq_some_iff.1 h
    have h1 := findIdx_get hj
    have hl : j < keys.length := by
      have := (List.getElem?_eq_some_iff.1 h1).1
      rwa [List.length_reverse] at this
    rwa [List.getElem?_reverse hl] at h1
  missing keys k _ h := by
    have := findIdx_none (Option.map_eq_none_iff.1 h)
    rwa [List.mem_reverse] at this

theorem cli_distinct : DistinctSubs cli := by
  have h : cmd.names.Nodup := by decide +kernel
  exact ⟨⟨⟨trivial, trivial⟩, trivial⟩, h, ⟨trivial, trivial⟩, ⟨trivial, trivial⟩, ⟨trivial, trivial⟩, trivial, trivial⟩

/-- Two unit variants whose names collide, and a struct with them. -/
def collideDecls : List (VariantDecl Val) := [.unit (lit "Foo_Bar") none, .unit (lit "Foo_bar") none]
def collide : ArgsDef Val := get (deriveArgs Sample.cx none [.subcommand (lit "cmd") true (deriveSub Sample.cx collideDecls)])

theorem collide_derived : DerivedArgs Sample.cx collide := by
  refine .mk none [.subcommand (lit "cmd") true (deriveSub Sample.cx collideDecls)] ?_ ?_ (get_ok (by decide))
  · intro i d hm; simp at hm
  · intro i o vs hm
    simp only [List.mem_cons, FieldDecl.subcommand.injEq, List.not_mem_nil, or_false] at hm
    obtain ⟨_, _, rfl⟩ := hm
    exact .mk _ (by simp [collideDecls]) rfl

/-- The variant of the subcommand in a result. -/
def chosen : R (Out Val) → Option Str
  | .ok (.struct [(_, .optSub (some (.variant n _)))]) => some n
  | _ => none

end Sample

/-- C91: without the condition on names it fails: the macros accept two variants of the same name (finding 2), and which of them is meant
depends on the standard library. -/
theorem C91_collision : ∃ (d : ArgsDef Sample.Val) (std std' : StdLib) (argv : List Bytes), DerivedArgs Sample.cx d ∧ std.Meets ∧ std'.Meets
    ∧ tryParseFromS std d argv ≠ tryParseFromS std' d argv := by
  refine ⟨Sample.collide, Sample.linearStd, Sample.modelStd, [blit "p", blit "foo-bar"], Sample.collide_derived, Sample.linearStd_meets,
    Sample.modelStd_meets, fun h => ?_⟩
  have := congrArg Sample.chosen h
  revert this
  decide +kernel

/-- The theorem applies to libraries that differ from the model. -/
example (argv : List Bytes) : tryParseFromS Sample.lateStd Sample.cli argv = tryParseFrom Sample.cli argv :=
  C91_any_std Sample.cli_derived Sample.cli_distinct Sample.lateStd_meets argv

/-- They do differ: on a table with two equal names. -/
example : Sample.lateStd.sortUnstable [(lit "b", 0), (lit "a", 1), (lit "b", 2)] = [(lit "a", 1), (lit "b", 2), (lit "b", 0)]
    ∧ Sample.modelStd.sortUnstable [(lit "b", 0), (lit "a", 1), (lit "b", 2)] = [(lit "a", 1), (lit "b", 0), (lit "b", 2)]
    ∧ Sample.linearStd.search [blit "a", blit "b", blit "b"] (blit "b") = some 1
    ∧ Sample.lateStd.search [blit "a", blit "b", blit "b"] (blit "b") = some 2 := by decide +kernel

/-- A command line with a subcommand, on a library that searches differently. -/
example : Sample.value (tryParseFromS Sample.linearStd Sample.cli [blit "p", blit "--cfg=a", blit "add", blit "x"]) ["config"]
    = some (.option (some (lit "a"))) := by decide +kernel

/-- A struct without subcommands. -/
example (argv : List Bytes) : tryParseFromS Sample.linearStd Sample.add argv = tryParseFrom Sample.add argv :=
  C91_no_subcommands Sample.add_derived rfl Sample.linearStd_meets argv

end Palc
