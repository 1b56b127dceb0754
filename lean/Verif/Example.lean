import Verif.Lemmas.DeriveWF
import Verif.Lemmas.Run
/-!
# A sample CLI

A definition using most features, for the examples beside the property theorems:

```
#[derive(Parser)]
struct Cli {
    #[arg(short, long, global = true)] verbose: bool,
    #[arg(short = 'c', long, alias = "cfg", global = true)] config: Option<String>,
    #[arg(short, long, default_value = "1")] jobs: Number,
    #[arg(short = 'D', value_delimiter = ',')] define: Vec<String>,
    #[arg(long, require_equals = true)] color: Option<Option<String>>,
    #[arg(long, require_equals = true)] level: Option<Number>,
    #[arg(long, allow_negative_numbers = true, conflicts_with = "level")] offset: Option<Number>,
    #[arg(long, allow_hyphen_values = true, requires = "config")] pattern: Option<String>,
    #[command(flatten)] output: OutputArgs,
    #[command(subcommand)] cmd: Option<Cmd>,
    file: Option<String>,
}
#[derive(Args)]
struct OutputArgs {
    #[arg(short, long)] quiet: bool,
    #[arg(short, long, ignore_case = true)] format: Option<Format>,
}
#[derive(Subcommand)]
enum Cmd {
    Add { #[arg(short, long)] force: bool, #[arg(required = true)] paths: Vec<String>,
          #[arg(last = true)] rest: Vec<String> },
    Run { prog: String, #[arg(trailing_var_arg = true)] args: Vec<String> },
    Drop { #[arg(long, exclusive = true)] all: bool, #[arg(short)] soft: bool, name: Option<String> },
    Status,
}
```
-/

namespace Palc.Sample

/-- Values are kept as text. -/
abbrev Val := Str

/-- Converts identifiers for the sample: lower case, '_' becomes '-'. -/
def kebab (s : Str) : Str := s.map (fun c => if c = '_' then '-' else if 'A' ≤ c ∧ c ≤ 'Z' then Char.ofNat (c.toNat + 32) else c)

/-- Converts identifiers for the sample: upper case. -/
def shouty (s : Str) : Str := s.map (fun c => if 'a' ≤ c ∧ c ≤ 'z' then Char.ofNat (c.toNat - 32) else c)

def cx : Cx Val := { kebab := kebab, shoutySnake := shouty, boolFromStr := fun s => .ok s }

/-- `String`. -/
def string : Ty Val := .other { fromStr := some (fun s => .ok s) }

/-- A number: an optional '-' and digits. -/
def numberOf (s : Str) : Except Str Val :=
  let ds := match s with
    | '-' :: r => r
    | _ => s
  if ds ≠ [] ∧ ds.all (fun c => '0' ≤ c ∧ c ≤ '9') then .ok s else .error (lit "invalid digit found in string")

def number : Ty Val := .other { fromStr := some numberOf }

/-- `enum Format { Json, Text }`. -/
def formatEnum : EnumDef Val :=
  { arms := [(lit "json", lit "Json"), (lit "text", lit "Text")]
    possibleInputsNul := packNul [lit "json", lit "text"]
    noUpperCase := true }

def format : Ty Val := .other { valueEnum := some formatEnum }

def outputDecls : List (FieldDecl Val) :=
  [ .arg (lit "quiet") .bool { short := some .inherit, long := some .inherit },
    .arg (lit "format") (.option format) { short := some .inherit, long := some .inherit, ignoreCase := true } ]

def addDecls : List (FieldDecl Val) :=
  [ .arg (lit "force") .bool { short := some .inherit, long := some .inherit },
    .arg (lit "paths") (.vec string) { required := true },
    .arg (lit "rest") (.vec string) { last := true } ]

def runDecls : List (FieldDecl Val) :=
  [ .arg (lit "prog") string {},
    .arg (lit "args") (.vec string) { trailingVarArg := true } ]

def dropDecls : List (FieldDecl Val) :=
  [ .arg (lit "all") .bool { long := some .inherit, exclusive := true },
    .arg (lit "soft") .bool { short := some .inherit },
    .arg (lit "name") (.option string) {} ]

/-- The definition accepted by the derive (a dummy if it is rejected). -/
def get (r : Except (List DeriveError) (ArgsDef Val)) : ArgsDef Val :=
  match r with
  | .ok d => d
  | .error _ => .mk { fields := [], namedCnt := 0, cmdMeta := none } .nil .none

/-- Was it accepted? -/
def isOk {ε α : Type} : Except ε α → Bool
  | .ok _ => true
  | .error _ => false

theorem get_ok {r : Except (List DeriveError) (ArgsDef Val)} (h : isOk r = true) : r = .ok (get r) := by
  cases r with
  | ok d => rfl
  | error e => simp [isOk] at h

def output : ArgsDef Val := get (deriveArgs cx none outputDecls)
def add : ArgsDef Val := get (deriveArgs cx none addDecls)
def run : ArgsDef Val := get (deriveArgs cx none runDecls)
def drop : ArgsDef Val := get (deriveArgs cx none dropDecls)

def cmdDecls : List (VariantDecl Val) :=
  [.args (lit "Add") add, .args (lit "Run") run, .args (lit "Drop") drop, .unit (lit "Status") none]

def cmd : Variants Val := deriveSub cx cmdDecls

def cliDecls : List (FieldDecl Val) :=
  [ .arg (lit "verbose") .bool { short := some .inherit, long := some .inherit, global := true },
    .arg (lit "config") (.option string)
      { short := some (.explicit 'c'), long := some .inherit, alias := [lit "cfg"], global := true },
    .arg (lit "jobs") number { short := some .inherit, long := some .inherit, defaultValue := some (lit "1") },
    .arg (lit "define") (.vec string) { short := some (.explicit 'D'), valueDelimiter := some ',' },
    .arg (lit "color") (.option (.option string)) { long := some .inherit, requireEquals := true },
    .arg (lit "level") (.option number) { long := some .inherit, requireEquals := true },
    .arg (lit "offset") (.option number)
      { long := some .inherit, allowNegativeNumbers := true, conflictsWith := [lit "level"] },
    .arg (lit "pattern") (.option string)
      { long := some .inherit, allowHyphenValues := true, requires := [lit "config"] },
    .flatten (lit "output") output,
    .subcommand (lit "cmd") true cmd,
    .arg (lit "file") (.option string) {} ]

def cli : ArgsDef Val := get (deriveArgs cx none cliDecls)

theorem derived_leaf {decls : List (FieldDecl Val)} (h : isOk (deriveArgs cx none decls) = true)
    (hl : decls.all (fun x => match x with | .arg .. => true | _ => false) = true) :
    DerivedArgs cx (get (deriveArgs cx none decls)) := by
  rw [List.all_eq_true] at hl
  refine .mk none decls ?_ ?_ (get_ok h)
  · intro i d hm; have := hl _ hm; simp at this
  · intro i o vs hm; have := hl _ hm; simp at this

theorem output_derived : DerivedArgs cx output := derived_leaf (by decide) (by decide)
theorem add_derived : DerivedArgs cx add := derived_leaf (by decide) (by decide)
theorem run_derived : DerivedArgs cx run := derived_leaf (by decide) (by decide)
theorem drop_derived : DerivedArgs cx drop := derived_leaf (by decide) (by decide)

theorem cmd_derived : DerivedVariants cx cmd := by
  refine .mk cmdDecls ?_ rfl
  intro i d hm
  simp only [cmdDecls, List.mem_cons, VariantDecl.args.injEq, reduceCtorEq, List.not_mem_nil, or_false] at hm
  rcases hm with ⟨_, rfl⟩ | ⟨_, rfl⟩ | ⟨_, rfl⟩
  · exact add_derived
  · exact run_derived
  · exact drop_derived

theorem cli_derived : DerivedArgs cx cli := by
  refine .mk none cliDecls ?_ ?_ (get_ok (by decide))
  · intro i d hm
    simp only [cliDecls, List.mem_cons, FieldDecl.flatten.injEq, reduceCtorEq, List.not_mem_nil, or_false, false_or] at hm
    obtain ⟨_, rfl⟩ := hm
    exact output_derived
  · intro i o vs hm
    simp only [cliDecls, List.mem_cons, FieldDecl.subcommand.injEq, reduceCtorEq, List.not_mem_nil, or_false, false_or] at hm
    obtain ⟨_, _, rfl⟩ := hm
    exact cmd_derived

/-- Parse a command line given as text. -/
def parse (args : List String) : R (Out Val) := tryParseFrom cli (args.map blit)

/-- Select a field of a struct or the payload of a variant. -/
def select (o : Out Val) (x : String) : Option (Out Val) :=
  match (match o with
    | .optSub (some o) => o
    | o => o) with
  | .struct fs => (fs.find? (fun y => y.1 = lit x)).map (·.2)
  | .variant n o => if n = lit x then some o else none
  | _ => none

/-- Follow a path of field identifiers and variants. -/
def follow : Out Val → List String → Option (FieldOut Val)
  | .field f, [] => some f
  | _, [] => none
  | o, x :: path =>
    match select o x with
    | some o => follow o path
    | none => none

/-- The value of a field after a successful parse. -/
def value (r : R (Out Val)) (path : List String) : Option (FieldOut Val) :=
  match r with
  | .ok o => follow o path
  | .error _ => none

/-- The error of a failed parse. -/
def failure (r : R (Out Val)) : Option Fail :=
  match r with
  | .ok _ => none
  | .error e => some e

/-! ## Readings of parts of command lines, for use as hypotheses -/

open Spec

/-- The entry of the root command. -/
abbrev root : Entry Val := (⟨[], lit "app"⟩, cli)

/-- The entry of a subcommand. -/
abbrev entry (ident name : String) (d : ArgsDef Val) : Entry Val := (⟨lit ident, lit name⟩, d)

/-- Name resolution by computation, with a check of the field found. -/
theorem resolve (p : FieldInfo Val → Bool) {st : List (Entry Val)} {n : Name} {a : Addr}
    (h : ((visible st).find? (fun x => declares cx x.2 n)).any (fun x => decide (x.1 = a) && p x.2) = true) :
    ∃ f, Resolves cx st n a f ∧ p f = true := by
  unfold Resolves
  cases hf : (visible st).find? (fun x => declares cx x.2 n) with
  | none => rw [hf] at h; simp at h
  | some x =>
    rw [hf] at h
    simp only [Option.any_some, Bool.and_eq_true, decide_eq_true_eq] at h
    exact ⟨x.2, by rw [← h.1], h.2⟩

/-- Non-resolution by computation. -/
theorem unknown {st : List (Entry Val)} {n : Name}
    (h : (visible st).all (fun x => !declares cx x.2 n) = true) : Unknown cx st n := by
  intro x hx
  have := List.all_eq_true.1 h x hx
  simpa using this

theorem start_app : start (blit "app") cli = ⟨[root], 0, .opts⟩ := by
  unfold start
  rw [show progName (blit "app") = lit "app" by decide +kernel]

/-- `app -v`. -/
theorem reads_v : Reads cx (start (blit "app") cli) [blit "-v"] [(⟨0, 0, 0⟩, none)] ⟨[root], 0, .opts⟩ := by
  rw [start_app]
  obtain ⟨f, hr, hp⟩ := resolve (fun f => !takesValue f) (st := [root]) (n := .short 'v') (a := ⟨0, 0, 0⟩) (by decide +kernel)
  exact .cluster (b := encChar 'v') (evs := [_]) (by decide) (.bare hr (by simpa using hp)) .done

theorem selected {v : Variant Val} (h : v ∈ subVariants cli) : Selected cli v :=
  Selected.of_nodup (by decide +kernel) h

/-- `app -v add`. -/
theorem reads_add : Reads cx (start (blit "app") cli) [blit "-v", blit "add"] [(⟨0, 0, 0⟩, none)]
    ⟨[entry "Add" "add" add, root], 0, .opts⟩ := by
  refine reads_append (toks := [_]) (evs' := []) reads_v ?_
  exact .sub (v := .args (lit "Add") (lit "add") add) (selected (by exact List.mem_cons_self)) (.inl (by decide)) .done

end Palc.Sample
