import Verif.Lemmas.Program
import Verif.Props.Emit
import Verif.Props.Language
/-!
# Whole programs (C82)

C82: the items of a crate together mean what each of them says, in whatever order they are written, and the program made from them
accepts exactly the command lines its source describes.
-/

namespace Palc

open Spec Emit

variable {V : Type} {cx : SrcCx V} {base env : TyExpr → TyInfo V} {items : List (SrcItem V)}

/-- C82: what the macros make of the items, one after the other, is what the items say when all of them are in scope. -/
theorem C82_compile_iff (ho : InOrder items) : compile cx base items = .ok env ↔ CrateMeans cx base items env :=
  compile_iff ho

/-- C82: the order of the items is of no importance. -/
theorem C82_order {items' : List (SrcItem V)} (ho : InOrder items) (ho' : InOrder items') (hp : items'.Perm items) :
    compile cx base items' = .ok env ↔ compile cx base items = .ok env := by
  rw [compile_iff ho, compile_iff ho']
  constructor
  · exact fun h => ⟨fun x hx => h.each x (hp.mem_iff.mpr hx), fun t ht => h.others t (fun x hx => ht x (hp.mem_iff.mp hx))⟩
  · exact fun h => ⟨fun x hx => h.each x (hp.mem_iff.mp hx), fun t ht => h.others t (fun x hx => ht x (hp.mem_iff.mpr hx))⟩

/-- An item a user may write: the conditions of C55, C56 and C57. -/
inductive LegalItem (cx : SrcCx V) (env : TyExpr → TyInfo V) : SrcItem V → Prop
  | args {n input fields ds} (hg : input.generics = false) (ha : CmdAttrsOk input.attrs) (hdata : input.data = .structNamed fields)
      (hf : FieldsMean cx env fields ds) (hl : Legal cx.toCx ds) : LegalItem cx env (.args n input)
  | subcommand {n input variants} (hg : input.generics = false) (hdata : input.data = .enum variants)
      (hv : ∀ v ∈ variants, CmdAttrsOk v.attrs ∧ LegalVariant cx env v) : LegalItem cx env (.subcommand n input)
  | valueEnum {n attrs vs style names} (hs : StyleOf cx attrs style) (hu : ∀ v ∈ vs, v.unit = true) (hn : Each (NameOf style) vs names)
      (hnd : names.Nodup) (hc : ∀ n ∈ names, ∀ c ∈ n, ¬ Control c) : LegalItem cx env (.valueEnum n attrs (some vs))

theorem legalItem_iff {x : SrcItem V} (henv : EnvDerived cx.toCx env) : (∃ info, expandItem cx env x = .ok info) ↔ LegalItem cx env x := by
  cases x with
  | args n input =>
    have : (∃ info, expandItem cx env (.args n input) = .ok info) ↔ ∃ d, expandArgs cx env input = .ok d := by
      simp only [expandItem, Expansion.map_ok]
      exact ⟨fun ⟨_, d, h, _⟩ => ⟨d, h⟩, fun ⟨d, h⟩ => ⟨_, d, h, rfl⟩⟩
    rw [this, C55_accepted_iff henv]
    constructor
    · rintro ⟨h1, h2, fields, ds, h3, h4, h5⟩
      exact .args h1 h2 h3 h4 h5
    · intro h
      cases h with
      | args h1 h2 h3 h4 h5 => exact ⟨h1, h2, _, _, h3, h4, h5⟩
  | subcommand n input =>
    have : (∃ info, expandItem cx env (.subcommand n input) = .ok info) ↔ ∃ d, expandSubcommand cx env input = .ok d := by
      simp only [expandItem, Expansion.map_ok]
      exact ⟨fun ⟨_, d, h, _⟩ => ⟨d, h⟩, fun ⟨d, h⟩ => ⟨_, d, h, rfl⟩⟩
    rw [this, C56_accepted_iff henv]
    constructor
    · rintro ⟨h1, variants, h2, h3⟩
      exact .subcommand h1 h2 h3
    · intro h
      cases h with
      | subcommand h1 h2 h3 => exact ⟨h1, _, h2, h3⟩
  | valueEnum n attrs variants =>
    have : (∃ info, expandItem cx env (.valueEnum n attrs variants) = .ok info) ↔ ∃ d, expandValueEnum cx attrs variants = .ok d := by
      simp only [expandItem, Expansion.map_ok]
      exact ⟨fun ⟨_, d, h, _⟩ => ⟨d, h⟩, fun ⟨d, h⟩ => ⟨_, d, h, rfl⟩⟩
    rw [this, C57_accepted_iff]
    constructor
    · rintro ⟨vs, style, names, rfl, h1, h2, h3, h4, h5⟩
      exact .valueEnum h1 h2 h3 h4 h5
    · intro h
      cases h with
      | valueEnum h1 h2 h3 h4 h5 => exact ⟨_, _, _, rfl, h1, h2, h3, h4, h5⟩

/-- C82: a program compiles exactly if every item is legal, given the items before it. -/
theorem C82_compiles_iff (hbase : ∀ t, (base t).args = none ∧ (base t).sub = none) :
    (∃ env, compile cx base items = .ok env)
      ↔ ∀ (before : List (SrcItem V)) x after env, items = before ++ x :: after → compile cx base before = .ok env → LegalItem cx env x := by
  have hsplit : ∀ (b : TyExpr → TyInfo V) (before after : List (SrcItem V)) env, compile cx b before = .ok env →
      compile cx b (before ++ after) = compile cx env after := by
    intro b before after env h
    induction before generalizing b with
    | nil => rw [compile] at h; cases h; rfl
    | cons y ys ih =>
      rw [compile] at h
      rw [List.cons_append, compile]
      split at h
      · exact ih _ h
      · cases h
      · cases h
  constructor
  · rintro ⟨env, h⟩ before x after env' rfl h'
    rw [hsplit _ _ _ _ h', compile] at h
    split at h
    · rename_i info he
      exact (legalItem_iff (compile_derived hbase h')).mp ⟨info, he⟩
    · cases h
    · cases h
  · intro h
    have key : ∀ (after before : List (SrcItem V)) env, items = before ++ after → compile cx base before = .ok env →
        ∃ env, compile cx base items = .ok env := by
      intro after
      induction after with
      | nil =>
        intro before env hi hb
        rw [List.append_nil] at hi
        exact ⟨env, hi ▸ hb⟩
      | cons x after ih =>
        intro before env hi hb
        obtain ⟨info, he⟩ := (legalItem_iff (compile_derived hbase hb)).mpr (h before x after env hi hb)
        refine ih (before ++ [x]) (define env x.name info) (by rw [hi]; simp) ?_
        rw [hsplit _ _ _ _ hb, compile, he]
        rfl
    exact key items [] base rfl rfl

/-- C82: the program made from the source reads exactly the command lines the source describes, with the values and the errors the
source describes: `fields` are the fields of `main` as written, `ds` what they mean with all items of the crate in scope. -/
theorem C82_runs {main : Str} {input : Input V} (ho : InOrder items) (hbase : ∀ t, (base t).args = none ∧ (base t).sub = none)
    (hc : compile cx base items = .ok env) (hmain : .args main input ∈ items)
    (hr : ∀ x ∈ items, ∀ i ∈ SrcItem.fieldIdents x, i ∉ reserved) :
    ∃ fields ds d, input.data = .structNamed fields ∧ FieldsMean cx env fields ds
      ∧ deriveArgs cx.toCx (cmdOf cx.pkgDescription input.attrs) ds = .ok d
      ∧ (∀ argv0 toks out, runProgram env main (argv0 :: toks) = some (.ok out) ↔ Accepts cx.toCx d argv0 toks out)
      ∧ ∀ argv0 toks x, runProgram env main (argv0 :: toks) = some (.error x) ↔ Rejects cx.toCx d argv0 toks x := by
  have h := (compile_iff ho).mp hc |>.each _ hmain
  generalize hi : env (typeNamed (SrcItem.args main input).name) = info at h
  cases h with
  | @args _ _ fields ds d hg ha hdata hf hd =>
    have hargs : (env (typeNamed main)).args = some d := by
      rw [show typeNamed main = typeNamed (SrcItem.args main input).name from rfl, hi]
    have hder := (compile_derived hbase hc).args _ _ hargs
    have hfree := (compile_free hbase hc hr).args _ _ hargs
    refine ⟨fields, ds, d, hdata, hf, hd, fun argv0 toks out => ?_, fun argv0 toks x => ?_⟩
    · rw [runProgram, hargs, Option.map_some, Option.some.injEq, C69_refines hder hfree, C23_accepts_iff hder]
    · rw [runProgram, hargs, Option.map_some, Option.some.injEq, C69_refines hder hfree, C23_rejects_iff hder]

/-- C82: and it does not panic, if all default strings are values. -/
theorem C82_no_panic {main : Str} {argv : List Bytes} (hbase : ∀ t, (base t).args = none ∧ (base t).sub = none)
    (hc : compile cx base items = .ok env) (hr : ∀ x ∈ items, ∀ i ∈ SrcItem.fieldIdents x, i ∉ reserved)
    (hdef : ∀ d f s, (env (typeNamed main)).args = some d → ArgOf d f → f.src.defaultValue = some s → ValidDefault f s) :
    runProgram env main argv ≠ some (.error .panic) := by
  intro h
  rw [runProgram, Option.map_eq_some_iff] at h
  obtain ⟨d, hd, h⟩ := h
  exact C69_never_stuck ((compile_derived hbase hc).args _ _ hd) ((compile_free hbase hc hr).args _ _ hd)
    (fun f s => hdef d f s hd) argv h

namespace Sample

/-- The types of other crates. -/
def baseTypes (t : TyExpr) : TyInfo Val :=
  match t with
  | .path false false [(i, .none)] =>
    if i = lit "String" then { val := { fromStr := some (fun s => .ok s) } }
    else if i = lit "Number" then { val := { fromStr := some numberOf } }
    else {}
  | _ => {}

def formatItem : SrcItem Val :=
  .valueEnum (lit "Format") [] (some [{ ident := lit "Text", value := lit "Text" }, { ident := lit "Json", value := lit "Json" }])

def outputItem : SrcItem Val := .args (lit "OutputArgs")
  { data := .structNamed
      [ { ident := lit "quiet", ty := boolTy, attrs := [.arg (some [bare "short", bare "long"])] },
        { ident := lit "format", ty := optionOf (named "Format")
          attrs := [.arg (some [bare "short", bare "long", tru "ignore_case"])] } ] }

/-- The sample, as a program. -/
def program : List (SrcItem Val) := [formatItem, outputItem, .subcommand (lit "Cmd") cmdSource, .args (lit "Cli") cliSource]
/-- The same in another order. -/
def program' : List (SrcItem Val) := [.subcommand (lit "Cmd") cmdSource, formatItem, outputItem, .args (lit "Cli") cliSource]

/-- The result, if there are no errors. -/
def typesOf : Expansion (TyExpr → TyInfo Val) → TyExpr → TyInfo Val
  | .ok env => env
  | _ => baseTypes

def programTypes : TyExpr → TyInfo Val := typesOf (compile srcCx baseTypes program)

theorem program_ok : compile srcCx baseTypes program = .ok programTypes := by
  have h : compiles (compile srcCx baseTypes program) = true := by decide +kernel
  unfold programTypes
  generalize compile srcCx baseTypes program = e at h
  cases e with
  | ok env => rfl
  | errors es => cases h
  | panic => cases h

theorem base_plain (t : TyExpr) : (baseTypes t).args = none ∧ (baseTypes t).sub = none := by
  unfold baseTypes
  split
  · split
    · exact ⟨rfl, rfl⟩
    · split <;> exact ⟨rfl, rfl⟩
  · exact ⟨rfl, rfl⟩

theorem program_inOrder : InOrder program := by
  refine .cons (by decide +kernel) (by decide +kernel) (.cons (by decide +kernel) (by decide +kernel) (.cons (by decide +kernel) (by decide +kernel)
    (.cons (by decide +kernel) (by decide +kernel) .nil)))
theorem program'_inOrder : InOrder program' := by
  refine .cons (by decide +kernel) (by decide +kernel) (.cons (by decide +kernel) (by decide +kernel) (.cons (by decide +kernel) (by decide +kernel)
    (.cons (by decide +kernel) (by decide +kernel) .nil)))

example : compile srcCx baseTypes program' = .ok programTypes :=
  (C82_order program_inOrder program'_inOrder
    (show program'.Perm program from (List.Perm.swap _ _ _).trans ((List.Perm.swap _ _ _).cons _))).mpr program_ok
-- A struct that is not there yet cannot be flattened.
example : compiles (compile srcCx baseTypes [.args (lit "Cli") cliSource]) = false := by decide +kernel
example : LegalItem srcCx baseTypes formatItem := (C82_compiles_iff base_plain).mp ⟨_, program_ok⟩ [] _ _ _ rfl rfl

example : ∃ fields ds d, cliSource.data = .structNamed fields ∧ FieldsMean srcCx programTypes fields ds
    ∧ deriveArgs Sample.cx (cmdOf srcCx.pkgDescription cliSource.attrs) ds = .ok d
    ∧ (∀ argv0 toks out, runProgram programTypes (lit "Cli") (argv0 :: toks) = some (.ok out) ↔ Accepts Sample.cx d argv0 toks out)
    ∧ ∀ argv0 toks x, runProgram programTypes (lit "Cli") (argv0 :: toks) = some (.error x) ↔ Rejects Sample.cx d argv0 toks x :=
  C82_runs program_inOrder base_plain program_ok (by simp [program]) (by decide +kernel)

/-- `jobs` has the default string `"1"`, a number. -/
example (argv : List Bytes) : runProgram programTypes (lit "Cli") argv ≠ some (.error .panic) := by
  refine C82_no_panic base_plain program_ok (by decide +kernel) (fun d f s hd hf hs => ?_)
  have h : (programTypes (typeNamed (lit "Cli"))).args.map (allArgs (fun f => match f.src.defaultValue with
      | none => true
      | some s => decide (f.kind ≠ .bool) && (splitValue f.src.valueDelimiter (enc s)).all (fun x => isOk (f.parser.parse x)))) = some true := by
    decide +kernel
  rw [hd, Option.map_some, Option.some.injEq] at h
  have := allArgs_sound h hf
  simp only [hs, Bool.and_eq_true, decide_eq_true_eq, List.all_eq_true] at this
  refine ⟨this.1, fun x hx => ?_⟩
  have := this.2 x hx
  cases hp : f.parser.parse x with
  | ok v => exact ⟨v, rfl⟩
  | error e => rw [hp] at this; cases this

example : (runProgram programTypes (lit "Cli") (["app", "-c", "x"].map blit)).bind (fun r => value r ["config"])
    = some (.option (some (lit "x"))) := by decide +kernel

end Sample

end Palc
