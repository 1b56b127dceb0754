import Verif.Spec
/-!
# Specification of errors while reading the arguments

Which error is reported when the arguments cannot be read, or when a value is not acceptable.
-/

namespace Palc.Spec

variable {V : Type}

/-- An error about field `f`: options are named in it, positional arguments are not (finding 8). -/
def about (f : FieldInfo V) (e : Error) : Error :=
  if isOption f then { e with argDesc := some f.description } else e

/-- The names of the entered commands as typed, each preceded by a space. -/
def cmdline : List (Entry V) → Str
  | [] => []
  | (i, _) :: outer => cmdline outer ++ ' ' :: i.name

/-- The help text of the innermost command.  What it contains is the subject of C46. -/
def commandHelp : List (Entry V) → Str
  | [] => []
  | (i, d) :: outer => renderHelp d.info (cmdline ((i, d) :: outer))

/-- A help request. -/
def helpRequest (st : List (Entry V)) : Error := { kind := .help, help := some (commandHelp st) }

/-- An option nobody declares. -/
def unexpected (arg : Bytes) : Error := { kind := .unknownNamedArgument, input := some arg }

/-- One step of reading: the arguments `toks` start with something that is read as the occurrences
`evs`, leading to context `κ'` and the remaining arguments. -/
inductive Step (cx : Cx V) : Ctx V → List Bytes → List Event → Ctx V → List Bytes → Prop
  | longEq {st k n v a f toks} (hr : Resolves cx st (.long n) a f) (hn : '=' ∉ n) (ht : f.kind ≠ .bool) :
      Step cx ⟨st, k, .opts⟩ ((enc ('-' :: '-' :: n) ++ eqSign :: v) :: toks) [(a, some v)] ⟨st, k, .opts⟩ toks
  | longBare {st k n a f toks} (hr : Resolves cx st (.long n) a f) (hn : '=' ∉ n) (hne : n ≠ [])
      (ht : takesValue f = false) :
      Step cx ⟨st, k, .opts⟩ (enc ('-' :: '-' :: n) :: toks) [(a, none)] ⟨st, k, .opts⟩ toks
  | longSep {st k n v a f toks} (hr : Resolves cx st (.long n) a f) (hn : '=' ∉ n) (hne : n ≠ [])
      (ht : takesValue f = true) (hq : f.src.requireEquals = false) (hs : Standalone f v) :
      Step cx ⟨st, k, .opts⟩ (enc ('-' :: '-' :: n) :: v :: toks) [(a, some v)] ⟨st, k, .opts⟩ toks
  | cluster {st k b toks evs} (hb : b.head? ≠ some dash) (hc : Cluster cx st toks.head? b evs false) :
      Step cx ⟨st, k, .opts⟩ ((dash :: b) :: toks) evs ⟨st, k, .opts⟩ toks
  | clusterSep {st k b v toks evs} (hb : b.head? ≠ some dash) (hc : Cluster cx st (some v) b evs true) :
      Step cx ⟨st, k, .opts⟩ ((dash :: b) :: v :: toks) evs ⟨st, k, .opts⟩ toks
  | sub {i d st k v toks} (hv : Selected d v) (hp : Plain (enc v.name)) :
      Step cx ⟨(i, d) :: st, k, .opts⟩ (enc v.name :: toks) []
        ⟨(⟨variantIdent v, v.name⟩, variantDef v) :: (i, d) :: st, 0, .opts⟩ toks
  | positional {i d st k tok x toks} (hp : Plain tok) (hns : ∀ v ∈ subVariants d, enc v.name ≠ tok)
      (hx : posTarget d k = some x) :
      Step cx ⟨(i, d) :: st, k, .opts⟩ (tok :: toks) [(⟨st.length, 0, x.2⟩, some tok)]
        ⟨(i, d) :: st, k + 1, modeAfter x .opts⟩ toks
  | dashdash {st k toks} :
      Step cx ⟨st, k, .opts⟩ ([dash, dash] :: toks) [] ⟨st, k, .dashed⟩ toks
  | last {i d st k tok x toks} (hx : lastArg d = some x) :
      Step cx ⟨(i, d) :: st, k, .dashed⟩ (tok :: toks) [(⟨st.length, 0, x.2⟩, some tok)]
        ⟨(i, d) :: st, k, .dashed⟩ toks
  | dashed {i d st k tok x toks} (hl : lastArg d = none) (hx : posTarget d k = some x) :
      Step cx ⟨(i, d) :: st, k, .dashed⟩ (tok :: toks) [(⟨st.length, 0, x.2⟩, some tok)]
        ⟨(i, d) :: st, k + 1, modeAfter x .dashed⟩ toks
  | trailing {i d st k tok j toks} :
      Step cx ⟨(i, d) :: st, k, .trailing j⟩ (tok :: toks) [(⟨st.length, 0, j⟩, some tok)]
        ⟨(i, d) :: st, k, .trailing j⟩ toks

/-- A cluster of short options that cannot be read: after the occurrences `evs`, error `e`. -/
inductive ClusterStuck (cx : Cx V) (stack : List (Entry V)) (next : Option Bytes) :
    Bytes → List Event → Error → Prop
  /-- Flags before the trouble. -/
  | more {c a f rest evs e} (hr : Resolves cx stack (.short c) a f) (ht : takesValue f = false)
      (hq : f.src.requireEquals = false) (hne : rest ≠ []) (heq : rest.head? ≠ some eqSign)
      (h : ClusterStuck cx stack next rest evs e) :
      ClusterStuck cx stack next (encChar c ++ rest) ((a, none) :: evs) e
  /-- An undeclared short option. -/
  | unknown {c rest} (hu : Unknown cx stack (.short c)) (hc : c ≠ 'h') :
      ClusterStuck cx stack next (encChar c ++ rest) [] (unexpected (dash :: encChar c))
  /-- `-h`. -/
  | help {rest} (hu : Unknown cx stack (.short 'h')) :
      ClusterStuck cx stack next (encChar 'h' ++ rest) [] (helpRequest stack)
  /-- Not a character. -/
  | invalid {b} (hne : b ≠ []) (hb : ∀ c r, b ≠ encChar c ++ r) :
      ClusterStuck cx stack next b [] (unexpected (dash :: b))
  /-- `-fREST` with `require_equals`. -/
  | missingEqAttached {c a f rest} (hr : Resolves cx stack (.short c) a f) (hq : f.src.requireEquals = true)
      (hne : rest ≠ []) (heq : rest.head? ≠ some eqSign) :
      ClusterStuck cx stack next (encChar c ++ rest) [] (about f { kind := .missingEq })
  /-- `-f` with `require_equals`. -/
  | missingEq {c a f} (hr : Resolves cx stack (.short c) a f) (ht : takesValue f = true)
      (hq : f.src.requireEquals = true) :
      ClusterStuck cx stack next (encChar c) [] (about f { kind := .missingEq })
  /-- `-f` without a usable next argument. -/
  | missingValue {c a f} (hr : Resolves cx stack (.short c) a f) (ht : takesValue f = true)
      (hq : f.src.requireEquals = false) (hn : ∀ v, next = some v → ¬ Standalone f v) :
      ClusterStuck cx stack next (encChar c) [] (about f { kind := .missingValue })
  /-- `-f=VALUE` for a flag. -/
  | flagValue {c a f v} (hr : Resolves cx stack (.short c) a f) (hk : f.kind = .bool) :
      ClusterStuck cx stack next (encChar c ++ eqSign :: v) []
        (about f { kind := .unexpectedInlineValue, input := some v })
  /-- `-f=VALUE` for an `Option<Option<T>>` option: the value is taken, but then the rest is read as
  further options (finding 1). -/
  | optionalValue {c a f v} (hr : Resolves cx stack (.short c) a f) (hk : f.kind = .optionOption) :
      ClusterStuck cx stack next (encChar c ++ eqSign :: v) [(a, some v)] (unexpected [dash, eqSign])

/-- The error for a positional argument that no field takes. -/
def surplus (d : ArgsDef V) (tok : Bytes) : Error :=
  { kind := if hasSub d then .unknownSubcommand else .extraPositionalArgument, input := some tok }

/-- The arguments `toks` start with something that cannot be read: after the occurrences `evs`,
error `e`. -/
inductive Stuck (cx : Cx V) : Ctx V → List Bytes → List Event → Error → Prop
  /-- An undeclared long option. -/
  | longUnknown {st k name tail toks} (hd : [dash, dash] <+: name) (hne : name ++ tail ≠ [dash, dash])
      (hn : eqSign ∉ name) (ht : tail = [] ∨ tail.head? = some eqSign)
      (hu : ∀ n, name = enc ('-' :: '-' :: n) → Unknown cx st (.long n)) (hh : name ≠ blit "--help") :
      Stuck cx ⟨st, k, .opts⟩ ((name ++ tail) :: toks) [] (unexpected name)
  /-- `--help`, also with a value. -/
  | longHelp {st k tail toks} (ht : tail = [] ∨ tail.head? = some eqSign)
      (hu : Unknown cx st (.long (lit "help"))) :
      Stuck cx ⟨st, k, .opts⟩ ((blit "--help" ++ tail) :: toks) [] (helpRequest st)
  /-- `--flag=VALUE`. -/
  | flagValue {st k n v a f toks} (hr : Resolves cx st (.long n) a f) (hn : '=' ∉ n) (hk : f.kind = .bool) :
      Stuck cx ⟨st, k, .opts⟩ ((enc ('-' :: '-' :: n) ++ eqSign :: v) :: toks) []
        (about f { kind := .unexpectedInlineValue, input := some v })
  /-- `--name` with `require_equals`. -/
  | missingEq {st k n a f toks} (hr : Resolves cx st (.long n) a f) (hn : '=' ∉ n) (hne : n ≠ [])
      (ht : takesValue f = true) (hq : f.src.requireEquals = true) :
      Stuck cx ⟨st, k, .opts⟩ (enc ('-' :: '-' :: n) :: toks) [] (about f { kind := .missingEq })
  /-- `--name` without a usable next argument. -/
  | missingValue {st k n a f toks} (hr : Resolves cx st (.long n) a f) (hn : '=' ∉ n) (hne : n ≠ [])
      (ht : takesValue f = true) (hq : f.src.requireEquals = false)
      (hv : ∀ v, toks.head? = some v → ¬ Standalone f v) :
      Stuck cx ⟨st, k, .opts⟩ (enc ('-' :: '-' :: n) :: toks) [] (about f { kind := .missingValue })
  /-- A cluster that cannot be read. -/
  | cluster {st k b toks evs e} (hb : b.head? ≠ some dash) (hc : ClusterStuck cx st toks.head? b evs e) :
      Stuck cx ⟨st, k, .opts⟩ ((dash :: b) :: toks) evs e
  /-- No field for a positional argument. -/
  | surplus {i d st k tok toks} (hp : Plain tok) (hns : ∀ v ∈ subVariants d, enc v.name ≠ tok)
      (hx : posTarget d k = none) :
      Stuck cx ⟨(i, d) :: st, k, .opts⟩ (tok :: toks) [] (surplus d tok)
  /-- No field for an argument after `--`. -/
  | dashed {i d st k tok toks} (hl : lastArg d = none) (hx : posTarget d k = none) :
      Stuck cx ⟨(i, d) :: st, k, .dashed⟩ (tok :: toks) [] (surplus d tok)

/-- Any number of steps. -/
inductive Steps (cx : Cx V) : Ctx V → List Bytes → List Event → Ctx V → List Bytes → Prop
  | refl {κ toks} : Steps cx κ toks [] κ toks
  | step {κ toks evs κ1 rest evs' κ' toks'} (h : Step cx κ toks evs κ1 rest)
      (hs : Steps cx κ1 rest evs' κ' toks') : Steps cx κ toks (evs ++ evs') κ' toks'

/-- Reading stops in context `κ'` with error `e`, after the occurrences `evs`. -/
def Halts (cx : Cx V) (κ : Ctx V) (toks : List Bytes) (evs : List Event) (κ' : Ctx V) (e : Error) : Prop :=
  ∃ evs1 evs2 rest, Steps cx κ toks evs1 κ' rest ∧ Stuck cx κ' rest evs2 e ∧ evs = evs1 ++ evs2

/-- The error for an unacceptable occurrence `o` (already normalised) of a field with earlier occurrences
`os`. -/
inductive BadValue (f : FieldInfo V) (os : List (Option Bytes)) : Option Bytes → Error → Prop
  /-- A value for a flag. -/
  | flagValue {v} (hk : f.kind = .bool) :
      BadValue f os (some v) { kind := .unexpectedInlineValue, input := some v }
  /-- A second occurrence. -/
  | duplicate {o} (hm : isMulti f = false) (ho : f.kind = .bool → o = none) (hne : os ≠ []) :
      BadValue f os o { kind := .duplicatedNamedArgument }
  /-- An invalid value. -/
  | invalid {v e} (hm : isMulti f = false) (hk : f.kind ≠ .bool) (hos : os = []) (hv : f.parser.parse v = .error e) :
      BadValue f os (some v) e
  /-- An invalid value of a `Vec`-like field: the first invalid piece. -/
  | piece {v xs x ys e} (hm : isMulti f = true) (hp : pieces f v = xs ++ x :: ys)
      (hxs : ∀ y ∈ xs, parsed f y ≠ none) (hv : f.parser.parse x = .error e) :
      BadValue f os (some v) e

/-- The occurrences `evs` (after `log`) contain an unacceptable one; `e` is the error for the first of
them. -/
def FirstBad (st : List (Entry V)) (log evs : List Event) (e : Error) : Prop :=
  ∃ pre a o post f e0, evs = pre ++ (a, o) :: post ∧ fieldAt st a = some f
    ∧ (∀ b g, fieldAt st b = some g → given g (occs (log ++ pre) b) ≠ none)
    ∧ BadValue f (occs (log ++ pre) a) (o.map (normalise f)) e0 ∧ e = about f e0

/-- All occurrences are acceptable. -/
def Acceptable (st : List (Entry V)) (evs : List Event) : Prop :=
  ∀ a f, fieldAt st a = some f → given f (occs evs a) ≠ none

/-! ## Validation -/

/-- The first violated constraint of a field that was given: it is exclusive and not alone, it requires a
field that is missing, it conflicts with a field that was given. -/
def setError (c : Core V) (given : Nat → Bool) (sub : Bool) (i : Nat) (f : FieldInfo V) : Option Error :=
  if f.src.exclusive && (sub || (List.range c.fields.length).any (fun j => j != i && given j)) then
    some { kind := .constraintExclusive, argDesc := some f.description }
  else
    match f.src.requires.findSome? (fun x => c.fields.zipIdx.find? (fun y => decide (y.1.ident = x) && !given y.2)) with
    | some g => some { kind := .constraintRequired, argDesc := some g.1.description }
    | none =>
      if f.src.conflictsWith.any (fun x => c.fields.zipIdx.any (fun y => decide (y.1.ident = x) && given y.2)) then
        some { kind := .constraintConflict, argDesc := some f.description }
      else none

/-- What is wrong with a field that was not given: it is required, or its default value is invalid. -/
def unsetFail (f : FieldInfo V) : Option Fail :=
  if isRequired f then some (.error { kind := .missingRequiredArgument, argDesc := some f.description })
  else if (fieldOut f []).isNone then some .panic
  else none

/-- First failure of a struct: constraints of given fields in declaration order, then missing fields in
declaration order, then a missing subcommand. -/
def structFail (c : Core V) (given : Nat → Bool) (sub needSub : Bool) : Option Fail :=
  ((c.fields.zipIdx.findSome? (fun x => if given x.2 then setError c given sub x.2 x.1 else none)).map .error).or
    ((c.fields.zipIdx.findSome? (fun x => if given x.2 then none else unsetFail x.1)).or
      (if needSub && !sub then some (.error { kind := .missingRequiredSubcommand }) else none))

mutual
/-- First failure of a command: flattened structs in declaration order, then the struct itself. -/
def argsFail (given : Nat → Nat → Bool) (s : Nat) (sub : Bool) : ArgsDef V → Option Fail
  | .mk core flats subField =>
    (flatsFail given (s + 1) flats).or (structFail core (given s) sub (subRequired (.mk core flats subField)))
def flatsFail (given : Nat → Nat → Bool) (s : Nat) : Flats V → Option Fail
  | .nil => none
  | .cons _ d rest => (argsFail given s false d).or (flatsFail given (s + (structs d).length) rest)
end

/-- First failure of all entered commands: the innermost command first. -/
def allFail (evs : List Event) : List (Entry V) → Bool → Option Fail
  | [], _ => none
  | (_, d) :: outer, sub =>
    (argsFail (fun s i => !(occs evs ⟨outer.length, s, i⟩).isEmpty) 0 sub d).or (allFail evs outer true)

/-- The command line is rejected with the given failure. -/
inductive Rejects (cx : Cx V) (d : ArgsDef V) (argv0 : Bytes) (toks : List Bytes) : Fail → Prop
  /-- A value that is not acceptable. -/
  | value {evs κ rest e} (h : Steps cx (start argv0 d) toks evs κ rest) (hb : FirstBad κ.stack [] evs e) :
      Rejects cx d argv0 toks (.error e)
  /-- A value that is not acceptable, in a cluster that cannot be read either. -/
  | valueStuck {evs κ e e'} (h : Halts cx (start argv0 d) toks evs κ e') (hb : FirstBad κ.stack [] evs e) :
      Rejects cx d argv0 toks (.error e)
  /-- An argument that cannot be read. -/
  | stuck {evs κ e} (h : Halts cx (start argv0 d) toks evs κ e) (ha : Acceptable κ.stack evs) :
      Rejects cx d argv0 toks (.error e)
  /-- A violated constraint. -/
  | invalid {evs κ e} (h : Reads cx (start argv0 d) toks evs κ) (ha : Acceptable κ.stack evs)
      (hf : allFail evs κ.stack false = some e) : Rejects cx d argv0 toks e

end Palc.Spec
