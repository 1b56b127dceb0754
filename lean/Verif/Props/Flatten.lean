import Verif.Lemmas.Flatten
import Verif.Lemmas.After
import Verif.Example
/-!
# Flattening (C16)

`command(flatten)` is the same as writing the arguments of the flattened struct in place: the same command lines are read in the
same way and accepted, and every argument gets the same value, which stems from its own occurrences only.
-/

namespace Palc

open Spec

variable {V : Type} {cx : Cx V} {d d' : ArgsDef V} {argv0 : Bytes} {toks : List Bytes} {evs : List Event} {κ : Ctx V} {out : Out V}

/-- Every argument of a flattened struct (as any other) gets the value of its own occurrences only: two successful parses in
which it occurs in the same way give it the same value. -/
theorem C16_own {toks' : List Bytes} {evs' : List Event} {κ' : Ctx V} {out' : Out V} (h : Parsed cx d argv0 toks evs κ out)
    (h' : Parsed cx d argv0 toks' evs' κ' out') {a : Addr} {f : FieldInfo V} (ha : fieldAt κ.stack a = some f) (ha' : fieldAt κ'.stack a = some f)
    (ho : evs.filter (fun e => decide (e.1 = a)) = evs'.filter (fun e => decide (e.1 = a))) :
    outAt κ.stack out a = outAt κ'.stack out' a := by
  obtain ⟨v, hv, e⟩ := h.field ha
  obtain ⟨v', hv', e'⟩ := h'.field ha'
  have : occs evs a = occs evs' a := by unfold occs; rw [ho]
  rw [this, hv'] at hv
  cases hv
  rw [e, e']

/-- Definitions declaring the same arguments in different places (whatever their constraints) read a command line in the same
way: the same commands are entered and corresponding arguments occur, in the same order with the same values; both parsers go on
from there. -/
theorem C16_reads {φ ψ : Pos → Pos} (hd : DerivedArgs cx d) (hd' : DerivedArgs cx d') (h : Same (SameArgs cx) d d' φ ψ)
    (hr : Reads cx (start argv0 d) toks evs κ) :
    After cx d argv0 toks evs κ ∧ ∃ μ ν κ', μ 0 = φ ∧ ν 0 = ψ ∧ After cx d' argv0 toks (evs.map (movedEvent μ)) κ'
      ∧ SameStack (SameArgs cx) μ ν κ.stack κ'.stack := by
  obtain ⟨μ, ν, κ', h1, h2, h3, h4⟩ := reads_same (fun _ _ _ _ h => h) h hr
  exact ⟨after_reads hd hr, μ, ν, κ', h1, h2, after_reads hd' h3, h4⟩

/-- And what the one does not read, the other does not read either. -/
theorem C16_reads_back {φ ψ : Pos → Pos} (hd : DerivedArgs cx d) (hd' : DerivedArgs cx d') (h : Same (SameArgs cx) d d' φ ψ)
    (hr : Reads cx (start argv0 d') toks evs κ) :
    After cx d' argv0 toks evs κ ∧ ∃ evs' κ', After cx d argv0 toks evs' κ' := by
  obtain ⟨evs', κ', h1⟩ := reads_same_back (fun _ _ _ _ h => h) h hr
  exact ⟨after_reads hd' hr, evs', κ', after_reads hd h1⟩

/-- They accept the same command lines. -/
theorem C16_accepted {φ ψ : Pos → Pos} (hd : DerivedArgs cx d) (hd' : DerivedArgs cx d') (h : Same (SameCommand cx) d d' φ ψ)
    (argv0 : Bytes) (toks : List Bytes) :
    (∃ out, tryParseFrom d (argv0 :: toks) = .ok out) ↔ ∃ out, tryParseFrom d' (argv0 :: toks) = .ok out :=
  accepted_same (fun _ _ _ _ h => h) hd hd' h argv0 toks

/-- And produce the same values: an accepted command line gives the argument at any position of the one definition the value of
the corresponding argument of the other. -/
theorem C16_values {φ ψ : Pos → Pos} (hd' : DerivedArgs cx d') (h : Same (SameCommand cx) d d' φ ψ) (hp : Parsed cx d argv0 toks evs κ out) :
    ∃ μ ν κ' out', μ 0 = φ ∧ ν 0 = ψ ∧ Parsed cx d' argv0 toks (evs.map (movedEvent μ)) κ' out' ∧ κ'.stack.map (·.1) = κ.stack.map (·.1)
      ∧ (∀ a f, fieldAt κ.stack a = some f → outAt κ'.stack out' (moved μ a) = outAt κ.stack out a)
      ∧ ∀ a f, fieldAt κ'.stack a = some f → outAt κ'.stack out' a = outAt κ.stack out (moved ν a) := by
  obtain ⟨μ, ν, κ', out', h1, h2, h3, h4, h5, h6⟩ := values_same (fun _ _ _ _ h => h) hd' h hp
  exact ⟨μ, ν, κ', out', h1, h2, h3, h4.ids, h5, h6⟩

section

variable {cm cm' cme : Option CommandMeta} {pre es post : List (FieldDecl V)} {i : Str} {e : ArgsDef V}

/-- Where an argument goes when the struct flattened by the field between `pre` and `post` is written in place: options of the
struct itself declared before the field stay, then come those of the flattened struct, then the others. -/
def inPlace (cx : Cx V) (pre es : List (FieldDecl V)) : Pos → Pos :=
  inlined ((declFields cx pre).filter isOption).length ((declFields cx es).filter isOption).length
    ((flatStructs (Flats.ofList (pre.filterMap declFlat))).length + 1)

/-- And back. -/
def outOfPlace (cx : Cx V) (pre es : List (FieldDecl V)) : Pos → Pos :=
  outlined ((declFields cx pre).filter isOption).length ((declFields cx es).filter isOption).length
    ((flatStructs (Flats.ofList (pre.filterMap declFlat))).length + 1)

/-- A struct with a flattened field declares the same arguments as the struct with the flattened declarations written in place of
the field, provided that no option of the flattened struct is also declared by a struct flattened earlier (which takes
precedence, C14). -/
theorem C16_inline_args (hd : deriveArgs cx cm (pre ++ .flatten i e :: post) = .ok d) (he : deriveArgs cx cme es = .ok e)
    (hd' : deriveArgs cx cm' (pre ++ es ++ post) = .ok d')
    (hnames : ∀ j x, FieldDecl.flatten j x ∈ pre → ∀ c ∈ structs x, ∀ g ∈ c.fields, ∀ f ∈ (coreOf e).fields, ∀ n,
      declares cx f n = true → declares cx g n = false) :
    SameArgs cx d d' (inPlace cx pre es) (outOfPlace cx pre es) ∧ subOf d' = subOf d := by
  refine ⟨?_, inlining_sub hd he hd'⟩
  obtain ⟨C, S3, hI⟩ := inlining hd he hd'
  have hmem : ∀ (l : List (Str × ArgsDef V)) (c : Core V), c ∈ flatStructs (Flats.ofList l) → ∃ x ∈ l, c ∈ structs x.2 := by
    intro l c hc
    induction l with
    | nil => simp [Flats.ofList, flatStructs] at hc
    | cons x l ih =>
      obtain ⟨j, x⟩ := x
      rw [Flats.ofList, flatStructs] at hc
      rcases List.mem_append.1 hc with hc | hc
      · exact ⟨_, List.mem_cons_self, hc⟩
      · obtain ⟨y, hy, h⟩ := ih hc; exact ⟨y, List.mem_cons_of_mem _ hy, h⟩
  have h1 := hI.sameArgs (accepted_wf hd') (by
    intro x hx g hg f hf n hn
    obtain ⟨⟨j, y⟩, hy, hxy⟩ := hmem _ _ hx
    obtain ⟨z, hz, e⟩ := List.mem_filterMap.1 hy
    cases z with
    | flatten j' y' => simp only [declFlat, Option.some.injEq] at e; cases e; exact hnames _ _ hz x hxy g hg f hf n hn
    | arg => simp [declFlat] at e
    | subcommand => simp [declFlat] at e)
  simp only [List.length_map] at h1
  exact h1

/-- So command lines are read in the same way (also with `exclusive`): the arguments of the root command are found at `inPlace`. -/
theorem C16_inline_reads (hD : DerivedArgs cx d) (hD' : DerivedArgs cx d') (hd : deriveArgs cx cm (pre ++ .flatten i e :: post) = .ok d)
    (he : deriveArgs cx cme es = .ok e) (hd' : deriveArgs cx cm' (pre ++ es ++ post) = .ok d')
    (hnames : ∀ j x, FieldDecl.flatten j x ∈ pre → ∀ c ∈ structs x, ∀ g ∈ c.fields, ∀ f ∈ (coreOf e).fields, ∀ n,
      declares cx f n = true → declares cx g n = false) (hr : Reads cx (start argv0 d) toks evs κ) :
    After cx d argv0 toks evs κ ∧ ∃ μ κ', μ 0 = inPlace cx pre es ∧ After cx d' argv0 toks (evs.map (movedEvent μ)) κ'
      ∧ κ'.stack.map (·.1) = κ.stack.map (·.1) := by
  obtain ⟨h1, h2⟩ := C16_inline_args hd he hd' hnames
  obtain ⟨q, μ, ν, κ', h3, _, h4, h5⟩ := C16_reads hD hD' (same_of_sub (fun _ => (sameCommand_refl cx _).1) h1 h2) hr
  exact ⟨q, μ, κ', h3, h4, h5.ids⟩

/-- A struct with a flattened field declares the same arguments and constraints as the struct with the flattened declarations
written in place of the field.  Provided that

* no option of the flattened struct is also declared by a struct flattened earlier (which takes precedence, C14), and
* no argument of the flattened struct is `exclusive` (it only excludes arguments of its own struct, see `C16_exclusive_differs`). -/
theorem C16_inline (hD : DerivedArgs cx d) (hd : deriveArgs cx cm (pre ++ .flatten i e :: post) = .ok d) (he : deriveArgs cx cme es = .ok e)
    (hd' : deriveArgs cx cm' (pre ++ es ++ post) = .ok d')
    (hnames : ∀ j x, FieldDecl.flatten j x ∈ pre → ∀ c ∈ structs x, ∀ g ∈ c.fields, ∀ f ∈ (coreOf e).fields, ∀ n,
      declares cx f n = true → declares cx g n = false)
    (hexcl : ∀ f ∈ (coreOf e).fields, f.src.exclusive = false) :
    SameCommand cx d d' (inPlace cx pre es) (outOfPlace cx pre es) ∧ subOf d' = subOf d := by
  obtain ⟨h1, h0⟩ := C16_inline_args hd he hd' hnames
  refine ⟨?_, h0⟩
  obtain ⟨C, S3, hI⟩ := inlining hd he hd'
  have h2 := hI.sameConstraints (by
    intro f hf
    have wf := hD.wf
    have hw := accepted_wf hd
    cases hx : f.src.exclusive with
    | false => rfl
    | true =>
      exfalso
      obtain ⟨k, hk⟩ := List.getElem?_of_mem hf
      have hfe := (hw.fields k f hk).excl
      obtain ⟨core, flats, sub⟩ := d
      have hnil := (deriveArgs_ok hd).excl ⟨f, hf, by rw [hfe]; exact hx⟩
      have := (deriveArgs_ok hd).flatsEq
      rw [hnil, List.filterMap_append, List.filterMap_cons] at this
      simp only [declFlat] at this
      cases hpre : pre.filterMap declFlat with
      | nil => rw [hpre] at this; simp [Flats.ofList] at this
      | cons y l => rw [hpre] at this; simp [Flats.ofList] at this) hexcl
  simp only [List.length_map] at h2
  exact ⟨h1, h2⟩

/-- So it accepts the same command lines, … -/
theorem C16_inline_accepted (hD : DerivedArgs cx d) (hD' : DerivedArgs cx d') (hd : deriveArgs cx cm (pre ++ .flatten i e :: post) = .ok d)
    (he : deriveArgs cx cme es = .ok e) (hd' : deriveArgs cx cm' (pre ++ es ++ post) = .ok d')
    (hnames : ∀ j x, FieldDecl.flatten j x ∈ pre → ∀ c ∈ structs x, ∀ g ∈ c.fields, ∀ f ∈ (coreOf e).fields, ∀ n,
      declares cx f n = true → declares cx g n = false)
    (hexcl : ∀ f ∈ (coreOf e).fields, f.src.exclusive = false) (argv0 : Bytes) (toks : List Bytes) :
    (∃ out, tryParseFrom d (argv0 :: toks) = .ok out) ↔ ∃ out, tryParseFrom d' (argv0 :: toks) = .ok out :=
  C16_accepted hD hD' (same_of_sub (fun _ => sameCommand_refl cx _) (C16_inline hD hd he hd' hnames hexcl).1
    (C16_inline hD hd he hd' hnames hexcl).2) argv0 toks

/-- … and gives every argument the same value: those of the root command are found at `inPlace`, those of subcommands at the same
place. -/
theorem C16_inline_values (hD' : DerivedArgs cx d') (hd : deriveArgs cx cm (pre ++ .flatten i e :: post) = .ok d)
    (he : deriveArgs cx cme es = .ok e) (hd' : deriveArgs cx cm' (pre ++ es ++ post) = .ok d')
    (hnames : ∀ j x, FieldDecl.flatten j x ∈ pre → ∀ c ∈ structs x, ∀ g ∈ c.fields, ∀ f ∈ (coreOf e).fields, ∀ n,
      declares cx f n = true → declares cx g n = false)
    (hexcl : ∀ f ∈ (coreOf e).fields, f.src.exclusive = false) (hp : Parsed cx d argv0 toks evs κ out) :
    ∃ evs' κ' out', Parsed cx d' argv0 toks evs' κ' out'
      ∧ κ'.stack.map (·.1) = κ.stack.map (·.1)
      ∧ (∀ s k f, fieldAt κ.stack ⟨0, s, k⟩ = some f →
        outAt κ'.stack out' ⟨0, (inPlace cx pre es (s, k)).1, (inPlace cx pre es (s, k)).2⟩ = outAt κ.stack out ⟨0, s, k⟩)
      ∧ ∀ l s k f, 0 < l → fieldAt κ.stack ⟨l, s, k⟩ = some f → outAt κ'.stack out' ⟨l, s, k⟩ = outAt κ.stack out ⟨l, s, k⟩ := by
  obtain ⟨hI, hS⟩ := C16_inline hp.derived hd he hd' hnames hexcl
  have hsame : Same (SameBelow cx d) d d' (inPlace cx pre es) (outOfPlace cx pre es) :=
    same_of_sub (fun v => ⟨sameCommand_refl cx _, fun _ => rfl⟩) ⟨hI, fun h => absurd h (Nat.lt_irrefl _)⟩ hS
  obtain ⟨μ, ν, κ', out', h1, _, h2, h3, h4, _⟩ := values_same (fun _ _ _ _ h => h.1) hD' hsame hp
  refine ⟨_, κ', out', h2, h3.ids, fun s k f hf => ?_, fun l s k f hl hf => ?_⟩
  · have := h4 _ f hf
    unfold moved at this
    simp only [h1] at this
    exact this
  · have := h4 _ f hf
    rw [sameBelow_moved h3 (below_reads hp.reads) hf hl] at this
    exact this

end

/-! ## Examples -/

namespace Sample

/-- The sample CLI with the options of the flattened struct written in place. -/
def flatDecls : List (FieldDecl Val) := cliDecls.take 8 ++ outputDecls ++ cliDecls.drop 9

def flatCli : ArgsDef Val := get (deriveArgs Sample.cx none flatDecls)

theorem flatCli_derived : DerivedArgs Sample.cx flatCli := by
  refine .mk none flatDecls ?_ ?_ (get_ok (by decide))
  · intro i d hm
    simp [flatDecls, cliDecls, outputDecls] at hm
  · intro i o vs hm
    simp [flatDecls, cliDecls, outputDecls] at hm
    obtain ⟨_, _, rfl⟩ := hm
    exact cmd_derived

theorem cli_inline : deriveArgs Sample.cx none (cliDecls.take 8 ++ .flatten (lit "output") output :: cliDecls.drop 9) = .ok cli :=
  get_ok (r := deriveArgs Sample.cx none cliDecls) (by decide)

theorem no_flatten : ∀ j x, FieldDecl.flatten j x ∉ cliDecls.take 8 := by
  intro j x h
  simp [cliDecls] at h

end Sample

/-- The sample CLI and the one without `command(flatten)` accept the same command lines, … -/
example (argv0 : Bytes) (toks : List Bytes) :
    (∃ out, tryParseFrom Sample.cli (argv0 :: toks) = .ok out) ↔ ∃ out, tryParseFrom Sample.flatCli (argv0 :: toks) = .ok out :=
  C16_inline_accepted Sample.cli_derived Sample.flatCli_derived Sample.cli_inline (Sample.get_ok (by decide)) (Sample.get_ok (by decide))
    (fun j x h => absurd h (Sample.no_flatten j x)) (by decide) argv0 toks

/-- … read them in the same way, … -/
example : ∃ evs κ, Reads Sample.cx (start (blit "app") Sample.cli) ([("-q" : String), "--format", "json"].map blit) evs κ ∧
    ∃ μ κ', After Sample.cx Sample.flatCli (blit "app") ([("-q" : String), "--format", "json"].map blit) (evs.map (movedEvent μ)) κ' := by
  obtain ⟨evs, κ, h, _⟩ := Sample.reads ["-q", "--format", "json"] (fun _ _ => true) (by decide +kernel)
  obtain ⟨_, μ, κ', _, h1, _⟩ := C16_inline_reads Sample.cli_derived Sample.flatCli_derived Sample.cli_inline (Sample.get_ok (by decide))
    (Sample.get_ok (by decide)) (fun j x h => absurd h (Sample.no_flatten j x)) h
  exact ⟨evs, κ, h, μ, κ', h1⟩

/-- … with the same values: `-q` and `--format` move from the second struct to places 8 and 9, `FILE` from 8 to 10. -/
example : inPlace Sample.cx (Sample.cliDecls.take 8) Sample.outputDecls (1, 0) = (0, 8)
    ∧ inPlace Sample.cx (Sample.cliDecls.take 8) Sample.outputDecls (1, 1) = (0, 9)
    ∧ inPlace Sample.cx (Sample.cliDecls.take 8) Sample.outputDecls (0, 8) = (0, 10)
    ∧ inPlace Sample.cx (Sample.cliDecls.take 8) Sample.outputDecls (0, 3) = (0, 3) := by decide

example : ∃ evs' κ' out', Parsed Sample.cx Sample.flatCli (blit "app") ([("-v" : String), "-fJSON", "add", "-f", "p"].map blit) evs' κ' out'
    ∧ (outAt κ'.stack out' ⟨0, 0, 9⟩).map (fun x => Sample.value (.ok x.2) []) = some (some (.option (some (lit "Json"))))
    ∧ (outAt κ'.stack out' ⟨1, 0, 1⟩).map (fun x => Sample.value (.ok x.2) []) = some (some (.vec [lit "p"])) := by
  obtain ⟨evs, κ, out, h, h0⟩ := Sample.parsed ["-v", "-fJSON", "add", "-f", "p"]
    (fun _ κ out => (fieldAt κ.stack (⟨0, 1, 1⟩ : Addr)).isSome && (fieldAt κ.stack (⟨1, 0, 1⟩ : Addr)).isSome
      && decide ((outAt κ.stack out (⟨0, 1, 1⟩ : Addr)).map (fun x => Sample.value (.ok x.2) []) = some (some (.option (some (lit "Json")))))
      && decide ((outAt κ.stack out (⟨1, 0, 1⟩ : Addr)).map (fun x => Sample.value (.ok x.2) []) = some (some (.vec [lit "p"])))) (by decide +kernel)
  simp only [Bool.and_eq_true, decide_eq_true_eq] at h0
  obtain ⟨⟨⟨h1, h2⟩, h3⟩, h4⟩ := h0
  obtain ⟨f, h1⟩ := Option.isSome_iff_exists.1 h1
  obtain ⟨g, h2⟩ := Option.isSome_iff_exists.1 h2
  obtain ⟨evs', κ', out', hp, _, h5, h6⟩ := C16_inline_values Sample.flatCli_derived Sample.cli_inline (Sample.get_ok (by decide)) (Sample.get_ok (by decide))
    (fun j x h => absurd h (Sample.no_flatten j x)) (by decide) h
  refine ⟨evs', κ', out', hp, ?_, ?_⟩
  · rw [← h3, ← h5 1 1 f h1]; rfl
  · rw [← h4, ← h6 1 0 1 g (by decide) h2]

/-! ## Why the conditions are there -/

namespace Sample

def soloDecls : List (FieldDecl Val) := [.arg (lit "solo") .bool { long := some .inherit, exclusive := true }]
def solo : ArgsDef Val := get (deriveArgs Sample.cx none soloDecls)
def otherDecl : FieldDecl Val := .arg (lit "other") .bool { long := some .inherit }

def xDecls (t : Ty Val) : List (FieldDecl Val) := [.arg (lit "x") t { long := some .inherit }]
def xs (t : Ty Val) : ArgsDef Val := get (deriveArgs Sample.cx none (xDecls t))

end Sample

/-- An `exclusive` option of a flattened struct does not exclude the options of the struct it is flattened into; written in place
it does. -/
theorem C16_exclusive_differs :
    Sample.isOk (tryParseFrom (Sample.get (deriveArgs Sample.cx none ([Sample.otherDecl] ++ .flatten (lit "solo") Sample.solo :: [])))
      ([("app" : String), "--solo", "--other"].map blit)) = true
    ∧ Sample.isOk (tryParseFrom (Sample.get (deriveArgs Sample.cx none ([Sample.otherDecl] ++ Sample.soloDecls ++ [])))
      ([("app" : String), "--solo", "--other"].map blit)) = false := by
  decide +kernel

/-- An option declared by two flattened structs is the one of the first struct; written in place, that of the second comes first. -/
theorem C16_precedence_differs :
    Sample.isOk (tryParseFrom (Sample.get (deriveArgs Sample.cx none
      ([.flatten (lit "a") (Sample.xs (.option Sample.string))] ++ .flatten (lit "b") (Sample.xs .bool) :: [])))
      ([("app" : String), "--x=1"].map blit)) = true
    ∧ Sample.isOk (tryParseFrom (Sample.get (deriveArgs Sample.cx none
      ([.flatten (lit "a") (Sample.xs (.option Sample.string))] ++ Sample.xDecls .bool ++ [])))
      ([("app" : String), "--x=1"].map blit)) = false := by
  decide +kernel

end Palc
