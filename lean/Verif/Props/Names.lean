import Verif.Lemmas.After
import Verif.Lemmas.HelpText
import Verif.Lemmas.HelpSpec
/-!
# Which field an option name refers to; undeclared names and help (C14, C15, C34, C35)
-/

namespace Palc

open Spec

variable {V : Type} {cx : Cx V} {d : ArgsDef V} {argv0 : Bytes} {toks : List Bytes} {evs : List Event} {κ : Ctx V}
  {out : Out V}

/-- The argument `tok` begins with the option named `n`. -/
inductive Begins : Name → Bytes → Prop
  /-- `--name` or `--name=..`. -/
  | long {n tail} (hn : '=' ∉ n) (ht : tail = [] ∨ tail.head? = some eqSign)
      (hne : enc ('-' :: '-' :: n) ++ tail ≠ [dash, dash]) : Begins (.long n) (enc ('-' :: '-' :: n) ++ tail)
  /-- `-c` or `-c..`. -/
  | short {c r} (hc : c ≠ '-') : Begins (.short c) (dash :: (encChar c ++ r))

/-- A field can be referred to by name if it belongs to the current command or is global. -/
def InScope (st : List (Entry V)) (a : Addr) (f : FieldInfo V) : Prop :=
  fieldAt st a = some f ∧ (a.level + 1 = st.length ∨ f.src.global = true)

/-! ## C15 -/

/-- C15: in a successful parse, an option (long, short, first of a cluster) is an occurrence of exactly one field: among
the fields in scope declaring the name, the one of the innermost command, there of the struct itself rather than of a
flattened struct, and of an earlier flattened struct rather than of a later one (`Addr.precedes`). -/
theorem precedence {pre ts : List Bytes} {tok : Bytes} {evs1 : List Event} {st : List (Entry V)} {k : Nat} {n : Name}
    (h : Parsed cx d argv0 (pre ++ tok :: ts) evs κ out) (hpre : Reads cx (start argv0 d) pre evs1 ⟨st, k, .opts⟩)
    (hb : Begins n tok) :
    ∃ a f o E, evs = evs1 ++ (a, o) :: E ∧ InScope st a f ∧ declares cx f n = true
      ∧ ∀ b g, InScope st b g → declares cx g n = true → a = b ∨ Addr.precedes a b := by
  obtain ⟨E1, κ2, rest, E2, hs, _, hE⟩ := h.next_step hpre
  have key : ∃ a f o E, Resolves cx st n a f ∧ E1 = (a, o) :: E := by
    cases hb with
    | long hn ht hne =>
      obtain ⟨a, f, o, hr, rfl, _⟩ := long_step hs hn hne ht
      exact ⟨a, f, o, [], hr, rfl⟩
    | short hc => exact short_step hc hs
  obtain ⟨a, f, o, E, hr, rfl⟩ := key
  obtain ⟨h1, h2, h3, h4⟩ := resolves_iff.1 hr
  exact ⟨a, f, o, E ++ E2, by rw [hE]; simp, ⟨h1, h2⟩, h3, fun b g hb hd => h4 b g hb.1 hb.2 hd⟩

/-- C15: in a successful parse, an option (long, short, first of a cluster) is an occurrence of exactly one field: among
the fields in scope declaring the name, the one of the innermost command, there of the struct itself rather than of a
flattened struct, and of an earlier flattened struct rather than of a later one (`Addr.precedes`).  The result is what the
occurrences before, this one and the following ones are worth. -/
theorem C15_precedence (hd : DerivedArgs cx d) {pre ts : List Bytes} {tok : Bytes} {evs1 : List Event} {st : List (Entry V)}
    {k : Nat} {n : Name} (hpre : Reads cx (start argv0 d) pre evs1 ⟨st, k, .opts⟩)
    (h : tryParseFrom d (argv0 :: pre ++ tok :: ts) = .ok out) (hb : Begins n tok) :
    ∃ (a : Addr) (f : FieldInfo V) (o : Option Bytes) (E : List Event) (κ : Ctx V), Explains κ.stack (evs1 ++ (a, o) :: E) out ∧ (∃ ext, κ.stack = ext ++ st) ∧ InScope st a f
      ∧ declares cx f n = true ∧ ∀ b g, InScope st b g → declares cx g n = true → a = b ∨ Addr.precedes a b := by
  obtain ⟨evs, κ, hp⟩ := Parsed.of_ok (toks := pre ++ tok :: ts) hd h
  obtain ⟨a, f, o, E, rfl, h1⟩ := precedence hp hpre hb
  obtain ⟨_, _, hR⟩ := hp.after_reads hpre
  exact ⟨a, f, o, E, κ, hp.explains, steps_stack (reads_steps hR), h1⟩

/-- C15: the winner exists as soon as some field in scope declares the name, and is unique. -/
theorem C15_unique_winner {st : List (Entry V)} {n : Name} {b : Addr} {g : FieldInfo V} (hb : InScope st b g)
    (hd : declares cx g n = true) :
    ∃ a f, (InScope st a f ∧ declares cx f n = true
        ∧ ∀ b g, InScope st b g → declares cx g n = true → a = b ∨ Addr.precedes a b)
      ∧ ∀ a' f', InScope st a' f' → declares cx f' n = true →
        (∀ b g, InScope st b g → declares cx g n = true → a' = b ∨ Addr.precedes a' b) → a' = a ∧ f' = f := by
  rcases resolves_or_unknown cx st n with ⟨a, f, hr⟩ | hu
  · obtain ⟨h1, h2, h3, h4⟩ := resolves_iff.1 hr
    refine ⟨a, f, ⟨⟨h1, h2⟩, h3, fun b g hb hd => h4 b g hb.1 hb.2 hd⟩, fun a' f' h1' h3' h4' => ?_⟩
    exact resolves_unique (resolves_iff.2 ⟨h1'.1, h1'.2, h3', fun b g hb hv hd => h4' b g ⟨hb, hv⟩ hd⟩) hr
  · exact absurd (unknown_iff.1 hu b g hb.1 hb.2) (by simp [hd])

/-- C15: `precedes`, spelled out: an inner command wins over an outer one; within a command the struct itself (number 0)
wins over flattened structs, which win in their order. -/
theorem C15_precedes (a b : Addr) : (b.level < a.level → Addr.precedes a b)
    ∧ (a.level = b.level → a.struct < b.struct → Addr.precedes a b) ∧ (Addr.precedes a b → ¬ Addr.precedes b a) :=
  ⟨.inl, fun h1 h2 => .inr ⟨h1, .inl h2⟩, Addr.precedes_asymm⟩

/-- `-v add -f x`: `-f` is declared by `add` (force) and by the flattened `output` of the root (format): the inner one
wins; `-v` after `add` is the global one of the root. -/
example : ∃ (evs : List Event) (out : Out Sample.Val), tryParseFrom Sample.cli (blit "app" :: [blit "-v", blit "add"] ++ blit "-f" :: [blit "x"]) = .ok out
    ∧ Reads Sample.cx (start (blit "app") Sample.cli) [blit "-v", blit "add"] [(⟨0, 0, 0⟩, none)]
        ⟨[Sample.entry "Add" "add" Sample.add, Sample.root], 0, .opts⟩
    ∧ Begins (.short 'f') (blit "-f") ∧ evs[1]? = some ((⟨1, 0, 0⟩ : Addr), none) := by
  obtain ⟨evs, κ, out, h, hp⟩ := Sample.parsed ["-v", "add", "-f", "x"] (fun evs _ _ => decide (evs[1]? = some ((⟨1, 0, 0⟩ : Addr), none)))
    (by decide +kernel)
  exact ⟨evs, out, h.ok, Sample.reads_add, .short (c := 'f') (r := []) (by decide), by simpa using hp⟩

/-! ## C14 -/

/-- C14: in a successful parse, an option that no field of the current command declares is an occurrence of a global field of
an enclosing command, the nearest one with a global field of that name; the field of *that* command's struct gets it. -/
theorem C14_global_stored (hd : DerivedArgs cx d) {pre ts : List Bytes} {tok : Bytes} {evs1 : List Event} {st : List (Entry V)}
    {k : Nat} {n : Name} (hpre : Reads cx (start argv0 d) pre evs1 ⟨st, k, .opts⟩)
    (h : tryParseFrom d (argv0 :: pre ++ tok :: ts) = .ok out) (hb : Begins n tok) (hown : ∀ b g, fieldAt st b = some g → declares cx g n = true → b.level + 1 < st.length) :
    ∃ (a : Addr) (f : FieldInfo V) (o : Option Bytes) (E : List Event) (κ : Ctx V), Explains κ.stack (evs1 ++ (a, o) :: E) out ∧ fieldAt κ.stack a = some f ∧ a.level + 1 < st.length
      ∧ f.src.global = true ∧ declares cx f n = true
      ∧ (∀ b g, fieldAt st b = some g → g.src.global = true → declares cx g n = true → b.level ≤ a.level)
      ∧ (isMulti f = false → occs (evs1 ++ (a, o) :: E) a = [o]) := by
  obtain ⟨evs, κ, hp⟩ := Parsed.of_ok (toks := pre ++ tok :: ts) hd h
  obtain ⟨a, f, o, E, hE, ⟨hf, hv⟩, hdec, hmin⟩ := precedence hp hpre hb
  have hl := hown a f hf hdec
  have hf' : fieldAt κ.stack a = some f := by
    obtain ⟨_, _, hR⟩ := hp.after_reads hpre
    obtain ⟨ext, he⟩ := steps_stack (reads_steps hR)
    rw [he]; exact fieldAt_ext_some hf
  refine ⟨a, f, o, E, κ, hE ▸ hp.explains, hf', hl, ?_, hdec, ?_, ?_⟩
  · rcases hv with hv | hv
    · omega
    · exact hv
  · intro b g hbf hbg hbd
    rcases hmin b g ⟨hbf, .inr hbg⟩ hbd with rfl | hp
    · omega
    · unfold Addr.precedes at hp; omega
  · intro hm
    rw [← hE]
    have h1 := given_single (hp.acceptable a f hf') hm
    have h2 : o ∈ occs evs a := occs_mem.2 (by rw [hE]; simp)
    match ho : occs evs a, h1, h2 with
    | [x], _, hx => simp at hx; rw [hx]
    | _ :: _ :: _, hl, _ => simp at hl

/-- The name as it appears in error messages. -/
def nameArg : Name → Bytes
  | .long n => enc ('-' :: '-' :: n)
  | .short c => dash :: encChar c

/-- C14: an option that is declared only by enclosing commands and without `global` is an unexpected argument. -/
theorem C14_nonglobal_rejected (hd : DerivedArgs cx d) {pre ts : List Bytes} {tok : Bytes}
    {evs1 : List Event} {st : List (Entry V)} {k : Nat} {n : Name} (hpre : Reads cx (start argv0 d) pre evs1 ⟨st, k, .opts⟩)
    (hb : Begins n tok) (hh : n ≠ .long (lit "help") ∧ n ≠ .short 'h')
    (hout : ∀ b g, fieldAt st b = some g → declares cx g n = true → b.level + 1 < st.length ∧ g.src.global = false) :
    ∃ e, tryParseFrom d (argv0 :: pre ++ tok :: ts) = .error (.error e)
      ∧ (Acceptable st evs1 → e.kind = .unknownNamedArgument ∧ e.input = some (nameArg n)) := by
  have hu : Unknown cx st n := by
    rw [unknown_iff]
    intro b g hbf hv
    cases hdg : declares cx g n with
    | false => rfl
    | true =>
      obtain ⟨h1, h2⟩ := hout b g hbf hdg
      rcases hv with hv | hv
      · omega
      · rw [h2] at hv; cases hv
  have hs : Stuck cx ⟨st, k, .opts⟩ (tok :: ts) [] (unexpected (nameArg n)) := by
    cases hb with
    | long hn' ht hne =>
      refine .longUnknown ?_ hne (eq_not_long hn') ht ?_ ?_
      · rw [enc_dashdash]; exact ⟨_, rfl⟩
      · intro n' he; rw [← long_bare_inj he]; exact hu
      · intro he; exact hh.1 (by rw [help_name he])
    | @short c r hc =>
      exact .cluster (encChar_head_ne_dash hc r) (.unknown hu (fun he => hh.2 (by rw [he])))
  obtain ⟨e, h1, _, h3⟩ := stuck_fails hd hpre hs
  exact ⟨e, h1, fun ha => by rw [h3 (by simpa using ha)]; exact ⟨rfl, rfl⟩⟩

/-- `-v add -c z x`: the value of the global `-c` is stored in the root struct. -/
example : ∃ evs κ out, Parsed Sample.cx Sample.cli (blit "app") ([blit "-v", blit "add"] ++ blit "-cz" :: [blit "x"]) evs κ out
    ∧ Reads Sample.cx (start (blit "app") Sample.cli) [blit "-v", blit "add"] [(⟨0, 0, 0⟩, none)]
        ⟨[Sample.entry "Add" "add" Sample.add, Sample.root], 0, .opts⟩
    ∧ Begins (.short 'c') (blit "-cz")
    ∧ (∀ b g, fieldAt [Sample.entry "Add" "add" Sample.add, Sample.root] b = some g → declares Sample.cx g (.short 'c') = true → b.level + 1 < 2) := by
  obtain ⟨evs, κ, out, h, hp⟩ := Sample.parsed ["-v", "add", "-cz", "x"] (fun _ _ _ => true) (by decide +kernel)
  refine ⟨evs, κ, out, h, Sample.reads_add, .short (c := 'c') (r := blit "z") (by decide), ?_⟩
  intro b g hb hd
  have hl := fieldAt_lt hb
  by_cases h1 : b.level = 1
  · have hm := (fieldsAt_cons_iff (i := ⟨lit "Add", lit "add"⟩) (d := Sample.add) (outer := [Sample.root])).2 ⟨h1, hb⟩
    have hall : (fieldsAt 1 Sample.add).all (fun x => !declares Sample.cx x.2 (.short 'c')) = true := by decide +kernel
    have := List.all_eq_true.1 hall _ hm
    simp [hd] at this
  · simp at hl; omega

example : Sample.value (Sample.parse ["app", "-v", "add", "-cz", "x"]) ["config"] = some (.option (some (lit "z"))) := by decide +kernel

/-- `add --jobs 3`: `--jobs` is declared by the root command without `global`. -/
example : Sample.failure (Sample.parse ["app", "add", "--jobs", "3"])
    = some (.error { kind := .unknownNamedArgument, input := some (blit "--jobs") })
    ∧ Sample.failure (Sample.parse ["app", "add", "-fj3"])
    = some (.error { kind := .unknownNamedArgument, input := some (blit "-j") }) := by decide +kernel

example : ∀ b g, fieldAt [Sample.entry "Add" "add" Sample.add, Sample.root] b = some g → declares Sample.cx g (.long (lit "jobs")) = true
    → b.level + 1 < 2 ∧ g.src.global = false := by
  intro b g hb hd
  have hall : (fieldsAt 1 Sample.add).all (fun x => !declares Sample.cx x.2 (.long (lit "jobs"))) = true := by decide +kernel
  have hall0 : (fieldsAt 0 Sample.cli).all (fun x => !declares Sample.cx x.2 (.long (lit "jobs")) || !x.2.src.global) = true := by decide +kernel
  have hl := fieldAt_lt hb
  by_cases h1 : b.level = 1
  · have hm := (fieldsAt_cons_iff (i := ⟨lit "Add", lit "add"⟩) (d := Sample.add) (outer := [Sample.root])).2 ⟨h1, hb⟩
    have := List.all_eq_true.1 hall _ hm
    simp [hd] at this
  · have h0 : b.level = 0 := by simp at hl; omega
    have hb' : fieldAt [Sample.root] b = some g := by
      rw [← hb]; simp [fieldAt, h0]
    have hm := (fieldsAt_cons_iff (i := ⟨[], lit "app"⟩) (d := Sample.cli) (outer := [])).2 ⟨h0, hb'⟩
    have := List.all_eq_true.1 hall0 _ hm
    simp [hd] at this
    exact ⟨by omega, this⟩

/-! ## C34 -/

/-- C34: a long option (`name`, up to a '=') whose name is declared by no field in scope makes parsing fail; if the values
before are acceptable, with exactly the name quoted.  Names that are not valid UTF-8 are included: then `hu` holds
trivially. -/
theorem C34_unknown_long (hd : DerivedArgs cx d) {pre ts : List Bytes} {name tail : Bytes}
    {evs1 : List Event} {st : List (Entry V)} {k : Nat} (hpre : Reads cx (start argv0 d) pre evs1 ⟨st, k, .opts⟩)
    (hname : [dash, dash] <+: name) (hne : name ++ tail ≠ [dash, dash]) (heq : eqSign ∉ name)
    (ht : tail = [] ∨ tail.head? = some eqSign) (hh : name ≠ blit "--help")
    (hu : ∀ n, name = enc ('-' :: '-' :: n) → ∀ b g, InScope st b g → declares cx g (.long n) = false) :
    ∃ e, tryParseFrom d (argv0 :: pre ++ (name ++ tail) :: ts) = .error (.error e)
      ∧ (Acceptable st evs1 → e = { kind := .unknownNamedArgument, input := some name }) := by
  have hs : Stuck cx ⟨st, k, .opts⟩ ((name ++ tail) :: ts) [] (unexpected name) :=
    .longUnknown hname hne heq ht (fun n hn => unknown_iff.2 (fun b g hb hv => hu n hn b g ⟨hb, hv⟩)) hh
  obtain ⟨e, h1, _, h3⟩ := stuck_fails hd hpre hs
  exact ⟨e, h1, fun ha => h3 (by simpa using ha)⟩

/-- C34: an undeclared short option, after any flags bundled with it. -/
theorem C34_unknown_short (hd : DerivedArgs cx d) {pre ts : List Bytes} {fl : List Char} {c : Char}
    {r : Bytes} {evs1 : List Event} {st : List (Entry V)} {k : Nat} (hpre : Reads cx (start argv0 d) pre evs1 ⟨st, k, .opts⟩)
    (hfl : ∀ x ∈ fl, PureFlag cx st x) (hc : c ≠ '-') (hce : c = '=' → fl = []) (hh : c ≠ 'h')
    (hu : ∀ b g, InScope st b g → declares cx g (.short c) = false) :
    ∃ e flags, (∀ x ∈ flags, x.2 = none) ∧ flags.length = fl.length
      ∧ tryParseFrom d (argv0 :: pre ++ (dash :: (enc fl ++ (encChar c ++ r))) :: ts) = .error (.error e)
      ∧ (Acceptable st (evs1 ++ flags) → e = { kind := .unknownNamedArgument, input := some (dash :: encChar c) }) := by
  have hwf := (stack_wf hd.wf (reads_steps hpre)).1
  obtain ⟨evs0, _, h2, hlen, h0⟩ := bundle_flags hwf hfl
  have hu' : Unknown cx st (.short c) := unknown_iff.2 (fun b g hb hv => hu b g ⟨hb, hv⟩)
  have hs : Stuck cx ⟨st, k, .opts⟩ ((dash :: (enc fl ++ (encChar c ++ r))) :: ts) (evs0 ++ []) (unexpected (dash :: encChar c)) := by
    refine .cluster (bundle_head hwf hfl (encChar_head_ne_dash hc r)) ?_
    by_cases hce' : c = '='
    · have hfe := hce hce'
      subst hfe
      have : evs0 = [] := List.length_eq_zero_iff.1 (by simpa using hlen)
      subst this
      simpa [enc_nil] using ClusterStuck.unknown hu' hh
    · exact h2 (by simp [encChar_ne_nil]) (encChar_head_ne_eq hce' r) (.unknown hu' hh)
  obtain ⟨e, h1, _, h3⟩ := stuck_fails hd hpre hs
  exact ⟨e, evs0, h0, hlen, h1, fun ha => h3 (by simpa using ha)⟩

/-- C34: bytes that are not a character in place of a short option. -/
theorem C34_invalid_short (hd : DerivedArgs cx d) {pre ts : List Bytes} {fl : List Char}
    {b : Bytes} {evs1 : List Event} {st : List (Entry V)} {k : Nat} (hpre : Reads cx (start argv0 d) pre evs1 ⟨st, k, .opts⟩)
    (hfl : ∀ x ∈ fl, PureFlag cx st x) (hne : b ≠ []) (hb : ∀ c r, b ≠ encChar c ++ r) :
    ∃ e flags, (∀ x ∈ flags, x.2 = none) ∧ flags.length = fl.length
      ∧ tryParseFrom d (argv0 :: pre ++ (dash :: (enc fl ++ b)) :: ts) = .error (.error e)
      ∧ (Acceptable st (evs1 ++ flags) → e = { kind := .unknownNamedArgument, input := some (dash :: b) }) := by
  have hwf := (stack_wf hd.wf (reads_steps hpre)).1
  obtain ⟨evs0, _, h2, hlen, h0⟩ := bundle_flags hwf hfl
  have hhead : ∀ c : Char, c.toNat < 128 → encChar c = [UInt8.ofNat c.toNat] → b.head? ≠ some (UInt8.ofNat c.toNat) := by
    intro c _ he hh
    cases b with
    | nil => exact hne rfl
    | cons x y =>
      simp only [List.head?_cons, Option.some.injEq] at hh
      exact hb c y (by rw [he, hh]; rfl)
  have hs : Stuck cx ⟨st, k, .opts⟩ ((dash :: (enc fl ++ b)) :: ts) (evs0 ++ []) (unexpected (dash :: b)) :=
    .cluster (bundle_head hwf hfl (hhead '-' (by decide) (by decide)))
      (h2 hne (hhead '=' (by decide) (by decide)) (.invalid hne hb))
  obtain ⟨e, h1, _, h3⟩ := stuck_fails hd hpre hs
  exact ⟨e, evs0, h0, hlen, h1, fun ha => h3 (by simpa using ha)⟩

/-- Undeclared, misspelt and malformed names. -/
example : Sample.failure (Sample.parse ["app", "-v", "--verb=1"]) = some (.error { kind := .unknownNamedArgument, input := some (blit "--verb") })
    ∧ Sample.failure (Sample.parse ["app", "-v", "add", "-fxz"]) = some (.error { kind := .unknownNamedArgument, input := some (blit "-x") })
    ∧ Sample.failure (tryParseFrom Sample.cli [blit "app", blit "-q" ++ [0xff, 0x41], blit "x"])
      = some (.error { kind := .unknownNamedArgument, input := some [dash, 0xff, 0x41] })
    ∧ Sample.failure (tryParseFrom Sample.cli [blit "app", blit "--" ++ [0xc3, 0x28] ++ blit "=v"])
      = some (.error { kind := .unknownNamedArgument, input := some (blit "--" ++ [0xc3, 0x28]) }) := by decide +kernel

example : Reads Sample.cx (start (blit "app") Sample.cli) [blit "-v"] [(⟨0, 0, 0⟩, none)] ⟨[Sample.root], 0, .opts⟩
    ∧ Unknown Sample.cx [Sample.root] (.long (lit "verb")) ∧ Unknown Sample.cx [Sample.root] (.short 'x')
    ∧ PureFlag Sample.cx [Sample.root] 'q' ∧ Acceptable [Sample.root] [(⟨0, 0, 0⟩, none)] := by
  refine ⟨Sample.reads_v, Sample.unknown (by decide +kernel), Sample.unknown (by decide +kernel), ?_, ?_⟩
  · obtain ⟨f, hr, hp⟩ := Sample.resolve (fun f => !takesValue f && !f.src.requireEquals) (st := [Sample.root]) (n := .short 'q')
      (a := ⟨0, 1, 0⟩) (by decide +kernel)
    simp only [Bool.and_eq_true, Bool.not_eq_true'] at hp
    exact ⟨_, f, hr, hp.1, hp.2⟩
  · obtain ⟨evs, κ, out, h, hp⟩ := Sample.parsed ["-v"] (fun evs κ _ => decide (evs = [((⟨0, 0, 0⟩ : Addr), none)])) (by decide +kernel)
    have he := (reads_det h.reads Sample.reads_v).2
    have := h.acceptable
    rw [he] at this
    rw [decide_eq_true_eq] at hp
    rw [hp] at this
    exact this

/-! ## C35 -/

/-- The path of entered commands, as typed. -/
def commandPath (st : List (Entry V)) : List Str := (st.map (fun x => x.1.name)).reverse

/-- The help outcome for the innermost of the entered commands: its text is the about text of that command, followed by a
usage line beginning with the program name and the names of the entered subcommands. -/
def HelpFor (st : List (Entry V)) (e : Error) : Prop :=
  e.kind = .help ∧ ∃ i d outer text rest, st = (i, d) :: outer ∧ e.help = some text
    ∧ text = (if aboutText (coreOf d).cmdMeta = [] then [] else aboutText (coreOf d).cmdMeta ++ lit "\n\n")
        ++ lit "Usage:" ++ (commandPath st).flatMap (fun n => ' ' :: n) ++ rest

theorem cmdline_path (st : List (Entry V)) : cmdline st = (commandPath st).flatMap (fun n => ' ' :: n) := by
  induction st with
  | nil => rfl
  | cons x outer ih =>
    obtain ⟨i, d⟩ := x
    rw [cmdline, ih]
    simp [commandPath]

theorem helpRequest_for {st : List (Entry V)} (hne : st ≠ []) : HelpFor st (helpRequest st) := by
  match st, hne with
  | (i, d) :: outer, _ =>
    refine ⟨rfl, i, d, outer, _, usagePart d.info ++ (lit "\n\n" ++ (commandsPart d.info ++ (sectionOf (lit "Arguments:\n") (d.info.help 3)
      ++ (sectionOf (lit "Options:\n") (d.info.help 2) ++ d.info.help 5)))), rfl, rfl, ?_⟩
    rw [commandHelp, renderHelp_eq, cmdline_path]
    rw [← (info_texts d).1]
    unfold aboutPart
    simp only [List.append_assoc]

/-- C35: `--help`, also with a value, where options are recognised and no field in scope is named `--help`: the help of the
innermost command, whatever constraints are violated and whatever follows. -/
theorem C35_long_help (hd : DerivedArgs cx d) {pre ts : List Bytes} {tail : Bytes}
    {evs1 : List Event} {st : List (Entry V)} {k : Nat} (hpre : Reads cx (start argv0 d) pre evs1 ⟨st, k, .opts⟩)
    (ht : tail = [] ∨ tail.head? = some eqSign)
    (hu : ∀ b g, InScope st b g → declares cx g (.long (lit "help")) = false) (hacc : Acceptable st evs1) :
    ∃ e, tryParseFrom d (argv0 :: pre ++ (blit "--help" ++ tail) :: ts) = .error (.error e) ∧ HelpFor st e := by
  have hs : Stuck cx ⟨st, k, .opts⟩ ((blit "--help" ++ tail) :: ts) [] (helpRequest st) :=
    .longHelp ht (unknown_iff.2 (fun b g hb hv => hu b g ⟨hb, hv⟩))
  obtain ⟨e, h1, _, h3⟩ := stuck_fails hd hpre hs
  exact ⟨e, h1, by rw [h3 (by simpa using hacc)]; exact helpRequest_for (stack_wf hd.wf (reads_steps hpre)).2⟩

/-- C35: `-h`, also after bundled flags and before other characters. -/
theorem C35_short_help (hd : DerivedArgs cx d) {pre ts : List Bytes} {fl : List Char} {r : Bytes}
    {evs1 : List Event} {st : List (Entry V)} {k : Nat} (hpre : Reads cx (start argv0 d) pre evs1 ⟨st, k, .opts⟩)
    (hfl : ∀ x ∈ fl, PureFlag cx st x) (hu : ∀ b g, InScope st b g → declares cx g (.short 'h') = false) :
    ∃ flags, (∀ x ∈ flags, x.2 = none) ∧ flags.length = fl.length ∧ (Acceptable st (evs1 ++ flags) →
      ∃ e, tryParseFrom d (argv0 :: pre ++ (dash :: (enc fl ++ (encChar 'h' ++ r))) :: ts) = .error (.error e) ∧ HelpFor st e) := by
  have hwf := (stack_wf hd.wf (reads_steps hpre)).1
  obtain ⟨evs0, _, h2, hlen, h0⟩ := bundle_flags hwf hfl
  have hs : Stuck cx ⟨st, k, .opts⟩ ((dash :: (enc fl ++ (encChar 'h' ++ r))) :: ts) (evs0 ++ []) (helpRequest st) :=
    .cluster (bundle_head hwf hfl (encChar_head_ne_dash (by decide) r))
      (h2 (by simp [encChar_ne_nil]) (encChar_head_ne_eq (by decide) r)
        (.help (unknown_iff.2 (fun b g hb hv => hu b g ⟨hb, hv⟩))))
  refine ⟨evs0, h0, hlen, fun ha => ?_⟩
  obtain ⟨e, h1, _, h3⟩ := stuck_fails hd hpre hs
  exact ⟨e, h1, by rw [h3 (by simpa using ha)]; exact helpRequest_for (stack_wf hd.wf (reads_steps hpre)).2⟩

/-- C35: a help outcome only arises in these two ways, and always describes the innermost command entered before. -/
theorem C35_help_only (hd : DerivedArgs cx d) {e : Error}
    (h : tryParseFrom d (argv0 :: toks) = .error (.error e)) (hk : e.kind = .help) :
    ∃ pre tok ts evs1 st k, toks = pre ++ tok :: ts ∧ Reads cx (start argv0 d) pre evs1 ⟨st, k, .opts⟩ ∧ HelpFor st e
      ∧ ((∃ tail, tok = blit "--help" ++ tail ∧ (tail = [] ∨ tail.head? = some eqSign)
          ∧ ∀ b g, InScope st b g → declares cx g (.long (lit "help")) = false)
        ∨ ∃ fl r, tok = dash :: (enc fl ++ (encChar 'h' ++ r)) ∧ (∀ c ∈ fl, PureFlag cx st c)
          ∧ ∀ b g, InScope st b g → declares cx g (.short 'h') = false) := by
  have hv : e.kind.ofValue = true → False := by rw [hk]; simp [ErrorKind.ofValue]
  rcases accepts_or_rejects hd.wf argv0 toks with ⟨out, ha⟩ | ⟨e', hr⟩
  · rw [accepts_sound hd.wf ha] at h; cases h
  · rw [rejects_sound hd.wf hr] at h
    cases h
    cases hr with
    | value _ hb => exact (hv (firstBad_kind hb)).elim
    | valueStuck _ hb => exact (hv (firstBad_kind hb)).elim
    | invalid _ _ hf =>
      have := allFail_kind hf
      simp only [Fail.ofConstraint, hk, ErrorKind.ofConstraint] at this
      cases this
    | stuck hh _ =>
      obtain ⟨E1, E2, rest, hs, hst, _⟩ := hh
      obtain ⟨used, hu, hR⟩ := steps_split hs
      have hne := (stack_wf hd.wf (reads_steps hR)).2
      have hsc : ∀ {st : List (Entry V)} {n : Name}, Unknown cx st n → ∀ b g, InScope st b g → declares cx g n = false :=
        fun hu b g hb => unknown_iff.1 hu b g hb.1 hb.2
      cases hst with
      | @longHelp st k tail toks ht hun =>
        exact ⟨used, _, _, E1, _, _, hu, hR, helpRequest_for hne, .inl ⟨tail, rfl, ht, hsc hun⟩⟩
      | cluster hb hc =>
        obtain ⟨fl, r, h1, h2, h3, h4⟩ := clusterStuck_help hc hk
        exact ⟨used, _, _, E1, _, _, hu, hR, h4 ▸ helpRequest_for hne, .inr ⟨fl, r, by rw [h1], h2, hsc h3⟩⟩
      | longUnknown => simp [unexpected] at hk
      | flagValue | missingEq | missingValue => rw [about_kind] at hk; cases hk
      | surplus | dashed => simp only [surplus] at hk; split at hk <;> cases hk

/-- `-v add -fh`: help of `add`, although `add` lacks its required paths. -/
example : Reads Sample.cx (start (blit "app") Sample.cli) [blit "-v", blit "add"] [(⟨0, 0, 0⟩, none)]
        ⟨[Sample.entry "Add" "add" Sample.add, Sample.root], 0, .opts⟩
    ∧ Unknown Sample.cx [Sample.entry "Add" "add" Sample.add, Sample.root] (.short 'h')
    ∧ Unknown Sample.cx [Sample.entry "Add" "add" Sample.add, Sample.root] (.long (lit "help"))
    ∧ PureFlag Sample.cx [Sample.entry "Add" "add" Sample.add, Sample.root] 'f' := by
  refine ⟨Sample.reads_add, Sample.unknown (by decide +kernel), Sample.unknown (by decide +kernel), ?_⟩
  obtain ⟨f, hr, hp⟩ := Sample.resolve (fun f => !takesValue f && !f.src.requireEquals)
    (st := [Sample.entry "Add" "add" Sample.add, Sample.root]) (n := .short 'f') (a := ⟨1, 0, 0⟩) (by decide +kernel)
  simp only [Bool.and_eq_true, Bool.not_eq_true'] at hp
  exact ⟨_, f, hr, hp.1, hp.2⟩

/-- The text of a help outcome. -/
def shownHelp {α : Type} (r : R α) : Option Str :=
  match r with
  | .error (.error e) => if e.kind = .help then e.help else none
  | _ => none

example : (shownHelp (Sample.parse ["app", "-v", "add", "-fh"])).map (fun s => (lit "Usage: app add ").isPrefixOf s) = some true
    ∧ (shownHelp (Sample.parse ["/usr/bin/app", "add", "--help=x", "--bad"])).map (fun s => (lit "Usage: app add ").isPrefixOf s) = some true
    ∧ (shownHelp (Sample.parse ["app", "--help"])).map (fun s => (lit "Usage: app [OPTIONS] [COMMAND]\n\n").isPrefixOf s) = some true := by
  decide +kernel

end Palc
