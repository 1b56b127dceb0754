import Verif.Props.Display
import Verif.Props.Request
import Verif.Props.NoPanic
import Verif.Props.Derive
import Verif.SpecLegal
/-!
# Error messages can be printed safely (C80)
-/

namespace Palc

open Spec

variable {V : Type} {cx : Cx V} {d : ArgsDef V} {argv0 : Bytes} {toks : List Bytes} {evs : List Event} {κ : Ctx V} {e : Error}

/-- A text without control characters: in particular one line, and no escape sequence for the terminal. -/
def Quiet (s : Str) : Prop := ∀ c ∈ s, ¬ Control c

theorem Quiet.append {s t : Str} (hs : Quiet s) (ht : Quiet t) : Quiet (s ++ t) := by
  intro c hc
  rcases List.mem_append.1 hc with h | h
  · exact hs c h
  · exact ht c h

theorem quiet_intercalate {sep : Str} {xs : List Str} (hs : Quiet sep) (hx : ∀ x ∈ xs, Quiet x) : Quiet (List.intercalate sep xs) := by
  induction xs with
  | nil => intro c hc; simp at hc
  | cons x xs ih =>
    cases xs with
    | nil => rw [intercalate_single]; exact hx x (by simp)
    | cons y ys =>
      rw [intercalate_cons_cons]
      exact ((hx x (by simp)).append hs).append (ih (fun z hz => hx z (List.mem_cons_of_mem _ hz)))

theorem quiet_lit {s : Str} (h : s.all (fun c => !isAsciiControl c) = true) : Quiet s := by
  intro c hc hk
  have := List.all_eq_true.1 h c hc
  rw [(control_iff c).2 hk] at this
  cases this

theorem steps_argOf {rest : List Bytes} (h : Steps cx (start argv0 d) toks evs κ rest) {a : Addr} {f : FieldInfo V}
    (hf : fieldAt κ.stack a = some f) : ArgOf d f := by
  have key : ∀ {κ0 : Ctx V}, Steps cx κ0 toks evs κ rest → (∀ x ∈ κ0.stack, Command d x.2) →
      ∀ x ∈ κ.stack, Command d x.2 := by
    intro κ0 hs
    clear h
    induction hs with
    | refl => exact id
    | step h _ ih => exact fun hc => ih hf (command_of_step h hc)
  have hc := key h (by
    intro x hx
    simp only [start, List.mem_singleton] at hx
    subst hx
    exact .root)
  obtain ⟨i, d', c, h1, h2, h3⟩ := fieldAt_mem hf
  exact ⟨d', c, hc _ h1, h2, List.mem_of_getElem? h3⟩

theorem halts_argOf {e' : Error} (h : (∃ rest, Steps cx (start argv0 d) toks evs κ rest) ∨ Halts cx (start argv0 d) toks evs κ e')
    {a : Addr} {f : FieldInfo V} (hf : fieldAt κ.stack a = some f) : ArgOf d f := by
  rcases h with ⟨_, h⟩ | ⟨_, _, _, h, _⟩
  · exact steps_argOf h hf
  · exact steps_argOf h hf

theorem argOf_pre (hd : DerivedArgs cx d) {f : FieldInfo V} (h : ArgOf d f) : FieldPre cx f := by
  obtain ⟨e, c, he, hc, hf⟩ := h
  obtain ⟨i, hi⟩ := List.getElem?_of_mem hf
  exact ((WFArgs.structs e (command_wf hd he) c hc).fields i f hi).toFieldPre

/-- The argument named in an error is described by its description, which has no control characters. -/
theorem desc_quiet {argv : List Bytes} (hd : DerivedArgs cx d) (h : tryParseFrom d argv = .error (.error e)) {t : Str}
    (ht : e.argDesc = some t) : Quiet t := by
  have key : ∀ {f : FieldInfo V}, ArgOf d f → e.argDesc = some f.description → Quiet t := by
    intro f hf he c hc hk
    rw [ht] at he
    cases he
    have := (argOf_pre hd hf).descOk c hc
    rw [(control_iff c).2 hk] at this
    cases this
  cases argv with
  | nil => cases h; cases ht
  | cons argv0 toks =>
    have syn := C26_syntax hd h
    have val := C26_value_partial hd h
    have con := C26_constraint hd h
    have syn' : (e.kind = .missingValue ∨ e.kind = .missingEq ∨ e.kind = .unexpectedInlineValue) → Quiet t := by
      intro hk
      rcases syn hk with ⟨evs, κ, tok, rest, n, a, f, hs, _, hr, he⟩ | ⟨_, evs, κ, a, v, f, _, _, _, _, _, he⟩
      · exact key (steps_argOf hs (resolves_fieldAt hr)) he
      · rw [ht] at he; cases he
    have val' : (e.kind = .invalidValue ∨ e.kind = .duplicatedNamedArgument) → Quiet t := by
      intro hk
      obtain ⟨evs, κ, pre, post, a, o, f, hs, _, hf, _, _, _, he⟩ := val hk
      split at he
      · rcases hs with hs | ⟨_, hs⟩
        · exact key (halts_argOf (e' := e) (.inl hs) hf) he
        · exact key (halts_argOf (.inr hs) hf) he
      · rw [ht] at he; cases he
    have con' : (e.kind = .missingRequiredArgument ∨ e.kind = .constraintRequired ∨ e.kind = .constraintExclusive
        ∨ e.kind = .constraintConflict) → Quiet t := by
      intro hk
      obtain ⟨evs, κ, a, f, hs, hf, he, _⟩ := con hk
      exact key (steps_argOf (reads_steps hs) hf) he
    cases rejected_shape hd h with
    | @name k t' hk =>
      cases k <;> simp only [ErrorKind.names, Bool.false_eq_true] at hk
      all_goals first
        | exact syn' (.inl rfl) | exact syn' (.inr (.inl rfl)) | exact val' (.inr rfl) | exact con' (.inl rfl)
        | exact con' (.inr (.inl rfl)) | exact con' (.inr (.inr (.inl rfl))) | exact con' (.inr (.inr (.inr rfl)))
    | flagValue => exact syn' (by simp)
    | value => exact val' (by simp)
    | _ => simp at ht

/-- The possible values of an accepted enum have no control characters. -/
theorem values_quiet {vs : List (Str × V)} {en : EnumDef V} (h : deriveValueEnum vs = .ok en) : Quiet (possibleValues en.possibleInputsNul) := by
  obtain ⟨ns, hp, he⟩ := C45_possible_values h
  rw [he]
  refine ((quiet_lit (by decide)).append (quiet_intercalate (quiet_lit (by decide)) ?_)).append (quiet_lit (by decide))
  intro x hx c hc hk
  obtain ⟨v, hv, rfl⟩ := List.mem_map.1 (hp.mem_iff.1 hx)
  unfold deriveValueEnum at h
  simp only at h
  split at h
  · next h' =>
    have := List.flatMap_eq_nil_iff.1 h'.1 v hv
    split at this
    · cases this
    · next hn =>
      apply hn
      exact List.any_eq_true.2 ⟨c, hc, (control_iff c).2 hk⟩
  · cases h

theorem message_quiet {fmt : Error.Fmt} (hf : ∀ x, Quiet (fmt.debugOs x)) (hd : ∀ t, e.argDesc = some t → Quiet t) :
    Quiet (e.message fmt) := by
  have ht : Quiet (e.argDesc.getD (lit "<unknown argument>")) := by
    cases h : e.argDesc with
    | none => exact quiet_lit (by decide)
    | some t => exact hd t h
  have hi := hf (e.input.getD (blit "<unknown>"))
  unfold Error.message
  cases e.kind <;> simp only <;> repeat' apply Quiet.append
  all_goals first | exact hi | exact ht | exact quiet_lit (by decide)

/-- What an error carries besides its kind, input and argument comes from a value parser. -/
theorem extra_of_value {argv : List Bytes} (hd : DerivedArgs cx d) (h : tryParseFrom d argv = .error (.error e)) :
    e.source = none ∧ e.contextualHelp = []
    ∨ ∃ (f : FieldInfo V) (x : Bytes) (e0 : Error), ArgOf d f ∧ f.parser.parse x = .error e0 ∧ e.source = e0.source
        ∧ e.contextualHelp = e0.contextualHelp := by
  cases argv with
  | nil => cases h; exact .inl ⟨rfl, rfl⟩
  | cons argv0 toks =>
    have val := C40_reported hd h
    cases rejected_shape hd h with
    | value =>
      obtain ⟨evs, κ, a, b, x, f, e0, hs, _, hf, _, hp, _, h1, h2⟩ := val rfl
      refine .inr ⟨f, x, e0, ?_, hp, h1, h2⟩
      rcases hs with hs | ⟨_, hs⟩
      · exact halts_argOf (e' := e0) (.inl hs) hf
      · exact halts_argOf (.inr hs) hf
    | _ => exact .inl ⟨rfl, rfl⟩

/-- C80: the text of an error is one line without control characters, apart from the text of the error of the user's value
parser, followed for values of a `ValueEnum` by one more line with the possible values.  Arguments are shown by `{:?}`, which
is assumed to escape control characters. -/
theorem C80_lines {argv : List Bytes} (hd : DerivedArgs cx d)
    (henum : ∀ f en, ArgOf d f → f.parser = .valueEnum en → ∃ vs, deriveValueEnum vs = .ok en)
    {fmt : Error.Fmt} (hf : ∀ x, Quiet (fmt.debugOs x))
    (h : tryParseFrom d argv = .error (.error e)) (hk : e.kind ≠ .help) :
    ∃ line source rest, e.display fmt = .ok (line ++ source ++ rest) ∧ Quiet line
      ∧ (source = [] ∧ e.source = none ∨ ∃ s, e.source = some s ∧ source = lit ": " ++ Error.showSource fmt s)
      ∧ (rest = [] ∨ ∃ values, rest = lit "\n  [possible values: " ++ values ++ lit "]" ∧ Quiet values) := by
  have hc := (C50_other hd h fmt).2.2.2
  have hm := message_quiet hf (fun t ht => desc_quiet hd h ht)
  have hctx : e.contextualHelp = [] ∨ ∃ values, e.contextualHelp = lit "[possible values: " ++ values ++ lit "]" ∧ Quiet values := by
    rcases extra_of_value hd h with ⟨_, h2⟩ | ⟨f, x, e0, hf, hp, _, h2⟩
    · exact .inl h2
    · rw [h2]
      cases hpar : f.parser with
      | valueEnum en =>
        obtain ⟨vs, hvs⟩ := henum f en hf hpar
        rw [hpar] at hp
        have hv := values_quiet hvs
        refine .inr ⟨List.intercalate (lit ", ") (splitTerminator nul en.possibleInputsNul), ?_, ?_⟩
        · simp only [ValueParser.parse] at hp
          split at hp
          · split at hp
            · cases hp
            · cases hp; rfl
          · cases hp; rfl
        · intro c hc
          exact hv c (by unfold possibleValues; simp [hc])
      | tryFromOsStr g =>
        rw [hpar] at hp
        simp only [ValueParser.parse] at hp
        split at hp
        · cases hp
        · cases hp; exact .inl rfl
      | fromStr g =>
        rw [hpar] at hp
        simp only [ValueParser.parse] at hp
        split at hp
        · split at hp
          · cases hp
          · cases hp; exact .inl rfl
        · cases hp; exact .inl rfl
  have hdisp : e.display fmt = .ok (e.message fmt
      ++ (match e.source with
          | some s => lit ": " ++ Error.showSource fmt s
          | none => [])
      ++ (if e.contextualHelp.isEmpty then [] else lit "\n  " ++ e.contextualHelp)) := by
    unfold Error.display
    split
    · next hcu => exact absurd hcu hc
    · simp only [if_neg hk, List.append_nil]; rfl
  refine ⟨_, _, _, hdisp, hm, ?_, ?_⟩
  · cases e.source with
    | none => exact .inl ⟨rfl, rfl⟩
    | some s => exact .inr ⟨s, rfl, rfl⟩
  · rcases hctx with hctx | ⟨values, hctx, hq⟩
    · left; rw [hctx]; rfl
    · right
      refine ⟨values, ?_, hq⟩
      rw [hctx]
      simp [lit]

/-- C80: so, if the errors of value parsers are free of control characters, nothing on the command line can make an error
message contain any, except the line break before the possible values.  Full statement: the same for help texts, up to what the
author wrote.  Missing: for them it is false, the program name is not escaped (`C80_not_help`). -/
theorem C80_quiet_partial {argv : List Bytes} (hd : DerivedArgs cx d)
    (henum : ∀ f en, ArgOf d f → f.parser = .valueEnum en → ∃ vs, deriveValueEnum vs = .ok en)
    {fmt : Error.Fmt} (hf : ∀ x, Quiet (fmt.debugOs x)) (hu : Quiet fmt.utf8Err)
    (huser : ∀ (f : FieldInfo V) (x : Bytes) (e0 : Error) (m : Str), ArgOf d f → f.parser.parse x = .error e0 →
      e0.source = some (.user m) → Quiet m)
    (h : tryParseFrom d argv = .error (.error e)) (hk : e.kind ≠ .help) :
    ∃ text, e.display fmt = .ok text ∧ (∀ c ∈ text, Control c → c = '\n') ∧ text.count '\n' ≤ 1 := by
  obtain ⟨line, source, rest, hdisp, hl, hs, hr⟩ := C80_lines hd henum hf h hk
  have hq : Quiet source := by
    rcases hs with ⟨hs, _⟩ | ⟨s, hs, rfl⟩
    · subst hs; intro c hc; cases hc
    · refine (quiet_lit (by decide)).append ?_
      cases s with
      | utf8 => exact hu
      | user m =>
        rcases extra_of_value hd h with ⟨h1, _⟩ | ⟨f, x, e0, hf, hp, h1, _⟩
        · rw [h1] at hs; cases hs
        · exact huser f x e0 m hf hp (h1.symm.trans hs)
  have hcount : ∀ {s : Str}, Quiet s → s.count '\n' = 0 := by
    intro s hs
    exact List.count_eq_zero.2 (fun hm => hs _ hm ((control_iff _).1 (by decide)))
  refine ⟨_, hdisp, ?_, ?_⟩
  · intro c hc hctl
    rcases List.mem_append.1 hc with hc | hc
    · exact absurd hctl ((hl.append hq) c hc)
    · rcases hr with rfl | ⟨values, rfl, hv⟩
      · cases hc
      · have : Quiet ((lit "  [possible values: " ++ values) ++ lit "]") :=
          ((quiet_lit (by decide)).append hv).append (quiet_lit (by decide))
        have hc : c ∈ '\n' :: ((lit "  [possible values: " ++ values) ++ lit "]") := by simpa [lit] using hc
        rcases List.mem_cons.1 hc with hc | hc
        · exact hc
        · exact absurd hctl (this c hc)
  · rw [List.count_append, hcount (hl.append hq)]
    rcases hr with rfl | ⟨values, rfl, hv⟩
    · simp
    · rw [List.count_append, List.count_append, hcount hv]
      decide

/-! ## Help texts

A help text is made of the definition, the names of the entered subcommands and the program name; nothing else on the
command line appears in it (C44_help).  The program name is the file name of `argv[0]`, and it is not escaped. -/

/-- C80, finding 19: the program name is printed as it is, control characters included. -/
theorem C80_not_help : DerivedArgs Sample.cx Sample.drop
    ∧ ∃ e text, tryParseFrom Sample.drop [blit "\x1b[2J", blit "--help"] = .error (.error e) ∧ e.tryIntoHelp = .ok text
      ∧ lit "Usage: \x1b[2J" <+: text := by
  refine ⟨Sample.drop_derived, ?_⟩
  have key : (match tryParseFrom Sample.drop [blit "\x1b[2J", blit "--help"] with
    | .error (.error e) => match e.tryIntoHelp with
      | .ok text => (lit "Usage: \x1b[2J").isPrefixOf text
      | .error _ => false
    | _ => false) = true := by decide +kernel
  split at key
  · next e he =>
    split at key
    · next text ht => exact ⟨e, text, he, ht, List.isPrefixOf_iff_prefix.1 key⟩
    · cases key
  · cases key

namespace Sample

/-- Formatting that escapes everything but printable ASCII, for the examples. -/
def escaping : Error.Fmt :=
  { debugOs := fun b => '"' :: b.flatMap (fun x =>
      if 32 ≤ x.toNat ∧ x.toNat < 127 ∧ x.toNat ≠ 34 ∧ x.toNat ≠ 92 then [Char.ofNat x.toNat]
      else lit "\\x" ++ [(Nat.digitChar (x.toNat / 16)), (Nat.digitChar (x.toNat % 16))]) ++ ['"']
    utf8Err := lit "invalid utf-8" }

theorem escaping_quiet (x : Bytes) : Quiet (escaping.debugOs x) := by
  have h1 : ∀ b : UInt8, Quiet (if 32 ≤ b.toNat ∧ b.toNat < 127 ∧ b.toNat ≠ 34 ∧ b.toNat ≠ 92 then [Char.ofNat b.toNat]
      else lit "\\x" ++ [(Nat.digitChar (b.toNat / 16)), (Nat.digitChar (b.toNat % 16))]) := by
    have : ∀ n : Fin 256, (if 32 ≤ n.val ∧ n.val < 127 ∧ n.val ≠ 34 ∧ n.val ≠ 92 then [Char.ofNat n.val]
      else lit "\\x" ++ [(Nat.digitChar (n.val / 16)), (Nat.digitChar (n.val % 16))]).all (fun c => !isAsciiControl c) = true := by
      decide +kernel
    intro b
    exact quiet_lit (this ⟨b.toNat, b.toNat_lt⟩)
  have h2 : Quiet ['"'] := quiet_lit (by decide)
  have h3 : Quiet (x.flatMap (fun x => if 32 ≤ x.toNat ∧ x.toNat < 127 ∧ x.toNat ≠ 34 ∧ x.toNat ≠ 92 then [Char.ofNat x.toNat]
      else lit "\\x" ++ [(Nat.digitChar (x.toNat / 16)), (Nat.digitChar (x.toNat % 16))])) := by
    intro c hc
    obtain ⟨b, _, hb⟩ := List.mem_flatMap.1 hc
    exact h1 b c hb
  exact (h2.append h3).append h2

/-- A number and a value of an enum. -/
def noteDecls : List (FieldDecl Val) :=
  [.arg (lit "jobs") (.option number) { long := some .inherit }, .arg (lit "format") (.option format) { long := some .inherit }]

def note : ArgsDef Val := get (deriveArgs Sample.cx none noteDecls)

theorem note_derived : DerivedArgs Sample.cx note := derived_leaf (by decide) (by decide)

theorem note_args {f : FieldInfo Val} (h : ArgOf note f) : f.parser = .fromStr numberOf ∨ f.parser = .valueEnum formatEnum := by
  obtain ⟨e, c, he, hc, hf⟩ := h
  have : e = note := by
    cases he with
    | root => rfl
    | sub h hv =>
      exfalso
      have key : ∀ e', Command note e' → e' = note := by
        intro e' h'
        induction h' with
        | root => rfl
        | sub _ hv ih => rw [ih] at hv; exact absurd hv (by simp [show subVariants note = [] from rfl])
      rw [key _ h] at hv
      simp [show subVariants note = [] from rfl] at hv
  subst this
  have hs : structs note = [coreOf note] := rfl
  rw [hs, List.mem_singleton] at hc
  subst hc
  have hfs : (coreOf note).fields.map (·.parser) = [.fromStr numberOf, .valueEnum formatEnum] := rfl
  have := List.mem_map_of_mem (f := fun f : FieldInfo Val => f.parser) hf
  rw [hfs] at this
  simpa using this

/-- The text of the error for arguments given as bytes. -/
def noteText (args : List Bytes) : Option String :=
  match failure (tryParseFrom note args) with
  | some (.error e) =>
    match e.display escaping with
    | .ok s => some (String.ofList s)
    | .error _ => none
  | _ => none

end Sample

/-- The hypotheses of `C80_quiet_partial` hold for the sample. -/
example : DerivedArgs Sample.cx Sample.note
    ∧ (∀ f en, ArgOf Sample.note f → f.parser = .valueEnum en → ∃ vs, deriveValueEnum vs = .ok en)
    ∧ (∀ x, Quiet (Sample.escaping.debugOs x)) ∧ Quiet Sample.escaping.utf8Err
    ∧ (∀ (f : FieldInfo Sample.Val) (x : Bytes) (e0 : Error) (m : Str), ArgOf Sample.note f → f.parser.parse x = .error e0 →
        e0.source = some (.user m) → Quiet m)
    ∧ Sample.noteText [blit "app", blit "--format=a\x1b[2J\n"]
        = some "invalid value \"a\\x1b[2J\\x0a\" for '--format <FORMAT>'\n  [possible values: json, text]"
    ∧ Sample.noteText [blit "app", blit "--jobs=\x1b"] = some "invalid value \"\\x1b\" for '--jobs <JOBS>': invalid digit found in string"
    ∧ Sample.noteText [blit "app", blit "-\n"] = some "unexpected argument \"-\\x0a\"" := by
  refine ⟨Sample.note_derived, ?_, Sample.escaping_quiet, quiet_lit (by decide), ?_, by decide +kernel, by decide +kernel, by decide +kernel⟩
  · intro f en hf hp
    rcases Sample.note_args hf with h | h
    · rw [h] at hp; cases hp
    · rw [h] at hp; cases hp
      exact ⟨[(lit "json", lit "Json"), (lit "text", lit "Text")], rfl⟩
  · intro f x e0 m hf hp hm
    rcases Sample.note_args hf with h | h
    · rw [h] at hp
      simp only [ValueParser.parse] at hp
      split at hp
      · split at hp
        · cases hp
        · next herr =>
          cases hp
          cases hm
          unfold Sample.numberOf at herr
          simp only at herr
          split at herr <;> split at herr
          · cases herr
          · cases herr; exact quiet_lit (by decide)
          · cases herr
          · cases herr; exact quiet_lit (by decide)
      · cases hp; cases hm
    · rw [h] at hp
      simp only [ValueParser.parse] at hp
      split at hp
      · split at hp
        · cases hp
        · cases hp; cases hm
      · cases hp; cases hm

end Palc
