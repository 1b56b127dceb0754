import Verif.NoHelp
import Verif.Lemmas.Shapes
/-! The builds with and without the feature `help` run in step. -/

namespace Palc

open Spec

variable {V : Type} {α β : Type}

/-- An error that is not a help request and not about an undeclared `-h` or `--help`. -/
def Unrelated (e : Error) : Prop :=
  e.kind ≠ .help ∧ (e.kind = .unknownNamedArgument → e.input ≠ some (blit "-h") ∧ e.input ≠ some (blit "--help"))

/-- A help request becomes an undeclared option. -/
def Turns (e e' : Error) : Prop :=
  e.kind = .help ∧ ∃ x, (x = blit "-h" ∨ x = blit "--help") ∧ e' = { kind := .unknownNamedArgument, input := some x }

/-- Results of the builds with and without the feature. -/
def Agree (r r' : R α) : Prop :=
  match r with
  | .ok a => r' = .ok a
  | .error .panic => r' = .error .panic
  | .error (.error e) => (Unrelated e ∧ r' = .error (.error e)) ∨ ∃ e', Turns e e' ∧ r' = .error (.error e')

/-- All errors are unrelated to help. -/
def Plainly (r : R α) : Prop := ∀ e, r = .error (.error e) → Unrelated e

theorem Plainly.agree {r : R α} (h : Plainly r) : Agree r r := by
  match r, h with
  | .ok a, _ => rfl
  | .error .panic, _ => rfl
  | .error (.error e), h => exact .inl ⟨h e rfl, rfl⟩

theorem Agree.err {e : Fail} {r' : R α} (h : Agree (.error e) r') : ∃ e', r' = .error e' ∧ ∀ {β : Type}, Agree (α := β) (.error e) (.error e') := by
  match e, h with
  | .panic, h => exact ⟨_, h, rfl⟩
  | .error e, .inl ⟨h, h'⟩ => exact ⟨_, h', .inl ⟨h, rfl⟩⟩
  | .error e, .inr ⟨e', h, h'⟩ => exact ⟨_, h', .inr ⟨e', h, rfl⟩⟩

/-- Both succeed or both fail. -/
theorem Agree.both {r r' : R α} (h : Agree r r') :
    (∃ a, r = .ok a ∧ r' = .ok a) ∨ ∃ e e', r = .error e ∧ r' = .error e' ∧ ∀ {β : Type}, Agree (α := β) (.error e) (.error e') := by
  match r, h with
  | .ok a, h => exact .inl ⟨a, rfl, h⟩
  | .error e, h =>
    obtain ⟨e', h1, h2⟩ := h.err
    exact .inr ⟨e, e', rfl, h1, h2⟩

theorem Agree.of_ok {r r' : R α} {a : α} (h : Agree r r') (hr : r = .ok a) : r' = .ok a := by
  subst hr; exact h

theorem Agree.of_ok' {r r' : R α} {a : α} (h : Agree r r') (hr : r' = .ok a) : r = .ok a := by
  match r, h with
  | .ok b, h => rw [show r' = .ok b from h] at hr; cases hr; rfl
  | .error e, h =>
    obtain ⟨e', rfl, h2⟩ := h.err
    cases hr

theorem plainly_ok (a : α) : Plainly (.ok a) := by intro e h; cases h
theorem plainly_panic : Plainly (panicR : R α) := by intro e h; cases h

theorem unrelated_kind {e : Error} (h : e.kind ≠ .help) (h' : e.kind ≠ .unknownNamedArgument) : Unrelated e :=
  ⟨h, fun hk => absurd hk h'⟩

theorem plainly_err {e : Error} (h : Unrelated e) : Plainly (errR e : R α) := by
  intro e' he; cases he; exact h

/-! ## Errors of the shared parts -/

theorem search_plainly (ch : Chain V) (name : Bytes) (glob : Bool) : Plainly (searchNamed ch name glob) := by
  have : ∀ e, searchNamed ch name glob ≠ .error (.error e) := by
    induction ch generalizing glob with
    | nil => intro e h; cases h
    | cons fr ch ih =>
      intro e h
      cases fr with
      | args f =>
        simp only [searchNamed] at h
        have hup : ∀ r : R (Option (Hit V)), (match searchNamed ch name glob with
            | .ok (some h) => .ok (some { h with depth := h.depth + 1 })
            | .ok none => .ok none
            | .error e => .error e) = r → r ≠ .error (.error e) := by
          intro r hr he
          subst hr
          revert he
          cases hs : searchNamed ch name glob with
          | ok o => cases o <;> simp
          | error x => intro he; simp only at he; cases he; exact ih glob e hs
        split at h
        · split at h
          · split at h
            · cases h
            · cases h
          · exact hup _ rfl h
        · exact hup _ rfl h
      | command n =>
        simp only [searchNamed] at h
        split at h
        · cases h
        · cases h
        · cases h; exact ih true e ‹_›
  intro e h
  exact absurd h (this e)

theorem parseFrom_unrelated {pl : Place V} {v : Option Bytes} {e : Error} (h : pl.parseFrom v = .error e) : Unrelated e := by
  rcases parseFrom_kind h with h | h | h <;> exact unrelated_kind (by rw [h]; simp) (by rw [h]; simp)

theorem drain_unrelated {pl : Place V} {ts : Toks} {e : Error} (h : drain pl ts = .error e) : Unrelated e := by
  induction ts generalizing pl with
  | nil => cases h
  | cons t ts ih =>
    simp only [drain] at h
    split at h
    · exact ih h
    · cases h; exact parseFrom_unrelated ‹_›

theorem visitPositional_plainly (cur : ArgsFrame V) (isLast : Bool) (arg : Bytes) (rest : Toks) :
    Plainly (visitPositional cur isLast arg rest) := by
  intro e h
  unfold visitPositional at h
  dsimp only at h
  split at h
  · split at h <;> cases h <;> exact unrelated_kind (by simp [Error.withInput]) (by simp [Error.withInput])
  · split at h
    · rename_i he
      cases h
      unfold incU8 at he
      split at he
      · cases he
      · split at he <;> cases he
    · split at h
      · cases h
      · split at h
        · cases h; exact parseFrom_unrelated ‹_›
        · split at h
          · split at h
            · cases h; exact drain_unrelated ‹_›
            · cases h
          · cases h

theorem dashLoop_plainly (cur : ArgsFrame V) (ts : Toks) : Plainly (dashLoop cur ts) := by
  induction ts generalizing cur with
  | nil => exact plainly_ok _
  | cons t ts ih =>
    intro e h
    simp only [dashLoop] at h
    split at h
    · cases h; exact visitPositional_plainly _ _ _ _ _ ‹_›
    · cases h
    · exact ih _ e h

theorem enterDash_plainly (cur : ArgsFrame V) : Plainly (enterDash cur) := by
  intro e h
  unfold enterDash at h
  split at h
  · split at h
    · split at h <;> cases h
    · cases h
  · cases h

theorem withArgIdx_unrelated {k : ErrorKind} (info : ArgsInfo) (idx : Nat) (h : k ≠ .help) (h' : k ≠ .unknownNamedArgument) :
    Unrelated (withArgIdx k info idx) := unrelated_kind h h'

theorem isSet_plainly (vars : Vars V) (i : Str) : Plainly (vars.isSet i) := by
  intro e h
  unfold Vars.isSet at h
  split at h <;> cases h

theorem firstRef_plainly (vars : Vars V) (want : Bool) (l : List (Str × Nat)) : Plainly (firstRef vars want l) := by
  induction l with
  | nil => exact plainly_ok _
  | cons x l ih =>
    obtain ⟨i, n⟩ := x
    intro e h
    simp only [firstRef] at h
    split at h
    · cases h; exact isSet_plainly _ _ _ ‹_›
    · split at h
      · cases h
      · exact ih e h

theorem refHit_plainly (vars : Vars V) (want : Bool) (is : List Str) (o : Option (List Nat)) : Plainly (refHit vars want is o) := by
  cases o with
  | none => exact plainly_ok _
  | some l => exact firstRef_plainly _ _ _

theorem onSetCheck_plainly (info : ArgsInfo) (vars : Vars V) (t : Nat) (f : FieldInfo V) (pl : Place V) :
    Plainly (onSetCheck info vars t f pl) := by
  intro e h
  unfold onSetCheck at h
  split at h
  · split at h
    · cases h; exact withArgIdx_unrelated _ _ (by simp) (by simp)
    · split at h
      · cases h; exact refHit_plainly _ _ _ _ _ ‹_›
      · cases h; exact withArgIdx_unrelated _ _ (by simp) (by simp)
      · split at h
        · cases h; exact refHit_plainly _ _ _ _ _ ‹_›
        · cases h; exact withArgIdx_unrelated _ _ (by simp) (by simp)
        · cases h
  · cases h

theorem onSetChecks_plainly (info : ArgsInfo) (vars : Vars V) (t : Nat) (l : Vars V) : Plainly (onSetChecks info vars t l) := by
  induction l with
  | nil => exact plainly_ok _
  | cons x l ih =>
    obtain ⟨f, pl⟩ := x
    intro e h
    simp only [onSetChecks] at h
    split at h
    · cases h; exact onSetCheck_plainly _ _ _ _ _ _ ‹_›
    · exact ih e h

theorem onUnset_plainly (info : ArgsInfo) (f : FieldInfo V) (pl : Place V) : Plainly (onUnset info f pl) := by
  intro e h
  unfold onUnset at h
  split at h
  · cases h
  · split at h
    · unfold Place.setDefault at h
      split at h <;> cases h
    · unfold Place.setDefaultParse at h
      split at h
      · cases h
      · split at h <;> cases h
    · split at h
      · cases h; exact withArgIdx_unrelated _ _ (by simp) (by simp)
      · cases h

theorem onUnsets_plainly (info : ArgsInfo) (l : Vars V) : Plainly (onUnsets info l) := by
  induction l with
  | nil => exact plainly_ok _
  | cons x l ih =>
    obtain ⟨f, pl⟩ := x
    intro e h
    simp only [onUnsets] at h
    split at h
    · cases h; exact onUnset_plainly _ _ _ _ ‹_›
    · split at h
      · cases h; exact ih _ ‹_›
      · cases h

theorem extract_plainly (f : FieldInfo V) (pl : Place V) : Plainly (f.extract pl) := by
  intro e h
  unfold FieldInfo.extract at h
  split at h
  all_goals first
    | cases h
    | (split at h <;> cases h)

theorem extractAll_plainly (l : Vars V) : Plainly (extractAll l) := by
  induction l with
  | nil => exact plainly_ok _
  | cons x l ih =>
    obtain ⟨f, pl⟩ := x
    intro e h
    simp only [extractAll] at h
    split at h
    · cases h; exact extract_plainly _ _ _ ‹_›
    · split at h
      · cases h; exact ih _ ‹_›
      · cases h

theorem extractSub_plainly (s : SubField V) (o : Option (Out V)) : Plainly (extractSub s o) := by
  intro e h
  unfold extractSub at h
  split at h
  · cases h
  · cases h
  · split at h <;> cases h

theorem totalArgs_plainly (vars : Vars V) (b : Bool) : Plainly (totalArgs vars b) := by
  unfold totalArgs
  dsimp only
  generalize (vars.filter (fun x => x.2.isSet)).length + (if b then 1 else 0) = n
  split
  · exact plainly_ok _
  · exact plainly_panic

theorem finish_plainly (c : Core V) (s : SubField V) (info : ArgsInfo) (pls : List (Place V)) (fl : List (Str × Out V))
    (o : Option (Out V)) : Plainly (finish c s info pls fl o) := by
  intro e h
  unfold finish at h
  dsimp only at h
  split at h
  · rename_i he
    cases h
    split at he
    · exact totalArgs_plainly _ _ _ he
    · cases he
  · split at h
    · cases h; exact onSetChecks_plainly _ _ _ _ _ ‹_›
    · split at h
      · cases h; exact onUnsets_plainly _ _ _ ‹_›
      · repeat' split at h
        all_goals first
          | (cases h; done)
          | (cases h; exact extractAll_plainly _ _ ‹_›)
          | (cases h; exact extractSub_plainly _ _ _ ‹_›)
          | (cases h; exact unrelated_kind (by simp [Error.new]) (by simp [Error.new]))

/-! ## The runtime -/

/-- The encoded names that `run_parser` looks up: of an option `--name`, of a short option, or the tail of a bundle that is
not text. -/
def Looked (isShort : Bool) (name : Bytes) : Prop :=
  if isShort then name ≠ blit "-help" ∧ name ≠ blit "--help" else startsWith name (blit "--") = true

theorem visitNamed_agree (cur : ArgsFrame V) (parents : Chain V) (isShort : Bool) (name : Bytes) (inl : InlineValue)
    (next : Option Bytes) (hl : Looked isShort name) :
    Agree (visitNamed cur parents isShort name inl next) (visitNamedN cur parents isShort name inl next) := by
  unfold visitNamed visitNamedN
  have hs := search_plainly (.args cur :: parents) name false
  cases h : searchNamed (.args cur :: parents) name false with
  | error e => rw [h] at hs; exact Plainly.agree (fun e' he => by cases he; exact hs e' rfl)
  | ok o =>
    cases o with
    | none =>
      dsimp only
      split
      · rename_i hh
        refine .inr ⟨_, ⟨?_, _, ?_, rfl⟩, rfl⟩
        · simp [maybeRenderHelp, Error.new]
        · cases isShort with
          | true =>
            rcases hh with rfl | rfl
            · exact .inl rfl
            · exact absurd rfl hl.2
          | false =>
            rcases hh with rfl | rfl
            · exact absurd (show startsWith (blit "h") (blit "--") = true from hl) (by decide)
            · exact .inr rfl
      · rename_i hh
        refine (plainly_err ⟨by simp [Error.withInput], fun _ => ?_⟩).agree
        cases isShort with
        | true =>
          simp only [Error.withInput, if_true, Option.some.injEq, ne_eq]
          constructor
          · intro he
            exact hh (.inl (List.cons.inj he).2)
          · intro he
            exact hl.1 (List.cons.inj he).2
        | false =>
          simp only [Error.withInput, Bool.false_eq_true, if_false, Option.some.injEq, ne_eq]
          constructor
          · rintro rfl
            exact absurd (show startsWith (blit "-h") (blit "--") = true from hl) (by decide)
          · exact fun he => hh (.inr he)
    | some hit =>
      dsimp only
      cases ha : assign hit.attrs hit.place inl next with
      | ok r =>
        obtain ⟨pl, took⟩ := r
        dsimp only
        cases hit.depth <;> rfl
      | error e =>
        dsimp only [maybeRenderHelpN]
        have hk : (e.withArgDesc (hit.info.getDescription hit.attrs.getIndex)).kind ≠ .help := by
          show e.kind ≠ .help
          exact assign_kind ha
        unfold maybeRenderHelp
        rw [if_neg hk]
        refine (plainly_err (unrelated_kind hk ?_)).agree
        show e.kind ≠ _
        unfold assign at ha
        split at ha
        · cases ha
          rcases selectValue_kind ‹_› with h | h <;> rw [h] <;> simp
        · split at ha
          · cases ha
          · rename_i he
            cases ha
            unfold storeValue at he
            rcases parseFrom_kind he with h | h | h <;> rw [h] <;> simp

theorem encChar_looked (c : Char) : Looked true (encChar c) := by
  have h : ∀ s : Str, s.length ≠ 1 → encChar c ≠ enc s := by
    intro s hs he
    have : [c] = s := enc_injective (by rw [← he]; simp [enc])
    subst this
    exact hs rfl
  exact ⟨h (lit "-help") (by decide), h (lit "--help") (by decide)⟩

theorem tail_looked {b : Bytes} (h : (utf8Chunk b).2 ≠ []) : Looked true (utf8Chunk b).2 :=
  ⟨fun he => ne_enc_of_tail h (utf8Chunk_rest_not_char b) (lit "-help") he.symm,
    fun he => ne_enc_of_tail h (utf8Chunk_rest_not_char b) (lit "--help") he.symm⟩

theorem bundleLoop_agree (b : Bytes) (next : Option Bytes) (cs : Str) : ∀ (cur : ArgsFrame V) (parents : Chain V) (idx : Nat),
    Agree (bundleLoop b next cur parents idx cs) (bundleLoopN b next cur parents idx cs) := by
  induction cs with
  | nil => intro cur parents idx; rfl
  | cons c cs ih =>
    intro cur parents idx
    simp only [bundleLoop, bundleLoopN]
    cases osIndex b (idx + (encChar c).length) with
    | none => rfl
    | some after =>
      dsimp only
      rcases (visitNamed_agree cur parents true (encChar c) (shortInline after) next
          (encChar_looked c)).both with ⟨⟨cur', parents', fl⟩, h1, h2⟩ | ⟨e, e', h1, h2, h3⟩
      · rw [h1, h2]
        cases fl with
        | brk t => rfl
        | cont => exact ih _ _ _
      · rw [h1, h2]; exact h3

theorem visitBundle_agree (cur : ArgsFrame V) (parents : Chain V) (b : Bytes) (next : Option Bytes) :
    Agree (visitBundle cur parents b next) (visitBundleN cur parents b next) := by
  unfold visitBundle visitBundleN
  have hd : b.drop (enc (utf8Chunk b).1).length = (utf8Chunk b).2 := by
    conv => lhs; arg 2; rw [← utf8Chunk_join b]
    rw [List.drop_left]
  dsimp only
  rcases (bundleLoop_agree b next (utf8Chunk b).1 cur parents 0).both with ⟨⟨cur', parents', fl⟩, h1, h2⟩ | ⟨e, e', h1, h2, h3⟩
  · rw [h1, h2]
    cases fl with
    | brk t => rfl
    | cont =>
      dsimp only
      by_cases ht : (utf8Chunk b).2 = []
      · rw [if_neg (by simp [ht]), if_neg (by simp [ht])]; rfl
      · rw [if_pos ht, if_pos ht, osIndex_chunk, hd]
        dsimp only
        rcases (visitNamed_agree cur' parents' true (utf8Chunk b).2 .none next (tail_looked ht)).both with
          ⟨x, g1, g2⟩ | ⟨e, e', g1, g2, g3⟩
        · rw [g1, g2]; rfl
        · rw [g1, g2]; exact g3
  · rw [h1, h2]; exact h3

theorem visitLong_agree (cur : ArgsFrame V) (parents : Chain V) (arg : Bytes) (next : Option Bytes)
    (ha : startsWith arg (blit "--") = true) : Agree (visitLong cur parents arg next) (visitLongN cur parents arg next) := by
  unfold visitLong visitLongN
  cases h : splitOnceEq arg with
  | none => exact visitNamed_agree _ _ _ _ _ _ ha
  | some x =>
    obtain ⟨n, v⟩ := x
    refine visitNamed_agree _ _ _ _ _ _ ?_
    obtain ⟨rfl, hn⟩ := splitOnceEq_some h
    show startsWith n (blit "--") = true
    rw [blit_dashdash, startsWith_dashdash] at ha ⊢
    obtain ⟨r, hr⟩ := ha
    match n, hr with
    | [], hr => exact absurd (List.cons.inj hr).1 (by decide)
    | [a], hr => exact absurd (List.cons.inj (List.cons.inj hr).2).1 (by decide)
    | a :: b :: n, hr =>
      obtain ⟨h1, hr⟩ := List.cons.inj hr
      obtain ⟨h2, hr⟩ := List.cons.inj hr
      exact ⟨n, by rw [h1, h2]⟩

/-- Subcommand parsers of the two builds. -/
def SubAgree (s s' : Option (SubPlace V)) : Prop :=
  match s, s' with
  | none, none => True
  | some p, some p' => ∀ idx ch ts, Agree (p idx ch ts) (p' idx ch ts)
  | _, _ => False

theorem argShape_long {arg : Bytes} (h : argShape arg = .long) : startsWith arg (blit "--") = true := by
  unfold argShape at h
  split at h
  · cases h
  · split at h
    · assumption
    · split at h <;> cases h

theorem runParser_agree {sub sub' : Option (SubPlace V)} (hs : SubAgree sub sub') (n : Nat) : ∀ (toks : Toks), toks.length ≤ n →
    ∀ (cur : ArgsFrame V) (parents : Chain V),
    Agree (runParser sub cur parents toks) (runParserN sub' cur parents toks) := by
  induction n with
  | zero =>
    intro toks hn cur parents
    cases toks with
    | nil => simp only [runParser, runParserN]; rfl
    | cons t ts => simp at hn
  | succ n ih =>
    intro toks hn cur parents
    cases toks with
    | nil => simp only [runParser, runParserN]; rfl
    | cons arg rest =>
      simp only [List.length_cons, Nat.add_le_add_iff_right] at hn
      rw [runParser.eq_def, runParserN.eq_def]
      dsimp only
      cases hsh : argShape arg with
      | dashDash =>
        dsimp only
        rcases (enterDash_plainly cur).agree.both with ⟨c, h1, _⟩ | ⟨e, e', h1, h2, h3⟩
        · rw [h1]
          dsimp only
          rcases (dashLoop_plainly c rest).agree.both with ⟨c', g1, _⟩ | ⟨e, e', g1, g2, g3⟩
          · rw [g1]; rfl
          · rw [g1] at g2 ⊢; cases g2; exact g3
        · rw [h1] at h2 ⊢; cases h2; exact h3
      | long =>
        dsimp only
        rcases (visitLong_agree cur parents arg rest.head? (argShape_long hsh)).both with ⟨⟨cur', parents', fl⟩, h1, h2⟩ | ⟨e, e', h1, h2, h3⟩
        · rw [h1, h2]
          cases fl with
          | cont => exact ih rest hn _ _
          | brk t =>
            cases t with
            | false => exact ih rest hn _ _
            | true =>
              cases rest with
              | nil => rfl
              | cons t ts => exact ih ts (by simp at hn; omega) _ _
        · rw [h1, h2]; exact h3
      | bundle b =>
        dsimp only
        rcases (visitBundle_agree cur parents b rest.head?).both with ⟨⟨cur', parents', fl⟩, h1, h2⟩ | ⟨e, e', h1, h2, h3⟩
        · rw [h1, h2]
          cases fl with
          | cont => exact ih rest hn _ _
          | brk t =>
            cases t with
            | false => exact ih rest hn _ _
            | true =>
              cases rest with
              | nil => rfl
              | cons t ts => exact ih ts (by simp at hn; omega) _ _
        · rw [h1, h2]; exact h3
      | plain =>
        dsimp only
        have hpos : Agree (match visitPositional cur false arg rest with
            | .error e => .error e
            | .ok (cur, true) => .ok (cur, none, parents, [])
            | .ok (cur, false) => runParser sub cur parents rest)
            (match visitPositional cur false arg rest with
            | .error e => .error e
            | .ok (cur, true) => .ok (cur, none, parents, [])
            | .ok (cur, false) => runParserN sub' cur parents rest) := by
          rcases (visitPositional_plainly cur false arg rest).agree.both with ⟨⟨c, b⟩, h1, _⟩ | ⟨e, e', h1, h2, h3⟩
          · rw [h1]
            cases b with
            | true => rfl
            | false => exact ih rest hn _ _
          · rw [h1] at h2 ⊢; cases h2; exact h3
        match sub, sub', hs with
        | none, none, _ => exact hpos
        | some p, some p', hs =>
          cases hi : cur.info.subcmdInfo with
          | none => exact hpos
          | some si =>
            dsimp only
            cases hse : si.search arg with
            | none => exact hpos
            | some x =>
              obtain ⟨name, idx⟩ := x
              dsimp only
              rcases (hs idx (.command name :: .args cur :: parents) rest).both with ⟨⟨o, ch, ts⟩, h1, h2⟩ | ⟨e, e', h1, h2, h3⟩
              · rw [h1, h2]
                rcases ch with _ | ⟨_ | _, _ | ⟨_ | _, _⟩⟩ <;> rfl
              · rw [h1, h2]; exact h3

/-- Parsers of the two builds. -/
def RunAgree (run run' : RunParser V α) : Prop :=
  ∀ cur sub sub' ch ts, SubAgree sub sub' → Agree (run cur sub ch ts) (run' cur sub' ch ts)

theorem rawRun_agree : RunAgree (V := V) rawRun rawRunN := by
  intro cur sub sub' ch ts hs
  unfold rawRun rawRunN
  rcases (runParser_agree hs _ ts (Nat.le_refl _) cur ch).both with ⟨⟨a, b, c, d⟩, h1, h2⟩ | ⟨e, e', h1, h2, h3⟩
  · rw [h1, h2]; rfl
  · rw [h1, h2]; exact h3

/-- What the closures of flattened structs call, in the two builds. -/
def InnerAgree (f f' : Chain V → Toks → R (α × Chain V × Toks)) : Prop := ∀ ch ts, Agree (f ch ts) (f' ch ts)

theorem wrapFrame_agree {f f' : Chain V → Toks → R (α × Chain V × Toks)} (h : InnerAgree f f') :
    RunAgree (wrapFrame f) (wrapFrame f') := by
  intro cur sub sub' ch ts _
  unfold wrapFrame
  rcases (h (.args cur :: ch) ts).both with ⟨⟨a, b, c⟩, h1, h2⟩ | ⟨e, e', h1, h2, h3⟩
  · rw [h1, h2]
    rcases b with _ | ⟨_ | _, _⟩ <;> rfl
  · rw [h1, h2]; exact h3

theorem runInner_agree {run run' : RunParser V α} (h : RunAgree run run') (fr : ArgsFrame V) {sub sub' : Option (SubPlace V)}
    (hs : SubAgree sub sub') : InnerAgree (runInner run fr sub) (runInner run' fr sub') := by
  intro ch ts
  unfold runInner
  rcases (h fr sub sub' ch ts hs).both with ⟨⟨a, b, c, d, x⟩, h1, h2⟩ | ⟨e, e', h1, h2, h3⟩
  · rw [h1, h2]; rfl
  · rw [h1, h2]; exact h3

theorem pairOut_agree {r r' : R (Out V × Chain V × Toks × α)} (h : Agree r r') : Agree (pairOut r) (pairOut r') := by
  rcases h.both with ⟨⟨a, b, c, d⟩, h1, h2⟩ | ⟨e, e', h1, h2, h3⟩
  · rw [h1, h2]; rfl
  · rw [h1, h2]; exact h3

mutual
theorem argsParse_agree : (d : ArgsDef V) → {α : Type} → {run run' : RunParser V α} → RunAgree run run' →
    (ch : Chain V) → (ts : Toks) → Agree (argsParse d ch run ts) (argsParseN d ch run' ts)
  | .mk core flats sub, _, run, run', h, ch, ts => by
    rw [argsParse, argsParseN]
    rcases (flatsParse_agree flats (runInner_agree h
      { fields := core.fields.map (·.initializer), info := (ArgsDef.mk core flats sub).info, nextPositional := 0 }
      (subPlace_agree sub)) ch ts).both with ⟨⟨⟨a, b, x⟩, c, d, y⟩, h1, h2⟩ | ⟨e, e', h1, h2, h3⟩
    · rw [h1, h2]
      dsimp only
      rcases (finish_plainly core sub (ArgsDef.mk core flats sub).info a.fields c b).agree.both with ⟨o, g1, _⟩ | ⟨e, e', g1, g2, g3⟩
      · rw [g1]; rfl
      · rw [g1] at g2 ⊢; cases g2; exact g3
    · rw [h1, h2]; exact h3
theorem flatsParse_agree : (fl : Flats V) → {β : Type} → {f f' : Chain V → Toks → R (β × Chain V × Toks)} → InnerAgree f f' →
    (ch : Chain V) → (ts : Toks) → Agree (flatsParse fl f ch ts) (flatsParseN fl f' ch ts)
  | .nil, _, f, f', h, ch, ts => by
    rw [flatsParse, flatsParseN]
    rcases (h ch ts).both with ⟨⟨a, b, c⟩, h1, h2⟩ | ⟨e, e', h1, h2, h3⟩
    · rw [h1, h2]; rfl
    · rw [h1, h2]; exact h3
  | .cons ident d rest, _, f, f', h, ch, ts => by
    rw [flatsParse, flatsParseN]
    rcases (flatsParse_agree rest (f := fun chain toks => pairOut (argsParse d chain (wrapFrame f) toks))
      (f' := fun chain toks => pairOut (argsParseN d chain (wrapFrame f') toks))
      (fun ch ts => pairOut_agree (argsParse_agree d (wrapFrame_agree h) ch ts)) ch ts).both with
      ⟨⟨⟨a, b⟩, c, x, y⟩, h1, h2⟩ | ⟨e, e', h1, h2, h3⟩
    · rw [h1, h2]; rfl
    · rw [h1, h2]; exact h3
theorem subPlace_agree : (s : SubField V) → SubAgree (subPlace s) (subPlaceN s)
  | .none => by rw [subPlace, subPlaceN]; trivial
  | .some _ _ vs => by
    rw [subPlace, subPlaceN]
    exact fun idx ch ts => variantsParse_agree vs idx ch ts
theorem variantsParse_agree : (vs : Variants V) → (idx : Nat) → (ch : Chain V) → (ts : Toks) →
    Agree (variantsParse vs idx ch ts) (variantsParseN vs idx ch ts)
  | .nil, _, _, _ => by rw [variantsParse, variantsParseN]; rfl
  | .cons v _, 0, ch, ts => by rw [variantsParse, variantsParseN]; exact variantParse_agree v ch ts
  | .cons _ rest, idx + 1, ch, ts => by rw [variantsParse, variantsParseN]; exact variantsParse_agree rest idx ch ts
theorem variantParse_agree : (v : Variant V) → (ch : Chain V) → (ts : Toks) → Agree (variantParse v ch ts) (variantParseN v ch ts)
  | .unit ident _ cmeta, ch, ts => by
    rw [variantParse, variantParseN]
    rcases (rawRun_agree { fields := [], info := unitInfo cmeta, nextPositional := 0 } none none ch ts trivial).both with
      ⟨⟨a, b, c, d, _⟩, h1, h2⟩ | ⟨e, e', h1, h2, h3⟩
    · rw [h1, h2]; rfl
    · rw [h1, h2]; exact h3
  | .args ident _ d, ch, ts => by
    rw [variantParse, variantParseN]
    rcases (argsParse_agree d rawRun_agree ch ts).both with ⟨⟨a, b, c, _⟩, h1, h2⟩ | ⟨e, e', h1, h2, h3⟩
    · rw [h1, h2]; rfl
    · rw [h1, h2]; exact h3
end

theorem tryParseFrom_agree (d : ArgsDef V) (argv : List Bytes) : Agree (tryParseFrom d argv) (tryParseFromN d argv) := by
  unfold tryParseFrom tryParseFromN
  cases argv with
  | nil => exact (plainly_err (unrelated_kind (by simp [Error.new]) (by simp [Error.new]))).agree
  | cons a ts =>
    dsimp only
    unfold structRunParser structRunParserN
    rcases (argsParse_agree d rawRun_agree [.command (lossy ((fileName a).getD a))] ts).both with
      ⟨⟨a, b, c, _⟩, h1, h2⟩ | ⟨e, e', h1, h2, h3⟩
    · rw [h1, h2]; rfl
    · rw [h1, h2]; exact h3

end Palc
