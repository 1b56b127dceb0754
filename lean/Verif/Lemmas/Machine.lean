import Verif.Lemmas.Levels
import Verif.Lemmas.Utf8
/-!
The runtime as a single loop over the arguments with an explicit stack of levels, and its agreement with the
functions of `Verif/Runtime.lean` for one argument.
-/

namespace Palc

open Spec

variable {V : Type}

/-! ## Single steps -/

/-- The first visible field with an encoded name. -/
def mFind (ls : List (Level V)) (name : Bytes) : Option (Addr × FieldInfo V) :=
  (visible (stackOf ls)).find? (fun x => hasName name x.2)

/-- Names of the entered commands, outermost first. -/
def cmdPath : List (Level V) → Str
  | [] => []
  | l :: outer => cmdPath outer ++ ' ' :: l.name

/-- The help text of the innermost command. -/
def helpText : List (Level V) → Str
  | [] => []
  | l :: outer => renderHelp l.d.info (cmdPath (l :: outer))

/-- The error for an option name nobody declares. -/
def unknownErr (ls : List (Level V)) (isShort : Bool) (name : Bytes) : Error :=
  if name = blit "h" ∨ name = blit "--help" then { Error.new .help with help := some (helpText ls) }
  else Error.withInput .unknownNamedArgument (if isShort then dash :: name else name)

/-- An occurrence of an option. -/
def mNamed (ls : List (Level V)) (isShort : Bool) (name : Bytes) (inl : InlineValue) (next : Option Bytes) :
    R (List (Level V) × Flow) :=
  match mFind ls name with
  | none => errR (unknownErr ls isShort name)
  | some (a, f) =>
    match getPlace ls a with
    | none => panicR
    | some pl =>
      match assign f.attrs pl inl next with
      | .ok (pl', took) => .ok (setPlace ls a pl', if takesValue f then .brk took else .cont)
      | .error err => errR (err.withArgDesc (some f.description))

/-- A long option. -/
def mLong (ls : List (Level V)) (arg : Bytes) (next : Option Bytes) : R (List (Level V) × Flow) :=
  match splitOnceEq arg with
  | some (name, value) => mNamed ls false name (.eq value) next
  | none => mNamed ls false arg .none next

/-- The characters of a cluster, followed by `tail`. -/
def mChars (tail : Bytes) (next : Option Bytes) : List (Level V) → Str → R (List (Level V) × Flow)
  | ls, [] =>
    if tail = [] then .ok (ls, .cont)
    else errR (Error.withInput .unknownNamedArgument (dash :: tail))
  | ls, c :: cs =>
    match mNamed ls true (encChar c) (shortInline (enc cs ++ tail)) next with
    | .error e => .error e
    | .ok (ls, .brk took) => .ok (ls, .brk took)
    | .ok (ls, .cont) => mChars tail next ls cs

/-- A cluster of short options. -/
def mBundle (ls : List (Level V)) (b : Bytes) (next : Option Bytes) : R (List (Level V) × Flow) :=
  mChars (utf8Chunk b).2 next ls (utf8Chunk b).1

/-- A positional argument of the innermost command. -/
def mPos (ls : List (Level V)) (mode : Mode) (arg : Bytes) : R (List (Level V) × Mode) :=
  match ls with
  | [] => panicR
  | l :: outer =>
    match (coreOf l.d).positional[l.pos]? with
    | some f =>
      if decide (mode = .dashed) || !f.src.last then
        match l.get 0 ((coreOf l.d).namedCnt + l.pos) with
        | none => panicR
        | some pl =>
          match pl.parseFrom (some arg) with
          | .error e => errR e
          | .ok pl' =>
            .ok ({ l.set 0 ((coreOf l.d).namedCnt + l.pos) pl' with pos := if isMulti f then l.pos else l.pos + 1 }
                  :: outer,
              if f.src.trailingVarArg && !f.src.last then .trailing ((coreOf l.d).namedCnt + l.pos) else mode)
      else if hasSub l.d then errR (Error.withInput .unknownSubcommand arg)
      else errR (Error.withInput .extraPositionalArgument arg)
    | none =>
      if hasSub l.d then errR (Error.withInput .unknownSubcommand arg)
      else errR (Error.withInput .extraPositionalArgument arg)

/-- An argument going to a trailing field. -/
def mTrail (ls : List (Level V)) (j : Nat) (arg : Bytes) : R (List (Level V)) :=
  match ls with
  | [] => panicR
  | l :: outer =>
    match l.get 0 j with
    | none => panicR
    | some pl =>
      match pl.parseFrom (some arg) with
      | .error e => errR e
      | .ok pl' => .ok (l.set 0 j pl' :: outer)

/-- `--`. -/
def mDash : List (Level V) → List (Level V)
  | [] => []
  | l :: outer =>
    match (coreOf l.d).positional.getLast? with
    | some f => if f.src.last then { l with pos := (coreOf l.d).positional.length - 1 } :: outer else l :: outer
    | none => l :: outer

/-- The variant selected by an argument. -/
def mSub (d : ArgsDef V) (arg : Bytes) : Option (Variant V) := searched d arg

/-- A fresh level. -/
def initLevel (ident name : Str) (d : ArgsDef V) : Level V :=
  { ident, name, d, main := (coreOf d).fields.map (·.initializer),
    flats := (flatStructs (flatsOf d)).map (fun c => c.fields.map (·.initializer)), pos := 0 }

/-- The level of a subcommand. -/
def subLevel (v : Variant V) : Level V := initLevel (variantIdent v) v.name (variantDef v)

/-- The subcommand selected in the innermost command. -/
def mSubTop (ls : List (Level V)) (arg : Bytes) : Option (Variant V) :=
  match ls with
  | [] => none
  | l :: _ => mSub l.d arg

/-- The whole loop. -/
def mrun : List (Level V) → Mode → Toks → R (List (Level V) × Mode)
  | ls, mode, [] => .ok (ls, mode)
  | ls, .trailing j, arg :: rest =>
    match mTrail ls j arg with
    | .error e => .error e
    | .ok ls => mrun ls (.trailing j) rest
  | ls, .dashed, arg :: rest =>
    match mPos ls .dashed arg with
    | .error e => .error e
    | .ok (ls, mode) => mrun ls mode rest
  | ls, .opts, arg :: rest =>
    match argShape arg with
    | .dashDash => mrun (mDash ls) .dashed rest
    | .long =>
      match mLong ls arg rest.head? with
      | .error e => .error e
      | .ok (ls, .brk true) =>
        match rest with
        | _ :: rest => mrun ls .opts rest
        | [] => panicR
      | .ok (ls, _) => mrun ls .opts rest
    | .bundle b =>
      match mBundle ls b rest.head? with
      | .error e => .error e
      | .ok (ls, .brk true) =>
        match rest with
        | _ :: rest => mrun ls .opts rest
        | [] => panicR
      | .ok (ls, _) => mrun ls .opts rest
    | .plain =>
      match mSubTop ls arg with
      | some v => mrun (subLevel v :: ls) .opts rest
      | none =>
        match mPos ls .opts arg with
        | .error e => .error e
        | .ok (ls, mode) => mrun ls mode rest

/-! ## Places -/

theorem zipWith_modify {α β γ : Type} (f : α → β → γ) (g : β → β) (g' : γ → γ)
    (h : ∀ a b, f a (g b) = g' (f a b)) (as : List α) (bs : List β) (k : Nat) :
    as.zipWith f (bs.modify k g) = (as.zipWith f bs).modify k g' := by
  induction as generalizing bs k with
  | nil => simp
  | cons a as ih =>
    cases bs with
    | nil => simp
    | cons b bs =>
      cases k with
      | zero => simp [h]
      | succ k => simp [ih]

theorem frames_set (l : Level V) (s i : Nat) (pl : Place V) :
    (l.set s i pl).frames = l.frames.modify s (fun fr => { fr with fields := fr.fields.set i pl }) := by
  cases s with
  | zero => rfl
  | succ k =>
    simp only [Level.frames, Level.set, List.modify_succ_cons]
    rw [show (Level.flatFrames { l with flats := l.flats.modify k (·.set i pl) }) =
      (flatStructInfos (flatsOf l.d)).zipWith (fun info pls => { fields := pls, info, nextPositional := 0 })
        (l.flats.modify k (·.set i pl)) from rfl]
    rw [zipWith_modify _ _ (fun fr : ArgsFrame V => { fr with fields := fr.fields.set i pl }) (fun _ _ => rfl)]
    rfl

theorem places_set (l : Level V) (s i : Nat) (pl : Place V) :
    (l.set s i pl).places = l.places.modify s (·.set i pl) := by
  cases s with
  | zero => rfl
  | succ k => rfl

@[simp] theorem set_d (l : Level V) (s i : Nat) (pl : Place V) : (l.set s i pl).d = l.d := by
  cases s <;> rfl
@[simp] theorem set_name (l : Level V) (s i : Nat) (pl : Place V) : (l.set s i pl).name = l.name := by
  cases s <;> rfl
@[simp] theorem set_ident (l : Level V) (s i : Nat) (pl : Place V) : (l.set s i pl).ident = l.ident := by
  cases s <;> rfl
@[simp] theorem set_pos (l : Level V) (s i : Nat) (pl : Place V) : (l.set s i pl).pos = l.pos := by
  cases s <;> rfl

theorem modify_append_lt {α : Type} (f : α → α) (xs ys : List α) (k : Nat) (h : k < xs.length) :
    (xs ++ ys).modify k f = xs.modify k f ++ ys := by
  induction xs generalizing k with
  | nil => simp at h
  | cons x xs ih =>
    cases k with
    | zero => simp
    | succ k => simp at h; simp [ih k h]

theorem modify_append_ge {α : Type} (f : α → α) (xs ys : List α) (k : Nat) :
    (xs ++ ys).modify (xs.length + k) f = xs ++ ys.modify k f := by
  induction xs with
  | nil => simp
  | cons x xs ih =>
    rw [List.length_cons, Nat.add_right_comm]
    simp [ih]

theorem map_modify {α β : Type} (g : α → β) (f : α → α) (f' : β → β) (h : ∀ a, g (f a) = f' (g a)) (xs : List α)
    (k : Nat) : (xs.modify k f).map g = (xs.map g).modify k f' := by
  induction xs generalizing k with
  | nil => simp
  | cons x xs ih =>
    cases k with
    | zero => simp [h]
    | succ k => simp [ih]

/-- Is the address inside the levels? -/
def InLevels (ls : List (Level V)) (a : Addr) : Prop :=
  ∃ l, levelAt ls a.level = some l ∧ a.struct < l.frames.length

theorem chain_set (ls : List (Level V)) (a : Addr) (pl : Place V) (h : InLevels ls a) :
    (chainOf ls).modify (depthOf ls a) (·.setField a.field pl) = chainOf (setPlace ls a pl) := by
  induction ls with
  | nil => simp [InLevels, levelAt] at h
  | cons l outer ih =>
    obtain ⟨l', h1, h2⟩ := h
    by_cases hl : a.level = outer.length
    · simp only [levelAt, hl, if_true, Option.some.injEq] at h1
      subst h1
      simp only [depthOf, setPlace, hl, if_true, chainOf]
      rw [modify_append_lt _ _ _ _ (by simpa using h2), frames_set]
      rw [map_modify Frame.args (fun fr : ArgsFrame V => { fr with fields := fr.fields.set a.field pl })
        (·.setField a.field pl) (fun _ => rfl)]
      simp
    · simp only [levelAt, hl, if_false] at h1
      simp only [depthOf, setPlace, hl, if_false, chainOf]
      have := modify_append_ge (fun fr : Frame V => fr.setField a.field pl) (l.frames.map Frame.args)
        (Frame.command l.name :: chainOf outer) (depthOf outer a + 1)
      rw [List.length_map] at this
      rw [show l.frames.length + 1 + depthOf outer a = l.frames.length + (depthOf outer a + 1) by omega, this,
        List.modify_succ_cons, ih ⟨l', h1, h2⟩]

theorem setPlace_ne_nil (l : Level V) (outer : List (Level V)) (a : Addr) (pl : Place V) :
    ∃ l' outer', setPlace (l :: outer) a pl = l' :: outer' := by
  unfold setPlace
  split
  · exact ⟨_, _, rfl⟩
  · exact ⟨_, _, rfl⟩

theorem stackOf_setPlace (ls : List (Level V)) (a : Addr) (pl : Place V) :
    stackOf (setPlace ls a pl) = stackOf ls := by
  induction ls with
  | nil => rfl
  | cons l outer ih =>
    unfold setPlace
    split
    · simp [stackOf, Level.entry]
    · simp only [stackOf, List.map_cons] at ih ⊢
      rw [ih]

/-- The part of levels that never changes. -/
def sig (ls : List (Level V)) : List (Str × Str × ArgsDef V) := ls.map (fun l => (l.ident, l.name, l.d))

theorem sig_setPlace (ls : List (Level V)) (a : Addr) (pl : Place V) :
    sig (setPlace ls a pl) = sig ls := by
  induction ls with
  | nil => rfl
  | cons l outer ih =>
    unfold setPlace
    split
    · simp [sig]
    · simp only [sig, List.map_cons] at ih ⊢
      rw [ih]

theorem stackOf_eq_sig (ls : List (Level V)) : stackOf ls = (sig ls).map (fun x => (⟨x.1, x.2.1⟩, x.2.2)) := by
  simp [stackOf, sig, Level.entry]

theorem Level.Ok.set {cx : Cx V} {l : Level V} (h : l.Ok cx) {s i : Nat} {pl : Place V}
    (hf : ∀ (c : Core V) (f : FieldInfo V), (structs l.d)[s]? = some c → c.fields[i]? = some f → Fits f pl) :
    (l.set s i pl).Ok cx := by
  refine { wf := by simpa using h.wf, len := ?_, fits := ?_, pos := by simpa using h.pos }
  · rw [places_set, List.length_modify, set_d]; exact h.len
  · intro s' c pls hc hp
    rw [set_d] at hc
    rw [places_set, List.getElem?_modify] at hp
    cases hq : l.places[s']? with
    | none => rw [hq] at hp; simp at hp
    | some q =>
      rw [hq] at hp
      obtain ⟨g1, g2⟩ := h.fits s' c q hc hq
      by_cases hs : s = s'
      · subst hs
        simp only [if_true, Option.map_eq_map, Option.map_some, Option.some.injEq] at hp
        subst hp
        refine ⟨by simpa using g1, ?_⟩
        intro j f p hj hpj
        rw [List.getElem?_set] at hpj
        split at hpj
        · split at hpj
          · rename_i hij _
            subst hij
            cases hpj
            exact hf c f hc hj
          · simp at hpj
        · exact g2 j f p hj hpj
      · simp only [hs, if_false, Option.map_eq_map, Option.map_some, Option.some.injEq] at hp
        subst hp
        exact ⟨g1, g2⟩

theorem levelAt_mem {ls : List (Level V)} {n : Nat} {l : Level V} (h : levelAt ls n = some l) : l ∈ ls := by
  induction ls with
  | nil => simp [levelAt] at h
  | cons x outer ih =>
    unfold levelAt at h
    split at h
    · cases h; simp
    · exact List.mem_cons_of_mem _ (ih h)

theorem setPlace_ok {cx : Cx V} {ls : List (Level V)} (h : ∀ l ∈ ls, l.Ok cx) {a : Addr} {pl : Place V}
    (hf : ∀ (l : Level V) (c : Core V) (f : FieldInfo V), levelAt ls a.level = some l → (structs l.d)[a.struct]? = some c →
      c.fields[a.field]? = some f → Fits f pl) :
    ∀ l ∈ setPlace ls a pl, l.Ok cx := by
  induction ls with
  | nil => simp [setPlace]
  | cons x outer ih =>
    unfold setPlace
    split
    · rename_i hl
      intro l hm
      rcases List.mem_cons.1 hm with rfl | hm
      · apply (h x (by simp)).set
        intro c f hc hcf
        exact hf x c f (by simp [levelAt, hl]) hc hcf
      · exact h l (List.mem_cons_of_mem _ hm)
    · rename_i hl
      intro l hm
      rcases List.mem_cons.1 hm with rfl | hm
      · exact h l (by simp)
      · refine ih (fun l hl => h l (List.mem_cons_of_mem _ hl)) ?_ l hm
        intro l' c f h1
        exact hf l' c f (by simp only [levelAt, hl, if_false]; exact h1)

/-! ## Help -/

theorem collectPrefix_frames (frs : List (ArgsFrame V)) (ch : Chain V) :
    collectPrefix (frs.map Frame.args ++ ch) = collectPrefix ch := by
  induction frs with
  | nil => rfl
  | cons f frs ih => simpa [collectPrefix] using ih

theorem collectPrefix_chainOf (ls : List (Level V)) : collectPrefix (chainOf ls) = cmdPath ls := by
  induction ls with
  | nil => rfl
  | cons l outer ih => rw [chainOf, collectPrefix_frames, collectPrefix, ih, cmdPath]

theorem collectPrefix_parentsOf (l : Level V) (outer : List (Level V)) :
    collectPrefix (parentsOf (l :: outer)) = cmdPath (l :: outer) := by
  have := collectPrefix_chainOf (l :: outer)
  rw [chainOf_cons, collectPrefix] at this
  exact this

/-- Errors of values never are help requests. -/
theorem parse_kind {p : ValueParser V} {v : Bytes} {e : Error} (h : p.parse v = .error e) :
    e.kind = .invalidValue ∧ e.input = some v := by
  cases p with
  | valueEnum d =>
    simp only [ValueParser.parse] at h
    split at h
    · split at h
      · simp at h
      · cases h; exact ⟨rfl, rfl⟩
    · cases h; exact ⟨rfl, rfl⟩
  | tryFromOsStr f =>
    simp only [ValueParser.parse] at h
    split at h
    · simp at h
    · cases h; exact ⟨rfl, rfl⟩
  | fromStr f =>
    simp only [ValueParser.parse] at h
    split at h
    · split at h
      · simp at h
      · cases h; exact ⟨rfl, rfl⟩
    · cases h; exact ⟨rfl, rfl⟩

theorem pushAll_kind {p : ValueParser V} {vs : List V} {bs : List Bytes} {e : Error}
    (h : Place.pushAll p vs bs = .error e) : e.kind = .invalidValue := by
  induction bs generalizing vs with
  | nil => simp [Place.pushAll] at h
  | cons b bs ih =>
    simp only [Place.pushAll] at h
    split at h
    · exact ih h
    · rename_i e' he
      cases h
      exact (parse_kind he).1

theorem parseFrom_kind {pl : Place V} {v : Option Bytes} {e : Error} (h : pl.parseFrom v = .error e) :
    e.kind = .invalidValue ∨ e.kind = .duplicatedNamedArgument ∨ e.kind = .unexpectedInlineValue := by
  cases pl with
  | flag s =>
    cases v with
    | some b => simp only [Place.parseFrom] at h; cases h; simp [Error.withInput]
    | none =>
      simp only [Place.parseFrom] at h
      split at h
      · cases h; simp [Error.new]
      · simp at h
  | vec s p =>
    simp only [Place.parseFrom] at h
    split at h
    · simp at h
    · rename_i he; cases h; exact .inl (parse_kind he).1
  | vecDelim s d p =>
    simp only [Place.parseFrom] at h
    split at h
    · simp at h
    · rename_i he; cases h; exact .inl (pushAll_kind he)
  | set s p =>
    simp only [Place.parseFrom] at h
    split at h
    · cases h; simp [Error.new]
    · split at h
      · simp at h
      · rename_i he; cases h; exact .inl (parse_kind he).1
  | setOpt s p =>
    simp only [Place.parseFrom] at h
    split at h
    · cases h; simp [Error.new]
    · split at h
      · split at h
        · simp at h
        · rename_i he; cases h; exact .inl (parse_kind he).1
      · simp at h

theorem selectValue_kind {attrs : ArgAttrs} {inl : InlineValue} {next : Option Bytes} {e : Error}
    (h : selectValue attrs inl next = .error e) : e.kind = .missingEq ∨ e.kind = .missingValue := by
  unfold selectValue at h
  cases inl with
  | eq v => simp at h
  | none =>
    simp only at h
    split at h
    · simp at h
    · split at h
      · cases h; simp [Error.new]
      · split at h
        · split at h
          · simp at h
          · cases h; simp [Error.new]
        · cases h; simp [Error.new]
  | ambiguous t =>
    simp only at h
    split at h
    · cases h; simp [Error.new]
    · split at h <;> simp at h

theorem assign_kind {attrs : ArgAttrs} {pl : Place V} {inl : InlineValue} {next : Option Bytes} {e : Error}
    (h : assign attrs pl inl next = .error e) : e.kind ≠ .help := by
  unfold assign at h
  split at h
  · rename_i he
    cases h
    rcases selectValue_kind he with h | h <;> rw [h] <;> simp
  · split at h
    · simp at h
    · rename_i he
      cases h
      unfold storeValue at he
      rcases parseFrom_kind he with h | h | h <;> rw [h] <;> simp

/-! ## Agreement of the single steps -/

/-- The result of a step of the runtime for a result of the machine. -/
def stepOut : R (List (Level V) × Flow) → R (ArgsFrame V × Chain V × Flow)
  | .error e => .error e
  | .ok (l :: outer, flow) => .ok (l.cur, parentsOf (l :: outer), flow)
  | .ok ([], _) => panicR

theorem HitOk.desc {cx : Cx V} {ls : List (Level V)} {a : Addr} {f : FieldInfo V} {hit : Hit V}
    (h : HitOk cx ls a f hit) : hit.info.getDescription f.attrs.getIndex = some f.description := by
  obtain ⟨l, c, _, _, h3, h4, h5⟩ := h.field
  rw [getDescription_packNul hit.info _ h4]
  · rw [h.idx]; simp [h3]
  · intro x hx
    rw [List.mem_map] at hx
    obtain ⟨g, hg, rfl⟩ := hx
    obtain ⟨i, hi⟩ := List.getElem?_of_mem hg
    exact (h5.fields i g hi).noNul

theorem HitOk.wf {cx : Cx V} {ls : List (Level V)} {a : Addr} {f : FieldInfo V} {hit : Hit V}
    (h : HitOk cx ls a f hit) : FieldWF cx f a.field := by
  obtain ⟨l, c, _, _, h3, h4, h5⟩ := h.field
  exact h5.fields _ f h3

theorem visitNamed_eq {cx : Cx V} (l : Level V) (outer : List (Level V)) (h : ∀ x ∈ l :: outer, x.Ok cx)
    (isShort : Bool) (name : Bytes) (inl : InlineValue) (next : Option Bytes) :
    visitNamed l.cur (parentsOf (l :: outer)) isShort name inl next
      = stepOut (mNamed (l :: outer) isShort name inl next) := by
  have hs := search_chain (l :: outer) h name
  unfold visitNamed mNamed
  rw [chainOf_cons] at hs
  revert hs
  rw [mFind]
  cases hf : (visible (stackOf (l :: outer))).find? (fun x => hasName name x.2) with
  | none =>
    intro hs
    simp only at hs
    rw [hs]
    simp only [unknownErr, stepOut, errR]
    split
    · simp only [maybeRenderHelp, Error.new, if_true, helpText, collectPrefix_parentsOf]
      rfl
    · rfl
  | some x =>
    obtain ⟨a, f⟩ := x
    rintro ⟨hit, h1, h2⟩
    rw [h1]
    simp only
    rw [h2.attrs, h2.place]
    simp only
    cases ha : assign f.attrs hit.place inl next with
    | error e =>
      simp only [stepOut, errR]
      rw [h2.desc]
      unfold maybeRenderHelp
      have hk : (e.withArgDesc (some f.description)).kind ≠ .help := by
        show e.kind ≠ .help
        exact assign_kind ha
      rw [if_neg hk]
    | ok r =>
      obtain ⟨pl, took⟩ := r
      simp only
      rw [h2.wf.rv]
      obtain ⟨l', outer', hset⟩ := setPlace_ne_nil l outer a pl
      have hch := chain_set (l :: outer) a pl (by
        obtain ⟨l1, c, g1, g2, _⟩ := h2.field
        refine ⟨l1, g1, ?_⟩
        rw [(h l1 (levelAt_mem g1)).frames_len]
        exact (List.getElem?_eq_some_iff.1 g2).1)
      rw [← h2.depth, hset, chainOf_cons, chainOf_cons] at hch
      rw [h2.idx, hset]
      simp only [stepOut]
      cases hd : hit.depth with
      | zero =>
        rw [hd] at hch
        simp only [List.modify_zero_cons, List.cons.injEq, Frame.setField, Frame.args.injEq] at hch
        simp only
        rw [← hch.1, ← hch.2]
      | succ k =>
        rw [hd] at hch
        simp only [List.modify_succ_cons, List.cons.injEq, Frame.args.injEq] at hch
        simp only
        rw [hch.1, hch.2]

theorem visitLong_eq {cx : Cx V} (l : Level V) (outer : List (Level V)) (h : ∀ x ∈ l :: outer, x.Ok cx)
    (arg : Bytes) (next : Option Bytes) :
    visitLong l.cur (parentsOf (l :: outer)) arg next = stepOut (mLong (l :: outer) arg next) := by
  unfold visitLong mLong
  cases splitOnceEq arg with
  | none => exact visitNamed_eq l outer h ..
  | some x => exact visitNamed_eq l outer h ..

theorem find_fields {cx : Cx V} {ls : List (Level V)} (h : ∀ x ∈ ls, x.Ok cx) {name : Bytes} {a : Addr}
    {f : FieldInfo V} (hf : mFind ls name = some (a, f)) :
    (∃ l c, levelAt ls a.level = some l ∧ (structs l.d)[a.struct]? = some c ∧ c.fields[a.field]? = some f)
    ∧ FieldWF cx f a.field ∧ ∃ pl, getPlace ls a = some pl ∧ Fits f pl := by
  have hs := search_chain ls h name
  unfold mFind at hf
  rw [hf] at hs
  obtain ⟨hit, _, h2⟩ := hs
  obtain ⟨l, c, g1, g2, g3, g4⟩ := h2.field
  refine ⟨⟨l, c, g1, g2, g3⟩, h2.wf, hit.place, h2.place, ?_⟩
  have hp := h2.place
  unfold getPlace at hp
  rw [g1] at hp
  simp only [Level.get] at hp
  cases hq : l.places[a.struct]? with
  | none => rw [hq] at hp; simp at hp
  | some q =>
    rw [hq] at hp
    exact ((h l (levelAt_mem g1)).fits _ c q g2 hq).2 _ f _ g3 hp

/-- Storing a value keeps the levels well-formed. -/
theorem mNamed_ok {cx : Cx V} {ls ls' : List (Level V)} (h : ∀ x ∈ ls, x.Ok cx) {isShort : Bool} {name : Bytes}
    {inl : InlineValue} {next : Option Bytes} {flow : Flow} (hm : mNamed ls isShort name inl next = .ok (ls', flow)) :
    (∀ x ∈ ls', x.Ok cx) ∧ sig ls' = sig ls := by
  unfold mNamed at hm
  cases hf : mFind ls name with
  | none => rw [hf] at hm; simp [errR] at hm
  | some x =>
    obtain ⟨a, f⟩ := x
    rw [hf] at hm
    simp only at hm
    obtain ⟨⟨l, c, g1, g2, g3⟩, hwf, pl, hpl, hfit⟩ := find_fields h hf
    rw [hpl] at hm
    simp only at hm
    split at hm
    · rename_i pl' took ha
      cases hm
      refine ⟨setPlace_ok h ?_, sig_setPlace ..⟩
      intro l' c' f' e1 e2 e3
      rw [g1] at e1; cases e1
      rw [g2] at e2; cases e2
      rw [g3] at e3; cases e3
      unfold assign at ha
      split at ha
      · simp at ha
      · split at ha
        · rename_i hst
          cases ha
          exact fits_parseFrom hfit hst
        · simp at ha
    · simp [errR] at hm

theorem sig_cons_ne {ls : List (Level V)} {l : Level V} {outer : List (Level V)} (h : sig ls = sig (l :: outer)) :
    ∃ l' outer', ls = l' :: outer' := by
  cases ls with
  | nil => simp [sig] at h
  | cons l' o => exact ⟨_, _, rfl⟩

theorem ne_enc_of_tail {tail : Bytes} (ht : tail ≠ []) (h : ∀ c r, tail ≠ encChar c ++ r) (s : Str) : enc s ≠ tail := by
  intro he
  cases s with
  | nil => exact ht (by rw [← he]; rfl)
  | cons c s => exact h c (enc s) (by rw [← he, enc_cons])

/-- Bytes that are no encoded name are unknown. -/
theorem mNamed_tail {ls : List (Level V)} {tail : Bytes} (ht : tail ≠ []) (h : ∀ c r, tail ≠ encChar c ++ r)
    (next : Option Bytes) :
    mNamed ls true tail .none next = errR (Error.withInput .unknownNamedArgument (dash :: tail)) := by
  have hn : mFind ls tail = none := by
    unfold mFind
    rw [List.find?_eq_none]
    intro x _ hx
    unfold hasName at hx
    rw [List.any_eq_true] at hx
    obtain ⟨s, _, hs⟩ := hx
    exact ne_enc_of_tail ht h s (by simpa using hs)
  unfold mNamed
  rw [hn]
  simp only [unknownErr]
  rw [if_neg]
  · simp
  · rintro (he | he)
    · exact ne_enc_of_tail ht h (lit "h") he.symm
    · exact ne_enc_of_tail ht h (lit "--help") he.symm

theorem bundleLoop_eq {cx : Cx V} (bundle : Bytes) (next : Option Bytes) (cs : Str) (done : Bytes) (tail : Bytes)
    (hb : bundle = done ++ enc cs ++ tail) (htail : ∀ c r, tail ≠ encChar c ++ r)
    (l : Level V) (outer : List (Level V)) (h : ∀ x ∈ l :: outer, x.Ok cx) :
    (match bundleLoop bundle next l.cur (parentsOf (l :: outer)) done.length cs with
      | .error e => .error e
      | .ok (cur, parents, .brk took) => .ok (cur, parents, .brk took)
      | .ok (cur, parents, .cont) =>
        if tail ≠ [] then
          match visitNamed cur parents true tail .none next with
          | .error e => .error e
          | .ok _ => panicR
        else .ok (cur, parents, .cont)) = stepOut (mChars tail next (l :: outer) cs) := by
  induction cs generalizing done l outer with
  | nil =>
    simp only [bundleLoop, mChars]
    by_cases ht : tail = []
    · simp [ht, stepOut]
    · rw [if_pos ht, if_neg ht, visitNamed_eq l outer h, mNamed_tail ht htail]
      rfl
  | cons c cs ih =>
    simp only [bundleLoop, mChars]
    have hd : bundle.drop (done.length + (encChar c).length) = enc cs ++ tail := by
      rw [hb, enc_cons]
      rw [show done ++ (encChar c ++ enc cs) ++ tail = (done ++ encChar c) ++ (enc cs ++ tail) by simp]
      rw [← List.length_append, List.drop_left]
    have hi : osIndex bundle (done.length + (encChar c).length) = some (enc cs ++ tail) := by
      rw [osIndex, if_pos, hd]
      rw [hb, enc_cons, show done ++ (encChar c ++ enc cs) ++ tail = done ++ (encChar c ++ (enc cs ++ tail)) by simp]
      exact isBoundary_after done c _
    rw [hi]
    dsimp only
    rw [visitNamed_eq l outer h]
    cases hm : mNamed (l :: outer) true (encChar c) (shortInline (enc cs ++ tail)) next with
    | error e => simp [stepOut]
    | ok r =>
      obtain ⟨ls', flow⟩ := r
      obtain ⟨h1, h2⟩ := mNamed_ok h hm
      obtain ⟨l', outer', rfl⟩ := sig_cons_ne h2
      cases flow with
      | brk took => simp [stepOut]
      | cont =>
        simp only [stepOut]
        have := ih (done ++ encChar c) (by rw [hb, enc_cons]; simp) l' outer' h1
        rw [List.length_append] at this
        exact this

theorem visitBundle_eq {cx : Cx V} (l : Level V) (outer : List (Level V)) (h : ∀ x ∈ l :: outer, x.Ok cx)
    (b : Bytes) (next : Option Bytes) :
    visitBundle l.cur (parentsOf (l :: outer)) b next = stepOut (mBundle (l :: outer) b next) := by
  have hb := bundleLoop_eq b next (utf8Chunk b).1 [] (utf8Chunk b).2 (by simp [utf8Chunk_join])
    (utf8Chunk_rest_not_char b) l outer h
  unfold mBundle
  rw [← hb]
  unfold visitBundle
  have hd : b.drop (enc (utf8Chunk b).1).length = (utf8Chunk b).2 := by
    conv => lhs; arg 2; rw [← utf8Chunk_join b]
    rw [List.drop_left]
  simp only [osIndex_chunk, hd]
  rfl

theorem mChars_ok {cx : Cx V} {tail : Bytes} {next : Option Bytes} {cs : Str} {ls ls' : List (Level V)}
    (h : ∀ x ∈ ls, x.Ok cx) {flow : Flow} (hm : mChars tail next ls cs = .ok (ls', flow)) :
    (∀ x ∈ ls', x.Ok cx) ∧ sig ls' = sig ls := by
  induction cs generalizing ls with
  | nil =>
    simp only [mChars] at hm
    split at hm
    · cases hm; exact ⟨h, rfl⟩
    · simp [errR] at hm
  | cons c cs ih =>
    simp only [mChars] at hm
    split at hm
    · simp at hm
    · rename_i he; cases hm; exact mNamed_ok h he
    · rename_i he
      obtain ⟨h1, h2⟩ := mNamed_ok h he
      obtain ⟨h3, h4⟩ := ih h1 hm
      exact ⟨h3, h4.trans h2⟩

theorem mBundle_ok {cx : Cx V} {b : Bytes} {next : Option Bytes} {ls ls' : List (Level V)}
    (h : ∀ x ∈ ls, x.Ok cx) {flow : Flow} (hm : mBundle ls b next = .ok (ls', flow)) :
    (∀ x ∈ ls', x.Ok cx) ∧ sig ls' = sig ls := mChars_ok h hm

theorem mLong_ok {cx : Cx V} {arg : Bytes} {next : Option Bytes} {ls ls' : List (Level V)}
    (h : ∀ x ∈ ls, x.Ok cx) {flow : Flow} (hm : mLong ls arg next = .ok (ls', flow)) :
    (∀ x ∈ ls', x.Ok cx) ∧ sig ls' = sig ls := by
  unfold mLong at hm
  split at hm <;> exact mNamed_ok h hm

/-! ## Positional arguments -/

theorem core_wf {cx : Cx V} {l : Level V} (h : l.Ok cx) : CoreWF cx (coreOf l.d) :=
  WFArgs.structs l.d h.wf _ (by rw [structs_eq]; simp)

theorem structs_zero (d : ArgsDef V) : (structs d)[0]? = some (coreOf d) := by rw [structs_eq]; rfl

/-- A positional field and its place. -/
theorem positional_field {cx : Cx V} {l : Level V} (h : l.Ok cx) {k : Nat} {f : FieldInfo V}
    (hf : (coreOf l.d).positional[k]? = some f) :
    (coreOf l.d).fields[(coreOf l.d).namedCnt + k]? = some f ∧ FieldWF cx f ((coreOf l.d).namedCnt + k)
    ∧ isOption f = false ∧ ∃ pl, l.get 0 ((coreOf l.d).namedCnt + k) = some pl ∧ Fits f pl := by
  have hwf := core_wf h
  have hf' : (coreOf l.d).fields[(coreOf l.d).namedCnt + k]? = some f := by
    rw [← hf]
    unfold Core.positional
    rw [List.getElem?_drop]
  have hfit := h.fits 0 _ l.main (structs_zero l.d) rfl
  have hlt : (coreOf l.d).namedCnt + k < l.main.length := by
    rw [hfit.1]
    exact (List.getElem?_eq_some_iff.1 hf').1
  refine ⟨hf', hwf.fields _ f hf', ?_, l.main[(coreOf l.d).namedCnt + k], by simp [Level.get, Level.places, hlt], ?_⟩
  · obtain ⟨ps, va, la, hl, h1, h2, h3⟩ := hwf.layout
    have hm := List.mem_of_getElem? hf
    unfold Core.positional at hm
    rw [hl] at hm
    simp only [List.mem_append, Option.mem_toList] at hm
    rcases hm with (hm | hm) | hm
    · exact (h1 f hm).1
    · exact (h2 f hm).1
    · exact (h3 f hm).1
  · exact hfit.2 _ f _ hf' (by simp [hlt])

theorem info_positional (d : ArgsDef V) : d.info.positionalAttrs = (coreOf d).positional.map (·.attrs) := by
  obtain ⟨core, flats, sub⟩ := d
  rw [ArgsDef.info]; rfl

theorem info_sub (d : ArgsDef V) : d.info.subcmdInfo = (subOf d).info := by
  obtain ⟨core, flats, sub⟩ := d
  rw [ArgsDef.info]; rfl

theorem info_sub_isSome (d : ArgsDef V) : d.info.subcmdInfo.isSome = hasSub d := by
  rw [info_sub]
  unfold hasSub
  cases subOf d with
  | none => rw [SubField.info]; rfl
  | some i o vs => rw [SubField.info]; rfl

theorem mPos_ok {cx : Cx V} {mode mode' : Mode} {arg : Bytes} {ls ls' : List (Level V)}
    (h : ∀ x ∈ ls, x.Ok cx) (hm : mPos ls mode arg = .ok (ls', mode')) :
    (∀ x ∈ ls', x.Ok cx) ∧ sig ls' = sig ls := by
  cases ls with
  | nil => simp [mPos, panicR] at hm
  | cons l outer =>
    have hl := h l (by simp)
    simp only [mPos] at hm
    split at hm
    · rename_i f hf
      split at hm
      · obtain ⟨h1, h2, h3, pl, h4, h5⟩ := positional_field hl hf
        rw [h4] at hm
        simp only at hm
        split at hm
        · simp [errR] at hm
        · rename_i pl' hp
          cases hm
          refine ⟨?_, by simp [sig]⟩
          intro x hx
          rcases List.mem_cons.1 hx with rfl | hx
          · have hok : (l.set 0 ((coreOf l.d).namedCnt + l.pos) pl').Ok cx := by
              apply hl.set
              intro c f' hc hf'
              rw [structs_zero] at hc; cases hc
              rw [h1] at hf'; cases hf'
              exact fits_parseFrom h5 hp
            refine { wf := hok.wf, len := hok.len, fits := hok.fits, pos := ?_ }
            simp only [set_d]
            have := (List.getElem?_eq_some_iff.1 hf).1
            split <;> omega
          · exact h x (by simp [hx])
      · split at hm <;> simp [errR] at hm
    · split at hm <;> simp [errR] at hm

theorem mTrail_ok {cx : Cx V} {j : Nat} {arg : Bytes} {ls ls' : List (Level V)}
    (h : ∀ x ∈ ls, x.Ok cx) (hm : mTrail ls j arg = .ok ls') :
    (∀ x ∈ ls', x.Ok cx) ∧ sig ls' = sig ls := by
  cases ls with
  | nil => simp [mTrail, panicR] at hm
  | cons l outer =>
    have hl := h l (by simp)
    simp only [mTrail] at hm
    split at hm
    · simp [panicR] at hm
    · rename_i pl hpl
      split at hm
      · simp [errR] at hm
      · rename_i pl' hp
        cases hm
        refine ⟨?_, by simp [sig]⟩
        intro x hx
        rcases List.mem_cons.1 hx with rfl | hx
        · apply hl.set
          intro c f hc hf
          rw [structs_zero] at hc; cases hc
          have := (hl.fits 0 _ l.main (structs_zero l.d) rfl).2 _ f pl hf (by simpa [Level.get, Level.places] using hpl)
          exact fits_parseFrom this hp
        · exact h x (by simp [hx])

theorem mDash_ok {cx : Cx V} {ls : List (Level V)} (h : ∀ x ∈ ls, x.Ok cx) :
    (∀ x ∈ mDash ls, x.Ok cx) ∧ sig (mDash ls) = sig ls := by
  cases ls with
  | nil => exact ⟨h, rfl⟩
  | cons l outer =>
    have hl := h l (by simp)
    simp only [mDash]
    split
    · split
      · refine ⟨?_, rfl⟩
        intro x hx
        rcases List.mem_cons.1 hx with rfl | hx
        · exact { wf := hl.wf, len := hl.len, fits := hl.fits, pos := by simp }
        · exact h x (by simp [hx])
      · exact ⟨h, rfl⟩
    · exact ⟨h, rfl⟩


/-! ## Loops over positional arguments -/

theorem set_set0 (l : Level V) (j : Nat) (p q : Place V) : (l.set 0 j p).set 0 j q = l.set 0 j q := by
  simp [Level.set]

theorem get_set0 (l : Level V) (j : Nat) (p q : Place V) (h : l.get 0 j = some p) :
    (l.set 0 j q).get 0 j = some q := by
  simp only [Level.get, Level.places, Level.set, List.getElem?_cons_zero] at h ⊢
  have := (List.getElem?_eq_some_iff.1 h).1
  simp [this]

theorem set_same (l : Level V) (j : Nat) (p : Place V) (h : l.get 0 j = some p) : l.set 0 j p = l := by
  simp only [Level.get, Level.places, List.getElem?_cons_zero] at h
  obtain ⟨hj, rfl⟩ := List.getElem?_eq_some_iff.1 h
  simp [Level.set]

/-- Result of a drained positional argument. -/
def drainOut (l : Level V) (outer : List (Level V)) (j : Nat) (mode : Mode) : Except Error (Place V) → R (List (Level V) × Mode)
  | .error e => errR e
  | .ok pl => .ok (l.set 0 j pl :: outer, mode)

theorem mrun_trailing (l : Level V) (outer : List (Level V)) (j : Nat) (toks : Toks) (pl : Place V)
    (h : l.get 0 j = some pl) :
    mrun (l :: outer) (.trailing j) toks = drainOut l outer j (.trailing j) (drain pl toks) := by
  induction toks generalizing l pl with
  | nil =>
    simp only [mrun, drain, drainOut, set_same l j pl h]
  | cons arg rest ih =>
    simp only [mrun, mTrail, h, drain]
    cases hp : pl.parseFrom (some arg) with
    | error e => rfl
    | ok pl' =>
      simp only
      rw [ih _ pl' (get_set0 l j pl pl' h)]
      cases drain pl' rest with
      | error e => rfl
      | ok q => simp [drainOut, set_set0]


theorem mrun_last (l : Level V) (outer : List (Level V)) (f : FieldInfo V) (toks : Toks) (pl : Place V)
    (hf : (coreOf l.d).positional[l.pos]? = some f) (hlast : f.src.last = true) (hmulti : isMulti f = true)
    (h : l.get 0 ((coreOf l.d).namedCnt + l.pos) = some pl) :
    mrun (l :: outer) .dashed toks
      = drainOut l outer ((coreOf l.d).namedCnt + l.pos) .dashed (drain pl toks) := by
  induction toks generalizing l pl with
  | nil => simp only [mrun, drain, drainOut, set_same l _ pl h]
  | cons arg rest ih =>
    simp only [mrun, mPos, hf, hlast, hmulti, h, drain, decide_true, Bool.true_or, if_true, Bool.not_true,
      Bool.and_false]
    cases hp : pl.parseFrom (some arg) with
    | error e => rfl
    | ok pl' =>
      have := ih (l.set 0 ((coreOf l.d).namedCnt + l.pos) pl') pl' (by simpa using hf)
        (by simpa using get_set0 l _ pl pl' h)
      simp only [set_d, set_pos] at this
      simp only [Bool.false_eq_true, if_false]
      rw [show ({ l.set 0 ((coreOf l.d).namedCnt + l.pos) pl' with pos := l.pos } : Level V)
        = l.set 0 ((coreOf l.d).namedCnt + l.pos) pl' from rfl, this]
      cases drain pl' rest with
      | error e => rfl
      | ok q => simp [drainOut, set_set0]

/-- Result of a loop over the rest of the arguments for the innermost frame. -/
def topOut : R (List (Level V) × Mode) → R (ArgsFrame V)
  | .error e => .error e
  | .ok (l :: _, _) => .ok l.cur
  | .ok ([], _) => panicR

theorem visitPositional_eq {cx : Cx V} (l : Level V) (outer : List (Level V)) (hl : l.Ok cx) (mode : Mode)
    (arg : Bytes) (rest : Toks) :
    (∃ e, mPos (l :: outer) mode arg = .error e ∧ visitPositional l.cur (decide (mode = .dashed)) arg rest = .error e)
    ∨ (∃ l', mPos (l :: outer) mode arg = .ok (l' :: outer, mode)
        ∧ visitPositional l.cur (decide (mode = .dashed)) arg rest = .ok (l'.cur, false))
    ∨ ((∃ l' mode', mPos (l :: outer) mode arg = .ok (l' :: outer, mode')
        ∧ ∃ e, mrun (l' :: outer) mode' rest = .error e
            ∧ visitPositional l.cur (decide (mode = .dashed)) arg rest = .error e)
      ∨ (∃ l' mode' l'' mode'', mPos (l :: outer) mode arg = .ok (l' :: outer, mode') ∧ mode' ≠ .opts
        ∧ mrun (l' :: outer) mode' rest = .ok (l'' :: outer, mode'')
        ∧ visitPositional l.cur (decide (mode = .dashed)) arg rest = .ok (l''.cur, true))) := by
  have hcur : l.cur.info.positionalAttrs[l.cur.nextPositional]?
      = ((coreOf l.d).positional[l.pos]?).map (·.attrs) := by
    show l.d.info.positionalAttrs[l.pos]? = _
    rw [info_positional, List.getElem?_map]
  have hbad : ∀ b : Bool, (if l.cur.info.subcmdInfo.isSome then errR (Error.withInput .unknownSubcommand arg)
      else errR (Error.withInput .extraPositionalArgument arg) : R (ArgsFrame V × Bool))
      = if hasSub l.d then errR (Error.withInput .unknownSubcommand arg)
        else errR (Error.withInput .extraPositionalArgument arg) := by
    intro b
    show (if l.d.info.subcmdInfo.isSome = true then _ else _) = _
    rw [info_sub_isSome]
  cases hf : (coreOf l.d).positional[l.pos]? with
  | none =>
    left
    unfold visitPositional
    rw [hcur, hf]
    simp only [Option.map_none, mPos, hf]
    rw [hbad true]
    cases hasSub l.d
    · exact ⟨_, rfl, rfl⟩
    · exact ⟨_, rfl, rfl⟩
  | some f =>
    obtain ⟨h1, h2, h3, pl, h4, h5⟩ := positional_field hl hf
    unfold visitPositional
    rw [hcur, hf]
    simp only [Option.map_some, mPos, hf]
    rw [h2.la]
    by_cases hsel : (decide (mode = .dashed) || !f.src.last) = true
    · have hidx : f.attrs.getIndex = (coreOf l.d).namedCnt + l.pos := h2.idx
      have hlt := (List.getElem?_eq_some_iff.1 hf).1
      have hpos : l.pos + 1 < 256 := by
        have := (core_wf hl).len
        unfold Core.positional at hlt
        rw [List.length_drop] at hlt
        omega
      have hget : l.cur.fields[f.attrs.getIndex]? = some pl := by
        rw [hidx]
        simpa [Level.get, Level.places, Level.cur] using h4
      simp only [hsel, if_true]
      rw [h2.va h3, h2.gr, hget, h4, hidx]
      have hnp : (if isMulti f = true then .ok l.cur.nextPositional else incU8 l.cur.nextPositional : R Nat)
          = .ok (if isMulti f then l.pos else l.pos + 1) := by
        cases isMulti f
        · simp only [Bool.false_eq_true, if_false]
          unfold incU8
          rw [if_pos (show l.cur.nextPositional + 1 < 256 from hpos)]
          rfl
        · rfl
      rw [hnp]
      simp only
      cases hp : pl.parseFrom (some arg) with
      | error e => left; exact ⟨_, rfl, rfl⟩
      | ok pl' =>
        right
        simp only
        by_cases hg : (f.src.trailingVarArg || f.src.last) = true
        · right
          rw [if_pos hg]
          generalize hl1 : ({ l.set 0 ((coreOf l.d).namedCnt + l.pos) pl' with
            pos := if isMulti f then l.pos else l.pos + 1 } : Level V) = l1
          have hd1 : l1.d = l.d := by rw [← hl1]; simp
          have hg1 : l1.get 0 ((coreOf l.d).namedCnt + l.pos) = some pl' := by
            rw [← hl1]; exact get_set0 l _ pl pl' h4
          have key : ∃ mode', (if (f.src.trailingVarArg && !f.src.last) = true
              then Mode.trailing ((coreOf l.d).namedCnt + l.pos) else mode) = mode' ∧ mode' ≠ .opts ∧
              mrun (l1 :: outer) mode' rest
                = drainOut l1 outer ((coreOf l.d).namedCnt + l.pos) mode' (drain pl' rest) := by
            refine ⟨_, rfl, ?_, ?_⟩
            · split
              · simp
              · rename_i hnt
                have hla : f.src.last = true := by
                  cases hx : f.src.last with
                  | true => rfl
                  | false => simp [hx] at hg hnt; simp [hg] at hnt
                have hm : mode = .dashed := by simpa [hla] using hsel
                simp [hm]
            by_cases hla : f.src.last = true
            · have hm : mode = .dashed := by
                simpa [hla] using hsel
              have hmu := h2.lastMulti hla
              subst hm
              simp only [hla, Bool.not_true, Bool.and_false, Bool.false_eq_true, if_false]
              have hp1 : l1.pos = l.pos := by rw [← hl1]; simp [hmu]
              have := mrun_last l1 outer f rest pl' (by rw [hd1, hp1]; exact hf) hla hmu
                (by rw [hd1, hp1]; exact hg1)
              rw [hd1, hp1] at this
              exact this
            · simp only [hla, Bool.or_false] at hg
              simp only [Bool.not_eq_true] at hla
              simp only [hg, hla, Bool.not_false, Bool.and_true, if_true]
              exact mrun_trailing l1 outer _ rest pl' hg1
          obtain ⟨mode', hm1, hm0, hm2⟩ := key
          cases hd : drain pl' rest with
          | error e =>
            left
            refine ⟨l1, mode', ?_, _, ?_, rfl⟩
            · rw [hm1]
            · rw [hm2, hd]; rfl
          | ok q =>
            right
            refine ⟨l1, mode', l1.set 0 ((coreOf l.d).namedCnt + l.pos) q, mode', ?_, hm0, ?_, ?_⟩
            · rw [hm1]
            · rw [hm2, hd]; rfl
            · simp only [Except.ok.injEq, Prod.mk.injEq, and_true]
              rw [← hl1]
              simp [Level.cur, Level.set]
        · left
          rw [if_neg hg]
          simp only [Bool.not_eq_true, Bool.or_eq_false_iff] at hg
          refine ⟨{ l.set 0 ((coreOf l.d).namedCnt + l.pos) pl' with
            pos := if isMulti f then l.pos else l.pos + 1 }, ?_, rfl⟩
          simp [hg.1]
    · left
      simp only [hsel]
      rw [hbad true]
      cases hasSub l.d
      · exact ⟨_, rfl, rfl⟩
      · exact ⟨_, rfl, rfl⟩


theorem mPos_outer {l : Level V} {outer : List (Level V)} {mode : Mode} {arg : Bytes} {ls : List (Level V)}
    {mode' : Mode} (h : mPos (l :: outer) mode arg = .ok (ls, mode')) : ∃ l', ls = l' :: outer := by
  simp only [mPos] at h
  split at h
  · split at h
    · split at h
      · simp [panicR] at h
      · split at h
        · simp [errR] at h
        · cases h; exact ⟨_, rfl⟩
    · split at h <;> simp [errR] at h
  · split at h <;> simp [errR] at h

theorem mTrail_outer {l : Level V} {outer : List (Level V)} {j : Nat} {arg : Bytes} {ls : List (Level V)}
    (h : mTrail (l :: outer) j arg = .ok ls) : ∃ l', ls = l' :: outer := by
  simp only [mTrail] at h
  split at h
  · simp [panicR] at h
  · split at h
    · simp [errR] at h
    · cases h; exact ⟨_, rfl⟩

/-- Outside of option mode only the innermost level changes. -/
theorem mrun_outer {l : Level V} {outer : List (Level V)} {mode mode' : Mode} {toks : Toks} {ls : List (Level V)}
    (hm : mode ≠ .opts) (h : mrun (l :: outer) mode toks = .ok (ls, mode')) :
    mode' ≠ .opts ∧ ∃ l', ls = l' :: outer := by
  induction toks generalizing l mode with
  | nil => simp only [mrun] at h; cases h; exact ⟨hm, _, rfl⟩
  | cons arg rest ih =>
    cases mode with
    | opts => exact absurd rfl hm
    | trailing j =>
      simp only [mrun] at h
      cases ht : mTrail (l :: outer) j arg with
      | error e => rw [ht] at h; simp at h
      | ok ls1 =>
        rw [ht] at h
        obtain ⟨l1, rfl⟩ := mTrail_outer ht
        exact ih (by simp) h
    | dashed =>
      simp only [mrun] at h
      cases ht : mPos (l :: outer) .dashed arg with
      | error e => rw [ht] at h; simp at h
      | ok r =>
        obtain ⟨ls1, m1⟩ := r
        rw [ht] at h
        obtain ⟨l1, rfl⟩ := mPos_outer ht
        refine ih ?_ h
        simp only [mPos] at ht
        split at ht
        · split at ht
          · split at ht
            · simp [panicR] at ht
            · split at ht
              · simp [errR] at ht
              · cases ht
                split <;> simp
          · split at ht <;> simp [errR] at ht
        · split at ht <;> simp [errR] at ht

theorem mPos_flats {l l' : Level V} {outer outer' : List (Level V)} {mode : Mode} {arg : Bytes}
    {mode' : Mode} (h : mPos (l :: outer) mode arg = .ok (l' :: outer', mode')) :
    l'.flatFrames = l.flatFrames ∧ l'.name = l.name := by
  simp only [mPos] at h
  split at h
  · split at h
    · split at h
      · simp [panicR] at h
      · split at h
        · simp [errR] at h
        · simp only [Except.ok.injEq, Prod.mk.injEq, List.cons.injEq] at h
          rw [← h.1.1]
          exact ⟨rfl, rfl⟩
    · split at h <;> simp [errR] at h
  · split at h <;> simp [errR] at h

theorem mTrail_flats {l l' : Level V} {outer outer' : List (Level V)} {j : Nat} {arg : Bytes}
    (h : mTrail (l :: outer) j arg = .ok (l' :: outer')) :
    l'.flatFrames = l.flatFrames ∧ l'.name = l.name := by
  simp only [mTrail] at h
  split at h
  · simp [panicR] at h
  · split at h
    · simp [errR] at h
    · cases h; exact ⟨rfl, rfl⟩

theorem mPos_mode {ls ls' : List (Level V)} {mode mode' : Mode} {arg : Bytes}
    (h : mPos ls mode arg = .ok (ls', mode')) : mode' = mode ∨ ∃ j, mode' = .trailing j := by
  cases ls with
  | nil => simp [mPos, panicR] at h
  | cons l outer =>
    simp only [mPos] at h
    split at h
    · split at h
      · split at h
        · simp [panicR] at h
        · split at h
          · simp [errR] at h
          · simp only [Except.ok.injEq, Prod.mk.injEq] at h
            rw [← h.2]
            split
            · exact .inr ⟨_, rfl⟩
            · exact .inl rfl
      · split at h <;> simp [errR] at h
    · split at h <;> simp [errR] at h

theorem mrun_flats {l l' : Level V} {outer outer' : List (Level V)} {mode mode' : Mode} {toks : Toks}
    (hm : mode ≠ .opts) (h : mrun (l :: outer) mode toks = .ok (l' :: outer', mode')) :
    l'.flatFrames = l.flatFrames ∧ l'.name = l.name := by
  induction toks generalizing l mode with
  | nil => simp only [mrun] at h; cases h; exact ⟨rfl, rfl⟩
  | cons arg rest ih =>
    cases mode with
    | opts => exact absurd rfl hm
    | trailing j =>
      simp only [mrun] at h
      cases ht : mTrail (l :: outer) j arg with
      | error e => rw [ht] at h; simp at h
      | ok ls1 =>
        rw [ht] at h
        obtain ⟨l1, rfl⟩ := mTrail_outer ht
        have h1 := mTrail_flats ht
        have h2 := ih (by simp) h
        exact ⟨h2.1.trans h1.1, h2.2.trans h1.2⟩
    | dashed =>
      simp only [mrun] at h
      cases ht : mPos (l :: outer) .dashed arg with
      | error e => rw [ht] at h; simp at h
      | ok r =>
        obtain ⟨ls1, m1⟩ := r
        rw [ht] at h
        obtain ⟨l1, rfl⟩ := mPos_outer ht
        have h1 := mPos_flats ht
        have h2 := ih (by rcases mPos_mode ht with rfl | ⟨j, rfl⟩ <;> simp) h
        exact ⟨h2.1.trans h1.1, h2.2.trans h1.2⟩

/-- The loop after `--`. -/
theorem dashLoop_eq {cx : Cx V} (l : Level V) (outer : List (Level V)) (h : ∀ x ∈ l :: outer, x.Ok cx) (toks : Toks) :
    dashLoop l.cur toks = topOut (mrun (l :: outer) .dashed toks) := by
  induction toks generalizing l with
  | nil => rfl
  | cons arg rest ih =>
    have hpos := visitPositional_eq l outer (h l (by simp)) .dashed arg rest
    simp only [decide_true] at hpos
    simp only [dashLoop, mrun]
    rcases hpos with ⟨e, h1, h2⟩ | ⟨l', h1, h2⟩ | ⟨l', m', h1, e, h2, h3⟩ | ⟨l', m', l'', m'', h1, _, h2, h3⟩
    · rw [h1, h2]; rfl
    · rw [h1, h2]
      exact ih l' (mPos_ok h h1).1
    · rw [h1, h3]; simp only; rw [h2]; rfl
    · rw [h1, h3]; simp only; rw [h2]; rfl

theorem enterDash_eq {cx : Cx V} (l : Level V) (outer : List (Level V)) (hl : l.Ok cx) :
    ∃ l', mDash (l :: outer) = l' :: outer ∧ enterDash l.cur = .ok l'.cur := by
  have hg : l.cur.info.positionalAttrs.getLast? = ((coreOf l.d).positional.getLast?).map (·.attrs) := by
    show l.d.info.positionalAttrs.getLast? = _
    rw [info_positional, List.getLast?_map]
  have hlen : l.cur.info.positionalLen = (coreOf l.d).positional.length := by
    show l.d.info.positionalAttrs.length = _
    rw [info_positional, List.length_map]
  unfold enterDash
  rw [hg]
  simp only [mDash]
  cases hp : (coreOf l.d).positional.getLast? with
  | none => exact ⟨l, rfl, rfl⟩
  | some f =>
    simp only [Option.map_some]
    have hlast := hp
    rw [List.getLast?_eq_getElem?] at hlast
    obtain ⟨h1, h2, h3, _⟩ := positional_field hl hlast
    rw [h2.la]
    cases hla : f.src.last with
    | false => exact ⟨l, by simp, by simp⟩
    | true =>
      simp only [if_true]
      have hpos := (List.getElem?_eq_some_iff.1 hlast).1
      have hle : (coreOf l.d).positional.length ≤ 254 := by
        have := (core_wf hl).len
        unfold Core.positional
        rw [List.length_drop]
        omega
      rw [hlen]
      refine ⟨{ l with pos := (coreOf l.d).positional.length - 1 }, rfl, ?_⟩
      rw [Nat.mod_eq_of_lt (by omega)]
      cases hn : (coreOf l.d).positional.length with
      | zero => omega
      | succ n => simp [Level.cur]

end Palc
