import Verif.Props.Errors
/-!
# Absence of panics (C24) and the positional counter (C28)
-/

namespace Palc

open Spec

variable {V : Type} {cx : Cx V} {d : ArgsDef V} {argv0 : Bytes} {toks : List Bytes} {evs : List Event} {κ : Ctx V}
  {out : Out V} {e : Error}

/-! ## C24 -/

/-- The commands that can be entered: the definition itself and, repeatedly, subcommands. -/
inductive Command (d : ArgsDef V) : ArgsDef V → Prop
  | root : Command d d
  | sub {e v} (h : Command d e) (hv : v ∈ subVariants e) : Command d (variantDef v)

/-- A field of a command that can be entered, in the struct itself or in a flattened one. -/
def ArgOf (d : ArgsDef V) (f : FieldInfo V) : Prop := ∃ e c, Command d e ∧ c ∈ structs e ∧ f ∈ c.fields

/-- The default string `s` is a value of the field: the field takes values, and the value parser accepts `s`, or all pieces of
it if the field has a delimiter. -/
def ValidDefault (f : FieldInfo V) (s : Str) : Prop :=
  f.kind ≠ .bool ∧ ∀ x ∈ splitValue f.src.valueDelimiter (enc s), ∃ v, f.parser.parse x = .ok v

theorem parsed_none {f : FieldInfo V} {b : Bytes} : parsed f b = none ↔ ¬ ∃ v, f.parser.parse b = .ok v := by
  unfold parsed
  cases f.parser.parse b <;> simp

theorem parsedAll_none_iff {f : FieldInfo V} {bs : List Bytes} : parsedAll f bs = none ↔ ∃ b ∈ bs, parsed f b = none := by
  induction bs with
  | nil => simp [parsedAll]
  | cons b bs ih =>
    rw [parsedAll]
    cases h1 : parsed f b with
    | none => simp [h1]
    | some v =>
      cases h2 : parsedAll f bs with
      | none =>
        rw [h2] at ih
        obtain ⟨b', hb, hn⟩ := ih.1 rfl
        simp only [true_iff]
        exact ⟨b', List.mem_cons_of_mem _ hb, hn⟩
      | some vs =>
        rw [h2] at ih
        simp only [reduceCtorEq, false_iff, not_exists, not_and] at ih ⊢
        intro x hx
        rcases List.mem_cons.1 hx with rfl | hx
        · rw [h1]; simp
        · exact ih x hx

/-- An absent field that is not required has no value only if its default string is invalid. -/
theorem fieldOut_absent {f : FieldInfo V} (hwf : FieldPre cx f) (hr : isRequired f = false) :
    fieldOut f [] = none ↔ ∃ s, f.src.defaultValue = some s ∧ ¬ ValidDefault f s := by
  simp only [fieldOut, defaultContent]
  cases hdv : f.defaultValue with
  | none =>
    have hs := (hwf.defaultSrc.1 hdv).1
    have hk : f.kind ≠ .value := by
      intro hk
      unfold isRequired at hr
      rw [hk, hdv] at hr
      simp at hr
    simp only [Option.bind_some, toField, hs]
    cases h : f.kind <;> simp_all
  | some dv =>
    cases dv with
    | valueExpr v shown =>
      have hty := hwf.defaultTy v shown hdv
      have hs : f.src.defaultValue = none := by
        cases hs : f.src.defaultValue with
        | none => rfl
        | some s =>
          have := (hwf.defaultStr s).2 hs
          rw [hdv] at this
          cases this
      rw [hs]
      cases v <;> cases hk : f.kind <;> simp_all [defaultTypeOk, toField]
    | parseStr s =>
      have hs := (hwf.defaultStr s).1 hdv
      simp only [hs, Option.some.injEq, exists_eq_left', ValidDefault]
      have hdm : isMulti f = false → f.valueDelimiter = none := by
        intro hm
        cases hd : f.valueDelimiter with
        | none => rfl
        | some c =>
          have := hwf.delimMulti (by rw [hd]; rfl)
          rw [hm] at this; cases this
      have hsplit := pieces_eq hwf (enc s)
      rw [← hsplit]
      unfold content
      simp only
      unfold pieces
      cases hk : f.kind <;> simp only [ne_eq, reduceCtorEq, not_true_eq_false, not_false_eq_true, false_and, true_and, iff_true]
      · simp
      iterate 3
        · rw [hdm (by unfold isMulti; rw [hk])]
          simp only [List.mem_singleton, forall_eq, ← parsed_none]
          cases parsed f (enc s) <;> simp [toField, hk]
      all_goals
        simp only [allValues, Option.map_some, List.flatMap_cons, List.flatMap_nil, List.append_nil]
        have : ∀ l : List Bytes, (¬ ∀ x ∈ l, ∃ v, f.parser.parse x = .ok v) ↔ parsedAll f l = none := by
          intro l
          rw [parsedAll_none_iff, Classical.not_forall]
          simp only [parsed_none, Classical.not_imp]
        rw [this]
        cases parsedAll f (match f.valueDelimiter with
          | some c => splitOn c (enc s)
          | none => [enc s]) <;> simp [toField, hk]

theorem command_of_step {κ1 : Ctx V} {rest : List Bytes} (h : Step cx κ toks evs κ1 rest)
    (hc : ∀ x ∈ κ.stack, Command d x.2) : ∀ x ∈ κ1.stack, Command d x.2 := by
  cases h with
  | @sub i e st k v toks hv hp =>
    intro x hx
    rcases List.mem_cons.1 hx with rfl | hx
    · exact .sub (hc (i, e) List.mem_cons_self) hv.mem
    · exact hc x hx
  | _ => exact hc

/-- Only commands of the definition are entered. -/
theorem command_of_reads (h : Reads cx (start argv0 d) toks evs κ) : ∀ x ∈ κ.stack, Command d x.2 := by
  have key : ∀ {κ0 : Ctx V} {rest : List Bytes}, Steps cx κ0 toks evs κ rest → (∀ x ∈ κ0.stack, Command d x.2) →
      ∀ x ∈ κ.stack, Command d x.2 := by
    intro κ0 rest hs
    clear h
    induction hs with
    | refl => exact id
    | step h _ ih => exact fun hc => ih (command_of_step h hc)
  refine key (reads_steps h) ?_
  intro x hx
  simp only [start, List.mem_singleton] at hx
  subst hx
  exact .root

/-- C24: the only panics are those for invalid default strings: if `try_parse_from` panics, the whole command line was read
without error, and some argument (of an entered command) that was not given has a default string which is not a value of the
argument. -/
theorem C24_panic_cause (hd : DerivedArgs cx d) {argv : List Bytes} (h : tryParseFrom d argv = .error .panic) :
    ∃ (argv0 : Bytes) (toks : List Bytes) (evs : List Event) (κ : Ctx V) (a : Addr) (f : FieldInfo V) (s : Str), argv = argv0 :: toks
      ∧ Reads cx (start argv0 d) toks evs κ ∧ fieldAt κ.stack a = some f ∧ ArgOf d f ∧ (∀ o, (a, o) ∉ evs)
      ∧ f.src.defaultValue = some s ∧ ¬ ValidDefault f s := by
  cases argv with
  | nil => simp [tryParseFrom, errR] at h
  | cons argv0 toks =>
    cases (C23_rejects_iff hd argv0 toks _).1 h with
    | @invalid evs κ _ hr ha hf =>
      have hwf := (stack_wf hd.wf (reads_steps hr)).1
      obtain ⟨pre, i, d', outer, k, c, h1, h2, h3, _, _⟩ := allFail_some hwf hf
      cases h3 with
      | @panic n f hf hn hdf hreq hok =>
        have hat : fieldAt κ.stack ⟨outer.length, k, n⟩ = some f := by
          rw [h1, fieldAt_ext (by simp)]
          simp [fieldAt, h2, hf]
        obtain ⟨s, hs, hv⟩ := (fieldOut_absent (hwf.field hat).toFieldPre hreq).1 hdf
        refine ⟨argv0, toks, evs, κ, _, f, s, rfl, hr, hat, ?_, fun o ho => ?_, hs, hv⟩
        · exact ⟨d', c, command_of_reads hr (i, d') (by rw [h1]; simp), List.mem_of_getElem? h2, List.mem_of_getElem? hf⟩
        · exact absurd hn (occs_ne_nil.2 ⟨o, ho⟩)

/-- C24: for every definition accepted by the macros whose default strings are values of their arguments, `try_parse_from`
returns `Ok` or `Err` for every argument list. -/
theorem C24_no_panic (hd : DerivedArgs cx d) (hdef : ∀ f s, ArgOf d f → f.src.defaultValue = some s → ValidDefault f s)
    (argv : List Bytes) : tryParseFrom d argv ≠ .error .panic := by
  intro h
  obtain ⟨_, _, _, _, _, f, s, _, _, _, hf, _, hs, hv⟩ := C24_panic_cause hd h
  exact hv (hdef f s hf hs)

/-! Cutting a bundle of short options inside a character would be a panic: `é` is two bytes, also next to bytes that are not UTF-8. -/
example : osIndex (blit "aé=v") 2 = none ∧ osIndex (blit "aé=v") 3 = some (blit "=v") := by decide
example : osIndex ([0xE2, 0x82] ++ [0xFF]) 1 = none ∧ osIndex ([97] ++ [0xFF]) 1 = some [0xFF] := by decide

mutual
/-- A check of all fields of all commands. -/
def allArgs (p : FieldInfo V → Bool) : ArgsDef V → Bool
  | .mk core flats sub => core.fields.all p && allFlats p flats && allSub p sub
def allFlats (p : FieldInfo V → Bool) : Flats V → Bool
  | .nil => true
  | .cons _ d rest => allArgs p d && allFlats p rest
def allSub (p : FieldInfo V → Bool) : SubField V → Bool
  | .none => true
  | .some _ _ vs => allVariants p vs
def allVariants (p : FieldInfo V → Bool) : Variants V → Bool
  | .nil => true
  | .cons v rest => allVariant p v && allVariants p rest
def allVariant (p : FieldInfo V → Bool) : Variant V → Bool
  | .unit _ _ _ => true
  | .args _ _ d => allArgs p d
end

mutual
theorem allArgs_structs {p : FieldInfo V → Bool} : (d : ArgsDef V) → allArgs p d = true →
    ∀ c ∈ structs d, ∀ f ∈ c.fields, p f = true
  | .mk core flats sub, h => by
    rw [allArgs, Bool.and_eq_true, Bool.and_eq_true, List.all_eq_true] at h
    rw [structs]
    intro c hc f hf
    rcases List.mem_cons.1 hc with rfl | hc
    · exact h.1.1 f hf
    · exact allFlats_structs flats h.1.2 c hc f hf
theorem allFlats_structs {p : FieldInfo V → Bool} : (fl : Flats V) → allFlats p fl = true →
    ∀ c ∈ flatStructs fl, ∀ f ∈ c.fields, p f = true
  | .nil, _ => by rw [flatStructs]; simp
  | .cons _ d rest, h => by
    rw [allFlats, Bool.and_eq_true] at h
    rw [flatStructs]
    intro c hc f hf
    rcases List.mem_append.1 hc with hc | hc
    · exact allArgs_structs d h.1 c hc f hf
    · exact allFlats_structs rest h.2 c hc f hf
end

theorem allVariants_mem {p : FieldInfo V → Bool} {v : Variant V} : (vs : Variants V) → allVariants p vs = true →
    v ∈ variantList vs → allVariant p v = true
  | .nil, _, hv => by simp [variantList] at hv
  | .cons w rest, h, hv => by
    rw [allVariants, Bool.and_eq_true] at h
    rw [variantList] at hv
    rcases List.mem_cons.1 hv with rfl | hv
    · exact h.1
    · exact allVariants_mem rest h.2 hv

theorem allArgs_sub {p : FieldInfo V → Bool} {v : Variant V} (h : allArgs p d = true) (hv : v ∈ subVariants d) :
    allArgs p (variantDef v) = true := by
  obtain ⟨core, flats, sub⟩ := d
  rw [allArgs, Bool.and_eq_true] at h
  unfold subVariants subOf at hv
  cases sub with
  | none => simp at hv
  | some i o vs =>
    have h2 := h.2
    rw [allSub] at h2
    have := allVariants_mem vs h2 hv
    cases v with
    | unit i n m => simp [variantDef, allArgs, allFlats, allSub]
    | args i n d => rw [allVariant] at this; exact this

theorem allArgs_sound {p : FieldInfo V → Bool} (h : allArgs p d = true) {f : FieldInfo V} (hf : ArgOf d f) : p f = true := by
  obtain ⟨e, c, he, hc, hf⟩ := hf
  have : allArgs p e = true := by
    clear hc
    induction he with
    | root => exact h
    | sub _ hv ih => exact allArgs_sub ih hv
  exact allArgs_structs e this c hc f hf

/-- The sample CLI: `jobs` has the default string `"1"`, a number. -/
example : DerivedArgs Sample.cx Sample.cli
    ∧ (∀ f s, ArgOf Sample.cli f → f.src.defaultValue = some s → ValidDefault f s)
    ∧ ∃ f, ArgOf Sample.cli f ∧ f.src.defaultValue = some (lit "1") := by
  refine ⟨Sample.cli_derived, fun f s hf hs => ?_, ?_⟩
  · have := allArgs_sound (p := fun f => match f.src.defaultValue with
      | none => true
      | some s => decide (f.kind ≠ .bool) && (splitValue f.src.valueDelimiter (enc s)).all (fun x =>
        match f.parser.parse x with
        | .ok _ => true
        | .error _ => false)) (d := Sample.cli) (by decide +kernel) hf
    simp only [hs, Bool.and_eq_true, decide_eq_true_eq, List.all_eq_true] at this
    refine ⟨this.1, fun x hx => ?_⟩
    have := this.2 x hx
    split at this
    · exact ⟨_, ‹_›⟩
    · cases this
  · obtain ⟨f, hf, hp⟩ := List.any_eq_true.1 (show ((coreOf Sample.cli).fields.any (fun f =>
      decide (f.src.defaultValue = some (lit "1")))) = true by decide +kernel)
    exact ⟨f, ⟨_, _, .root, by exact List.mem_cons_self, hf⟩, by simpa using hp⟩

namespace Sample

/-- `struct { #[arg(long, default_value = "many")] count: Number }`. -/
def badDefaultCli : ArgsDef Val := get (deriveArgs Sample.cx none
  [.arg (lit "count") number { long := some .inherit, defaultValue := some (lit "many") }])

/-- `struct { #[arg(long, default_value = "true")] on: bool }`. -/
def boolDefaultCli : ArgsDef Val := get (deriveArgs Sample.cx none
  [.arg (lit "on") .bool { long := some .inherit, defaultValue := some (lit "true") }])

end Sample

/-- C24, finding 4: the macros accept default strings that are not values of the argument; parsing then panics whenever the
argument is absent. -/
theorem C24_bad_default : DerivedArgs Sample.cx Sample.badDefaultCli
    ∧ Sample.failure (tryParseFrom Sample.badDefaultCli (["app"].map blit)) = some .panic
    ∧ Sample.isOk (tryParseFrom Sample.badDefaultCli (["app", "--count=1"].map blit)) = true :=
  ⟨Sample.derived_leaf (by decide) (by decide), by decide +kernel, by decide +kernel⟩

/-- C24, finding 4: the macros accept a default string for a flag; parsing then panics whenever the flag is absent. -/
theorem C24_bool_default : DerivedArgs Sample.cx Sample.boolDefaultCli
    ∧ Sample.failure (tryParseFrom Sample.boolDefaultCli (["app"].map blit)) = some .panic
    ∧ Sample.isOk (tryParseFrom Sample.boolDefaultCli (["app", "--on"].map blit)) = true :=
  ⟨Sample.derived_leaf (by decide) (by decide), by decide +kernel, by decide +kernel⟩

/-! ## C28 -/

/-- A state of the loops of `run_parser`: are we in the loop after `--` (`src/runtime.rs` 507-510) or in the main one
(498-563), the current frame, the enclosing frames, the arguments still to be read. -/
structure LoopState (V : Type) where
  dashed : Bool
  cur : ArgsFrame V
  parents : Chain V
  toks : Toks

/-- One iteration of the loops of `run_parser`. -/
inductive Iter (sub : Option (SubPlace V)) : LoopState V → LoopState V → Prop
  | long {cur cur' parents parents' arg rest flow} (hs : argShape arg = .long)
      (hv : visitLong cur parents arg rest.head? = .ok (cur', parents', flow)) (hf : flow ≠ .brk true) :
      Iter sub ⟨false, cur, parents, arg :: rest⟩ ⟨false, cur', parents', rest⟩
  | longNext {cur cur' parents parents' arg v rest} (hs : argShape arg = .long)
      (hv : visitLong cur parents arg (some v) = .ok (cur', parents', .brk true)) :
      Iter sub ⟨false, cur, parents, arg :: v :: rest⟩ ⟨false, cur', parents', rest⟩
  | bundle {cur cur' parents parents' arg b rest flow} (hs : argShape arg = .bundle b)
      (hv : visitBundle cur parents b rest.head? = .ok (cur', parents', flow)) (hf : flow ≠ .brk true) :
      Iter sub ⟨false, cur, parents, arg :: rest⟩ ⟨false, cur', parents', rest⟩
  | bundleNext {cur cur' parents parents' arg b v rest} (hs : argShape arg = .bundle b)
      (hv : visitBundle cur parents b (some v) = .ok (cur', parents', .brk true)) :
      Iter sub ⟨false, cur, parents, arg :: v :: rest⟩ ⟨false, cur', parents', rest⟩
  | positional {cur cur' parents arg rest drained} (hs : argShape arg = .plain)
      (hn : ∀ place si, sub = some place → cur.info.subcmdInfo = some si → si.search arg = none)
      (hv : visitPositional cur false arg rest = .ok (cur', drained)) :
      Iter sub ⟨false, cur, parents, arg :: rest⟩ ⟨false, cur', parents, if drained then [] else rest⟩
  | dashdash {cur cur' parents arg rest} (hs : argShape arg = .dashDash) (hv : enterDash cur = .ok cur') :
      Iter sub ⟨false, cur, parents, arg :: rest⟩ ⟨true, cur', parents, rest⟩
  | dashed {cur cur' parents arg rest drained} (hv : visitPositional cur true arg rest = .ok (cur', drained)) :
      Iter sub ⟨true, cur, parents, arg :: rest⟩ ⟨true, cur', parents, if drained then [] else rest⟩

/-- Any number of iterations. -/
inductive Iters (sub : Option (SubPlace V)) : LoopState V → LoopState V → Prop
  | refl {s} : Iters sub s s
  | step {s t u} (h : Iters sub s t) (hs : Iter sub t u) : Iters sub s u

/-- What `run_parser` returns from a state of its loops. -/
def LoopState.result (sub : Option (SubPlace V)) (s : LoopState V) : R (ArgsFrame V × Option (Out V) × Chain V × Toks) :=
  if s.dashed then
    match dashLoop s.cur s.toks with
    | .error e => .error e
    | .ok cur => .ok (cur, none, s.parents, [])
  else runParser sub s.cur s.parents s.toks

theorem dashLoop_nil (cur : ArgsFrame V) : dashLoop cur [] = .ok cur := by rw [dashLoop]

theorem runParser_nil (sub : Option (SubPlace V)) (cur : ArgsFrame V) (parents : Chain V) :
    runParser sub cur parents [] = .ok (cur, none, parents, []) := by rw [runParser]

/-- `Iter` is an iteration of `run_parser`: the result is the same from the next state. -/
theorem iter_result {sub : Option (SubPlace V)} {s t : LoopState V} (h : Iter sub s t) : s.result sub = t.result sub := by
  cases h with
  | @long cur cur' parents parents' arg rest flow hs hv hf =>
    simp only [LoopState.result, Bool.false_eq_true, if_false]
    rw [runParser.eq_def]
    simp only [hs, hv]
  | @longNext cur cur' parents parents' arg v rest hs hv =>
    simp only [LoopState.result, Bool.false_eq_true, if_false]
    rw [runParser.eq_def]
    simp only [hs, List.head?_cons, hv]
  | @bundle cur cur' parents parents' arg b rest flow hs hv hf =>
    simp only [LoopState.result, Bool.false_eq_true, if_false]
    rw [runParser.eq_def]
    simp only [hs, hv]
  | @bundleNext cur cur' parents parents' arg b v rest hs hv =>
    simp only [LoopState.result, Bool.false_eq_true, if_false]
    rw [runParser.eq_def]
    simp only [hs, List.head?_cons, hv]
  | @positional cur cur' parents arg rest drained hs hn hv =>
    simp only [LoopState.result, Bool.false_eq_true, if_false]
    rw [runParser.eq_def]
    simp only [hs]
    have key : ∀ x : R (ArgsFrame V × Option (Out V) × Chain V × Toks),
        (match visitPositional cur false arg rest with
          | .error e => .error e
          | .ok (cur, true) => .ok (cur, none, parents, [])
          | .ok (cur, false) => runParser sub cur parents rest) = x →
        runParser sub cur' parents (if drained = true then [] else rest) = x := by
      intro x hx
      rw [hv] at hx
      rw [← hx]
      cases drained with
      | false => rfl
      | true => simp only [if_true, runParser_nil]
    cases sub with
    | none => exact (key _ rfl).symm
    | some place =>
      simp only
      cases hi : cur.info.subcmdInfo with
      | none => exact (key _ rfl).symm
      | some si =>
        simp only [hn place si rfl hi]
        exact (key _ rfl).symm
  | @dashdash cur cur' parents arg rest hs hv =>
    simp only [LoopState.result, Bool.false_eq_true, if_false, if_true]
    rw [runParser.eq_def]
    simp only [hs, hv]
    cases dashLoop cur' rest <;> rfl
  | @dashed cur cur' parents arg rest drained hv =>
    simp only [LoopState.result, if_true]
    rw [dashLoop, hv]
    cases drained with
    | false => rfl
    | true => simp only [if_true, dashLoop_nil]

theorem visitNamed_counter {cur cur' : ArgsFrame V} {parents parents' : Chain V} {b : Bool} {n : Bytes} {inl : InlineValue}
    {next : Option Bytes} {flow : Flow} (h : visitNamed cur parents b n inl next = .ok (cur', parents', flow)) :
    cur'.nextPositional = cur.nextPositional ∧ cur'.info = cur.info := by
  unfold visitNamed at h
  split at h
  · cases h
  · split at h <;> cases h
  · split at h
    · dsimp only at h
      split at h <;> · cases h; exact ⟨rfl, rfl⟩
    · cases h

theorem visitLong_counter {cur cur' : ArgsFrame V} {parents parents' : Chain V} {arg : Bytes} {next : Option Bytes} {flow : Flow}
    (h : visitLong cur parents arg next = .ok (cur', parents', flow)) :
    cur'.nextPositional = cur.nextPositional ∧ cur'.info = cur.info := by
  unfold visitLong at h
  split at h <;> exact visitNamed_counter h

theorem bundleLoop_counter {bundle : Bytes} {next : Option Bytes} {cs : Str} : ∀ {cur cur' : ArgsFrame V} {parents parents' : Chain V}
    {idx : Nat} {flow : Flow}, bundleLoop bundle next cur parents idx cs = .ok (cur', parents', flow) →
    cur'.nextPositional = cur.nextPositional ∧ cur'.info = cur.info := by
  induction cs with
  | nil => intro cur cur' parents parents' idx flow h; rw [bundleLoop] at h; cases h; exact ⟨rfl, rfl⟩
  | cons c cs ih =>
    intro cur cur' parents parents' idx flow h
    rw [bundleLoop] at h
    split at h
    · cases h
    · split at h
      · cases h
      · rename_i hv
        cases h
        exact visitNamed_counter hv
      · rename_i hv
        have h1 := visitNamed_counter hv
        have h2 := ih h
        exact ⟨h2.1.trans h1.1, h2.2.trans h1.2⟩

theorem visitBundle_counter {cur cur' : ArgsFrame V} {parents parents' : Chain V} {b : Bytes} {next : Option Bytes} {flow : Flow}
    (h : visitBundle cur parents b next = .ok (cur', parents', flow)) :
    cur'.nextPositional = cur.nextPositional ∧ cur'.info = cur.info := by
  unfold visitBundle at h
  dsimp only at h
  split at h
  · cases h
  · rename_i hv; cases h; exact bundleLoop_counter hv
  · rename_i hv
    split at h
    · split at h
      · cases h
      · split at h <;> cases h
    · cases h; exact bundleLoop_counter hv

/-- A positional argument goes to the positional field given by the counter. -/
theorem visitPositional_counter {cur cur' : ArgsFrame V} {b drained : Bool} {arg : Bytes} {rest : Toks}
    (h : visitPositional cur b arg rest = .ok (cur', drained)) : cur'.info = cur.info ∧
    ∃ attrs pl, cur.info.positionalAttrs[cur.nextPositional]? = some attrs ∧ cur.fields[attrs.getIndex]? ≠ none
      ∧ cur'.fields = cur.fields.set attrs.getIndex pl
      ∧ cur'.nextPositional = if attrs.contains ArgAttrs.VAR_ARG then cur.nextPositional else cur.nextPositional + 1 := by
  unfold visitPositional at h
  dsimp only at h
  split at h
  · split at h <;> cases h
  · rename_i attrs hsel
    have hattrs : cur.info.positionalAttrs[cur.nextPositional]? = some attrs := by
      split at hsel
      · rename_i a ha
        split at hsel
        · cases hsel; exact ha
        · cases hsel
      · cases hsel
    split at h
    · cases h
    · rename_i np hnp
      have hnp' : np = if attrs.contains ArgAttrs.VAR_ARG then cur.nextPositional else cur.nextPositional + 1 := by
        split at hnp
        · rename_i hv
          cases hnp
          rw [if_pos hv]
        · rename_i hv
          unfold incU8 at hnp
          split at hnp
          · cases hnp
            rw [if_neg hv]
          · cases hnp
      split at h
      · cases h
      · rename_i pl0 hpl
        split at h
        · cases h
        · split at h
          · split at h
            · cases h
            · rename_i pl _
              cases h
              exact ⟨rfl, attrs, pl, hattrs, by rw [hpl]; simp, rfl, hnp'⟩
          · rename_i pl _ _
            cases h
            exact ⟨rfl, attrs, pl, hattrs, by rw [hpl]; simp, rfl, hnp'⟩

theorem enterDash_counter {cur cur' : ArgsFrame V} (h : enterDash cur = .ok cur') (hlen : cur.info.positionalAttrs.length < 256) :
    cur'.info = cur.info ∧ cur'.fields = cur.fields ∧ (cur' = cur ∨
      ∃ attrs, cur.info.positionalAttrs.getLast? = some attrs ∧ attrs.contains ArgAttrs.LAST = true
        ∧ cur'.nextPositional + 1 = cur.info.positionalAttrs.length) := by
  unfold enterDash at h
  split at h
  · rename_i attrs ha
    split at h
    · rename_i hl
      split at h
      · cases h
      · rename_i n hn
        cases h
        unfold ArgsInfo.positionalLen at hn
        rw [Nat.mod_eq_of_lt hlen] at hn
        exact ⟨rfl, rfl, .inr ⟨attrs, ha, hl, hn.symm⟩⟩
    · cases h; exact ⟨rfl, rfl, .inl rfl⟩
  · cases h; exact ⟨rfl, rfl, .inl rfl⟩

/-- The `i`-th positional field of a command, in the order of declaration. -/
def positionalField (e : ArgsDef V) (i : Nat) : Option (FieldInfo V) := ((coreOf e).fields.filter (fun f => !isOption f))[i]?

theorem command_wf (hd : DerivedArgs cx d) {e : ArgsDef V} (h : Command d e) : WFArgs cx e := by
  induction h with
  | root => exact hd.wf
  | sub _ hv ih => exact (subLevel_ok ih hv).wf

theorem WFArgs.core {e : ArgsDef V} (h : WFArgs cx e) : CoreWF cx (coreOf e) := by
  obtain ⟨core, flats, sub⟩ := e
  rw [WFArgs] at h
  exact h.1

theorem positional_filter {c : Core V} (h : CoreWF cx c) : c.positional = c.fields.filter (fun f => !isOption f) := by
  unfold Core.positional
  conv => rhs; rw [← List.take_append_drop c.namedCnt c.fields]
  rw [List.filter_append, List.filter_eq_nil_iff.2, List.filter_eq_self.2]
  · simp
  · obtain ⟨ps, va, la, hl, h1, h2, h3⟩ := h.layout
    intro f hf
    rw [hl] at hf
    simp only [List.mem_append, Option.mem_toList] at hf
    rcases hf with (hf | hf) | hf
    · simp [(h1 f hf).1]
    · simp [(h2 f hf).1]
    · simp [(h3 f hf).1]
  · intro f hf
    simp [h.named f hf]

theorem positional_attrs {e : ArgsDef V} (h : WFArgs cx e) (i : Nat) {a : ArgAttrs} :
    e.info.positionalAttrs[i]? = some a ↔ ∃ f, positionalField e i = some f ∧ f.attrs = a := by
  rw [info_positional, positional_filter (WFArgs.core h), List.getElem?_map, Option.map_eq_some_iff]
  rfl

theorem positionalField_lt {e : ArgsDef V} {i : Nat} {f : FieldInfo V} (h : positionalField e i = some f) :
    i < ((coreOf e).fields.filter (fun f => !isOption f)).length := (List.getElem?_eq_some_iff.1 h).1

theorem positionalField_mem {e : ArgsDef V} {i : Nat} {f : FieldInfo V} (h : positionalField e i = some f) :
    f ∈ (coreOf e).fields ∧ isOption f = false := by
  have := List.mem_of_getElem? h
  simpa using this

/-- What one iteration does to the counter. -/
inductive CounterStep (e : ArgsDef V) (s t : LoopState V) : Prop
  /-- Nothing: an option was read, or `--` while the command has no `arg(last)` field. -/
  | same (h : t.cur.nextPositional = s.cur.nextPositional)
  /-- A positional argument was stored in the field given by the counter, and in no other. -/
  | stored (i : Nat) (f : FieldInfo V) (pl : Place V) (hf : positionalField e s.cur.nextPositional = some f)
      (hi : (coreOf e).fields[i]? = some f) (hp : t.cur.fields = s.cur.fields.set i pl)
      (h : t.cur.nextPositional = if isMulti f then s.cur.nextPositional else s.cur.nextPositional + 1)
  /-- `--` was read and the last positional field has `arg(last)`. -/
  | last (f : FieldInfo V) (hd : s.dashed = false ∧ t.dashed = true) (hf : positionalField e t.cur.nextPositional = some f)
      (hn : positionalField e (t.cur.nextPositional + 1) = none) (hl : f.src.last = true) (hp : t.cur.fields = s.cur.fields)

theorem counterStep_positional {e : ArgsDef V} (he : WFArgs cx e) {s t : LoopState V} {b drained : Bool} {arg : Bytes} {rest : Toks}
    (hinfo : s.cur.info = e.info) (h : visitPositional s.cur b arg rest = .ok (t.cur, drained)) :
    t.cur.info = e.info ∧ CounterStep e s t := by
  obtain ⟨h1, attrs, pl, h2, h3, h4, h5⟩ := visitPositional_counter h
  rw [hinfo] at h1 h2
  obtain ⟨f, hf, ha⟩ := (positional_attrs he _).1 h2
  subst ha
  obtain ⟨hm, hopt⟩ := positionalField_mem hf
  obtain ⟨i, hi⟩ := List.getElem?_of_mem hm
  have hwf := (WFArgs.core he).fields i f hi
  refine ⟨h1, .stored i f pl hf hi ?_ ?_⟩
  · rw [h4, hwf.idx]
  · rw [h5, hwf.va hopt]

theorem counterStep {e : ArgsDef V} (he : WFArgs cx e) {sub : Option (SubPlace V)} {s t : LoopState V} (h : Iter sub s t)
    (hinfo : s.cur.info = e.info) : t.cur.info = e.info ∧ CounterStep e s t := by
  cases h with
  | long hs hv hf => have := visitLong_counter hv; exact ⟨this.2.trans hinfo, .same this.1⟩
  | longNext hs hv => have := visitLong_counter hv; exact ⟨this.2.trans hinfo, .same this.1⟩
  | bundle hs hv hf => have := visitBundle_counter hv; exact ⟨this.2.trans hinfo, .same this.1⟩
  | bundleNext hs hv => have := visitBundle_counter hv; exact ⟨this.2.trans hinfo, .same this.1⟩
  | positional hs hn hv => exact counterStep_positional he hinfo hv
  | dashed hv => exact counterStep_positional he hinfo hv
  | @dashdash cur cur' parents arg rest hs hv =>
    have hlen : cur.info.positionalAttrs.length < 256 := by
      rw [hinfo, info_positional, List.length_map, positional_filter (WFArgs.core he)]
      exact Nat.lt_of_le_of_lt (List.length_filter_le _ _) (Nat.lt_of_le_of_lt (WFArgs.core he).len (by decide))
    obtain ⟨h1, h2, h3⟩ := enterDash_counter hv hlen
    refine ⟨h1.trans hinfo, ?_⟩
    rcases h3 with h3 | ⟨attrs, ha, hl, hn⟩
    · exact .same (by rw [h3])
    · rw [hinfo] at ha hn
      rw [List.getLast?_eq_getElem?] at ha
      have e1 : e.info.positionalAttrs.length - 1 = cur'.nextPositional := by omega
      rw [e1] at ha
      obtain ⟨f, hf, haf⟩ := (positional_attrs he _).1 ha
      subst haf
      obtain ⟨i, hi⟩ := List.getElem?_of_mem (positionalField_mem hf).1
      have hwf := (WFArgs.core he).fields i f hi
      refine .last f ⟨rfl, rfl⟩ hf ?_ (by rw [← hwf.la]; exact hl) h2
      cases hx : positionalField e (cur'.nextPositional + 1) with
      | none => rfl
      | some g =>
        have := (List.getElem?_eq_some_iff.1 ((positional_attrs he _).2 ⟨g, hx, rfl⟩)).1
        omega

theorem iters_info {e : ArgsDef V} (he : WFArgs cx e) {sub : Option (SubPlace V)} {s t : LoopState V} (h : Iters sub s t)
    (hinfo : s.cur.info = e.info) : t.cur.info = e.info := by
  induction h with
  | refl => exact hinfo
  | step _ hs ih => exact (counterStep he hs ih).1

/-- C28: while the arguments of a command are parsed, starting with the counter 0, the counter never exceeds the number of
positional fields of the command, which is far below the limit of `u8`. -/
theorem C28_counter (hd : DerivedArgs cx d) {e : ArgsDef V} (he : Command d e) {sub : Option (SubPlace V)}
    {fields : List (Place V)} {parents : Chain V} {toks : Toks} {s : LoopState V}
    (h : Iters sub ⟨false, { fields := fields, info := e.info, nextPositional := 0 }, parents, toks⟩ s) :
    s.cur.nextPositional ≤ ((coreOf e).fields.filter (fun f => !isOption f)).length ∧ s.cur.nextPositional + 1 < 256 := by
  have hwf := command_wf hd he
  have hle : s.cur.nextPositional ≤ ((coreOf e).fields.filter (fun f => !isOption f)).length := by
    generalize hs0 : (⟨false, { fields := fields, info := e.info, nextPositional := 0 }, parents, toks⟩ : LoopState V) = s0 at h
    have hinfo : s0.cur.info = e.info := by rw [← hs0]
    have h0 : s0.cur.nextPositional = 0 := by rw [← hs0]
    clear hs0
    induction h with
    | refl => omega
    | step h1 hs ih =>
      cases (counterStep hwf hs (iters_info hwf h1 hinfo)).2 with
      | same h => omega
      | stored i f pl hf hi hp h =>
        have := positionalField_lt hf
        rw [h]
        split <;> omega
      | last f hd hf hn hl hp =>
        have := positionalField_lt hf
        omega
  refine ⟨hle, ?_⟩
  have h1 := List.length_filter_le (fun f => !isOption f) (coreOf e).fields
  have h2 := (WFArgs.core hwf).len
  omega

/-- C28: so the next increment of the `u8` never overflows. -/
theorem C28_no_overflow (hd : DerivedArgs cx d) {e : ArgsDef V} (he : Command d e) {sub : Option (SubPlace V)}
    {fields : List (Place V)} {parents : Chain V} {toks : Toks} {s : LoopState V}
    (h : Iters sub ⟨false, { fields := fields, info := e.info, nextPositional := 0 }, parents, toks⟩ s) :
    incU8 s.cur.nextPositional = .ok (s.cur.nextPositional + 1) := by
  unfold incU8
  rw [if_pos (C28_counter hd he h).2]

/-- C28: no positional field is skipped. Whatever is read, the counter stays, or a positional argument is stored in the field
with the number given by the counter (and in no other), after which the counter increases by one unless the field takes several
values, or `--` moves the counter to a last field with `arg(last)`. -/
theorem C28_step (hd : DerivedArgs cx d) {e : ArgsDef V} (he : Command d e) {sub : Option (SubPlace V)}
    {fields : List (Place V)} {parents : Chain V} {toks : Toks} {s t : LoopState V}
    (h : Iters sub ⟨false, { fields := fields, info := e.info, nextPositional := 0 }, parents, toks⟩ s) (hs : Iter sub s t) :
    CounterStep e s t :=
  (counterStep (command_wf hd he) hs (iters_info (command_wf hd he) h rfl)).2

/-- C28: the iterations are those of `run_parser`, which is started for a command with the counter 0. -/
theorem C28_iterations {sub : Option (SubPlace V)} {s t : LoopState V} (h : Iters sub s t) : s.result sub = t.result sub := by
  induction h with
  | refl => rfl
  | step _ hs ih => exact ih.trans (iter_result hs)

/-- `app add x y -- z`: the arguments after `add`; `x` and `y` go to the first field, which takes several values, `z` to the second,
which has `arg(last)`. -/
example : ∃ s, Iters none ⟨false, { fields := (mainFrame Sample.add).fields, info := Sample.add.info, nextPositional := 0 }, [],
    ["x", "y", "--", "z"].map blit⟩ s ∧ s.cur.nextPositional = 1 ∧ s.toks = [] :=
  ⟨_, .step (.step (.step (.step .refl (.positional rfl (by intro _ _ h; cases h) rfl)) (.positional rfl (by intro _ _ h; cases h) rfl))
    (.dashdash rfl rfl)) (.dashed rfl), by decide +kernel, by decide +kernel⟩

/-- `app run x y z`: `x` goes to the first field, which takes one value, and `y` to the second, which takes all that follow. -/
example : ∃ s, Iters none ⟨false, { fields := (mainFrame Sample.run).fields, info := Sample.run.info, nextPositional := 0 }, [],
    ["x", "y", "z"].map blit⟩ s ∧ s.cur.nextPositional = 1 ∧ s.toks = [] :=
  ⟨_, .step (.step .refl (.positional rfl (by intro _ _ h; cases h) rfl)) (.positional rfl (by intro _ _ h; cases h) rfl),
    by decide +kernel, by decide +kernel⟩

end Palc
