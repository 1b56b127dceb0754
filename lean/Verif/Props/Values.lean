import Verif.Lemmas.Parsed
import Verif.Lemmas.Exchange
/-!
# What ends up in the fields (C05, C06, C07, C16, C21)
-/

namespace Palc

open Spec

variable {V : Type} {cx : Cx V} {d : ArgsDef V} {argv0 : Bytes} {toks : List Bytes} {evs : List Event} {κ : Ctx V}
  {out : Out V}

/-! ## C05 -/

/-- The ways to give value `v` to the option `f` at address `a`: the arguments used, after any flags bundled with it. -/
inductive Spelling (cx : Cx V) (st : List (Entry V)) (a : Addr) (f : FieldInfo V) (v : Bytes) : List Bytes → Prop
  /-- `--name=VALUE` (everything after the first '='). -/
  | longEq {n} (hr : Resolves cx st (.long n) a f) (hk : f.kind ≠ .bool) :
      Spelling cx st a f v [enc ('-' :: '-' :: n) ++ eqSign :: v]
  /-- `--name VALUE`. -/
  | longSep {n} (hr : Resolves cx st (.long n) a f) (ht : takesValue f = true) (hq : f.src.requireEquals = false)
      (hs : Standalone f v) : Spelling cx st a f v [enc ('-' :: '-' :: n), v]
  /-- `-xyc=VALUE`. -/
  | shortEq {fl c} (hfl : ∀ x ∈ fl, PureFlag cx st x) (hr : Resolves cx st (.short c) a f) (ht : takesValue f = true) :
      Spelling cx st a f v [dash :: (enc fl ++ (encChar c ++ eqSign :: v))]
  /-- `-xycVALUE`. -/
  | attached {fl c} (hfl : ∀ x ∈ fl, PureFlag cx st x) (hr : Resolves cx st (.short c) a f) (ht : takesValue f = true)
      (hq : f.src.requireEquals = false) (hne : v ≠ []) (heq : v.head? ≠ some eqSign) :
      Spelling cx st a f v [dash :: (enc fl ++ (encChar c ++ v))]
  /-- `-xyc VALUE`. -/
  | shortSep {fl c} (hfl : ∀ x ∈ fl, PureFlag cx st x) (hr : Resolves cx st (.short c) a f) (ht : takesValue f = true)
      (hq : f.src.requireEquals = false) (hs : Standalone f v) :
      Spelling cx st a f v [dash :: (enc fl ++ encChar c), v]

theorem Spelling.field {st : List (Entry V)} {a : Addr} {f : FieldInfo V} {v : Bytes} {used : List Bytes}
    (h : Spelling cx st a f v used) : fieldAt st a = some f ∧ f.kind ≠ .bool := by
  have ht0 : takesValue f = true → f.kind ≠ .bool := by intro h hk; simp [takesValue, hk] at h
  cases h with
  | longEq hr hk => exact ⟨resolves_fieldAt hr, hk⟩
  | longSep hr ht => exact ⟨resolves_fieldAt hr, ht0 ht⟩
  | shortEq _ hr ht => exact ⟨resolves_fieldAt hr, ht0 ht⟩
  | attached _ hr ht => exact ⟨resolves_fieldAt hr, ht0 ht⟩
  | shortSep _ hr ht => exact ⟨resolves_fieldAt hr, ht0 ht⟩

/-- Each spelling is one step giving the value. -/
theorem Spelling.step {st : List (Entry V)} (hwf : StackWF cx st) {a : Addr} {f : FieldInfo V} {v : Bytes} {used : List Bytes}
    (h : Spelling cx st a f v used) (k : Nat) (post : List Bytes) :
    ∃ evs0 : List Event, (∀ e ∈ evs0, e.2 = none)
      ∧ Step cx ⟨st, k, .opts⟩ (used ++ post) (evs0 ++ [(a, some v)]) ⟨st, k, .opts⟩ post := by
  cases h with
  | longEq hr hk => exact ⟨[], by simp, .longEq hr (hwf.long hr).2 hk⟩
  | longSep hr ht hq hs => exact ⟨[], by simp, .longSep hr (hwf.long hr).2 (hwf.long hr).1 ht hq hs⟩
  | shortEq hfl hr ht =>
    obtain ⟨evs0, h1, _, _, h0⟩ := bundle_flags hwf hfl
    obtain ⟨hc1, hc2⟩ := hwf.short hr
    refine ⟨evs0, h0, ?_⟩
    exact (Step.cluster (toks := post) (k := k) (bundle_head hwf hfl (encChar_head_ne_dash hc1 _))
      (h1 (encChar_head_ne_eq hc2 _) (.eq hr ht)))
  | attached hfl hr ht hq hne heq =>
    obtain ⟨evs0, h1, _, _, h0⟩ := bundle_flags hwf hfl
    obtain ⟨hc1, hc2⟩ := hwf.short hr
    refine ⟨evs0, h0, ?_⟩
    exact (Step.cluster (toks := post) (k := k) (bundle_head hwf hfl (encChar_head_ne_dash hc1 _))
      (h1 (encChar_head_ne_eq hc2 _) (.attached hr ht hq hne heq)))
  | shortSep hfl hr ht hq hs =>
    obtain ⟨evs0, h1, _, _, h0⟩ := bundle_flags hwf hfl
    obtain ⟨hc1, hc2⟩ := hwf.short hr
    refine ⟨evs0, h0, ?_⟩
    exact (Step.clusterSep (toks := post) (k := k)
      (by simpa using bundle_head hwf hfl (encChar_head_ne_dash hc1 []))
      (h1 (by simpa using encChar_head_ne_eq hc2 []) (.sep hr ht hq rfl hs)))

/-- C05: in a successful parse, an option value written in any of the five ways is an occurrence of exactly that value
(after the occurrences of the preceding arguments and of the flags bundled with it); a single-valued field holds what its
value parser makes of exactly these bytes (in lower case with `ignore_case`). -/
theorem C05_value_verbatim {pre used post : List Bytes} {evs1 : List Event} {st : List (Entry V)} {k : Nat} {a : Addr}
    {f : FieldInfo V} {v : Bytes} (h : Parsed cx d argv0 (pre ++ used ++ post) evs κ out)
    (hpre : Reads cx (start argv0 d) pre evs1 ⟨st, k, .opts⟩) (hs : Spelling cx st a f v used) :
    (∃ flags rest, evs = evs1 ++ flags ++ (a, some v) :: rest ∧ ∀ e ∈ flags, e.2 = none)
    ∧ (isMulti f = false → ∃ x, f.parser.parse (if f.src.ignoreCase then asciiLower v else v) = .ok x
        ∧ outAt κ.stack out a = some (f.ident, .field (match f.kind with
          | .option => .option (some x)
          | .optionOption => .optOpt (some (some x))
          | _ => .value x))) := by
  have hwf := (stack_wf h.derived.wf (reads_steps hpre)).1
  obtain ⟨evs0, h0, hst⟩ := hs.step hwf k post
  have hst2 := steps_trans (steps_append (reads_steps hpre) (used ++ post)) (.step hst .refl)
  obtain ⟨rest, hE, hR⟩ := steps_reads_det
    (by simpa [List.append_assoc] using hst2) (List.append_assoc pre used post ▸ h.reads)
  have hevs : evs = evs1 ++ evs0 ++ (a, some v) :: rest := by rw [hE]; simp
  refine ⟨⟨evs0, rest, hevs, h0⟩, fun hm => ?_⟩
  obtain ⟨hf0, hkb⟩ := hs.field
  obtain ⟨ext, hext⟩ := steps_stack (reads_steps hR)
  have hf : fieldAt κ.stack a = some f := by rw [hext]; exact fieldAt_ext_some hf0
  obtain ⟨w, hw, ho⟩ := h.field hf
  have hmem : some v ∈ occs evs a := occs_mem.2 (by rw [hevs]; simp)
  have hne : occs evs a ≠ [] := List.ne_nil_of_mem hmem
  obtain ⟨g, hg⟩ := Option.ne_none_iff_exists'.1 (h.acceptable a f hf)
  have hw' : fieldOut f (occs evs a) = (given f (occs evs a)).bind (toField f) := by
    unfold fieldOut
    split
    · rename_i h0; exact absurd h0 hne
    · rfl
  rw [hw', hg, Option.bind_some] at hw
  rcases given_value hg hne with ⟨hk, _⟩ | ⟨hk, b, x, h1, h2, rfl⟩ | ⟨hk, ⟨h1, _⟩ | ⟨b, x, h1, h2, rfl⟩⟩ | ⟨hm', _⟩
  · exact absurd hk hkb
  · rw [h1, List.mem_singleton, Option.some.injEq] at hmem
    subst hmem
    refine ⟨x, h2, ?_⟩
    rw [ho]
    rcases hk with hk | hk <;> simp only [toField, hk] at hw ⊢ <;> cases hw <;> rfl
  · rw [h1, List.mem_singleton] at hmem; cases hmem
  · rw [h1, List.mem_singleton, Option.some.injEq] at hmem
    subst hmem
    refine ⟨x, h2, ?_⟩
    rw [ho]
    simp only [toField, hk] at hw ⊢
    simp at hw
    rw [← hw]
  · rw [hm] at hm'; cases hm'

/-- `add -v` then `-vc=a=` (flag bundled, value with a further '='). -/
example : ∃ evs κ out st a f, Parsed Sample.cx Sample.cli (blit "app") ([blit "-v", blit "add"] ++ [blit "-c=a="] ++ [blit "x"]) evs κ out
    ∧ Reads Sample.cx (start (blit "app") Sample.cli) [blit "-v", blit "add"] [(⟨0, 0, 0⟩, none)] ⟨st, 0, .opts⟩
    ∧ Spelling Sample.cx st a f (blit "a=") [blit "-c=a="] ∧ isMulti f = false := by
  obtain ⟨evs, κ, out, h, _⟩ := Sample.parsed ["-v", "add", "-c=a=", "x"] (fun _ _ _ => true) (by decide +kernel)
  obtain ⟨f, hr, hp⟩ := Sample.resolve (fun f => takesValue f && !isMulti f)
    (st := [Sample.entry "Add" "add" Sample.add, Sample.root]) (n := .short 'c') (a := ⟨0, 0, 1⟩) (by decide +kernel)
  simp only [Bool.and_eq_true, Bool.not_eq_true'] at hp
  exact ⟨evs, κ, out, _, _, f, h, Sample.reads_add, .shortEq (fl := []) (by simp) hr hp.1, hp.2⟩

example : Sample.value (Sample.parse ["app", "-v", "add", "-c=a=", "x"]) ["config"] = some (.option (some (lit "a="))) := by
  decide +kernel

/-! ## C06 -/

/-- C06: after a successful parse an argument that is not `Vec`-like occurred at most once. -/
theorem C06_at_most_once (h : Parsed cx d argv0 toks evs κ out) {a : Addr} {f : FieldInfo V}
    (hf : fieldAt κ.stack a = some f) (hm : f.kind ≠ .vec ∧ f.kind ≠ .optionVec) :
    (evs.filter (fun e => decide (e.1 = a))).length ≤ 1 := by
  have hm' : isMulti f = false := by unfold isMulti; split <;> simp_all
  have := given_single (h.acceptable a f hf) hm'
  unfold occs at this
  simpa using this

/-- C06: a second occurrence, in any spelling, is an error naming the argument, unless something before it was already
unacceptable (or it is a flag given a value). -/
theorem C06_second_rejected (hd : DerivedArgs cx d) {rest : List Bytes}
    (hst : Steps cx (start argv0 d) toks evs κ rest) {evs1 evs2 : List Event} {a : Addr} {o : Option Bytes}
    (he : evs = evs1 ++ (a, o) :: evs2) {f : FieldInfo V} (hf : fieldAt κ.stack a = some f)
    (hm : f.kind ≠ .vec ∧ f.kind ≠ .optionVec) {o1 : Option Bytes} (h1 : (a, o1) ∈ evs1)
    (hacc : Acceptable κ.stack evs1) (hflag : f.kind = .bool → o = none) :
    tryParseFrom d (argv0 :: toks) = .error (.error (about f { kind := .duplicatedNamedArgument })) := by
  have hm' : isMulti f = false := by unfold isMulti; split <;> simp_all
  refine outcome_steps hd.wf hst ⟨evs1, a, o, evs2, f, _, he, hf, by simpa [Acceptable] using hacc, .duplicate hm' ?_ ?_, rfl⟩
  · intro hk; rw [hflag hk]; rfl
  · rw [List.nil_append]
    exact occs_ne_nil.2 ⟨o1, h1⟩

/-- A global option given at two levels, once by its short name and once by an alias. -/
example : ∃ evs κ out f, Parsed Sample.cx Sample.cli (blit "app") (["add", "-cx", "y"].map blit) evs κ out
    ∧ fieldAt κ.stack ⟨0, 0, 1⟩ = some f ∧ (f.kind ≠ .vec ∧ f.kind ≠ .optionVec) := by
  obtain ⟨evs, κ, out, h, hp⟩ := Sample.parsed ["add", "-cx", "y"]
    (fun _ κ _ => (fieldAt κ.stack ⟨0, 0, 1⟩).any (fun f : FieldInfo Sample.Val => decide (f.kind ≠ .vec ∧ f.kind ≠ .optionVec)))
    (by decide +kernel)
  rw [Option.any_eq_true] at hp
  obtain ⟨f, hf, hp⟩ := hp
  exact ⟨evs, κ, out, f, h, hf, by simpa using hp⟩

example : Sample.failure (Sample.parse ["app", "-cx", "add", "--cfg", "y"])
    = some (.error { kind := .duplicatedNamedArgument, argDesc := some (lit "-c, --config <CONFIG>") }) := by decide +kernel

/-! ## C07 -/

/-- The pieces of a value: itself, or the parts between delimiters. -/
def splitValue (delim : Option Char) (b : Bytes) : List Bytes :=
  match delim with
  | some c => splitOn c b
  | none => [b]

theorem pieces_eq {f : FieldInfo V} (hwf : FieldPre cx f) (b : Bytes) : pieces f b = splitValue f.src.valueDelimiter b := by
  unfold pieces splitValue
  rw [hwf.delim]
  cases f.src.valueDelimiter <;> rfl

/-- C07: after a successful parse a `Vec`-like field holds the parsed values of all occurrences in order, split at the
delimiter if there is one. -/
theorem C07_vec_collects (h : Parsed cx d argv0 toks evs κ out) {a : Addr} {f : FieldInfo V}
    (hf : fieldAt κ.stack a = some f) (hm : f.kind = .vec ∨ f.kind = .optionVec) (hocc : ∃ v, (a, v) ∈ evs) :
    ∃ (bs : List Bytes) (vs : List V), evs.filter (fun e => decide (e.1 = a)) = bs.map (fun b => (a, some b))
      ∧ ((bs.map (fun b => if f.src.ignoreCase then asciiLower b else b)).flatMap
          (splitValue f.src.valueDelimiter)).map f.parser.parse = vs.map .ok
      ∧ outAt κ.stack out a = some (f.ident, .field (if f.kind = .vec then .vec vs else .optVec (some vs))) := by
  obtain ⟨w, hw, ho⟩ := h.field hf
  have hne := occs_ne_nil.2 hocc
  have hfw := h.stackWF.field hf
  obtain ⟨g, hg⟩ := Option.ne_none_iff_exists'.1 (h.acceptable a f hf)
  have hw' : fieldOut f (occs evs a) = (given f (occs evs a)).bind (toField f) := by
    unfold fieldOut
    split
    · rename_i h0; exact absurd h0 hne
    · rfl
  rw [hw', hg, Option.bind_some] at hw
  have hm0 : isMulti f = true := by rcases hm with hm | hm <;> simp [isMulti, hm]
  rcases given_value hg hne with ⟨hk, _⟩ | ⟨hk, b, x, h1, h2, rfl⟩ | ⟨hk, _⟩ | ⟨_, bs, vs, h1, h2, rfl⟩
  · simp [isMulti, hk] at hm0
  · rcases hk with hk | hk <;> simp [isMulti, hk] at hm0
  · simp [isMulti, hk] at hm0
  · refine ⟨bs, vs, ?_, ?_, ?_⟩
    · unfold occs at h1
      have hl : ∀ (l : List Event) (bs : List Bytes), (∀ e ∈ l, e.1 = a) → l.map (·.2) = bs.map some →
          l = bs.map (fun b => (a, some b)) := by
        intro l
        induction l with
        | nil => intro bs _ hb; cases bs with
          | nil => rfl
          | cons => simp at hb
        | cons e l ih =>
          intro bs hl hb
          cases bs with
          | nil => simp at hb
          | cons b bs =>
            simp only [List.map_cons, List.cons.injEq] at hb ⊢
            exact ⟨Prod.ext (hl e (by simp)) hb.1, ih bs (fun e he => hl e (by simp [he])) hb.2⟩
      exact hl _ _ (by simp) h1
    · rw [← h2, List.flatMap_map]
      simp only [pieces_eq hfw.toFieldPre, normalise]
    · rw [ho]
      rcases hm with hm | hm <;> simp [toField, hm] at hw ⊢ <;> exact hw.symm

/-- C07: without an occurrence and without a default it is empty. -/
theorem C07_vec_empty (h : Parsed cx d argv0 toks evs κ out) {a : Addr} {f : FieldInfo V}
    (hf : fieldAt κ.stack a = some f) (hm : f.kind = .vec ∨ f.kind = .optionVec) (hocc : ∀ v, (a, v) ∉ evs)
    (hdef : f.src.defaultValue = none ∧ f.src.defaultValueT.isNone = true) :
    outAt κ.stack out a = some (f.ident, .field (if f.kind = .vec then .vec [] else .optVec none)) := by
  obtain ⟨w, hw, ho⟩ := h.field hf
  have hnil : occs evs a = [] := by
    apply Classical.byContradiction
    intro hne
    obtain ⟨v, hv⟩ := occs_ne_nil.1 hne
    exact hocc v hv
  have hdv := (h.stackWF.field hf).defaultSrc.2 hdef
  rw [hnil, fieldOut, defaultContent, hdv, Option.bind_some] at hw
  rw [ho]
  rcases hm with hm | hm <;> simp [toField, hm] at hw ⊢ <;> exact hw.symm

/-- `-D a,b -v -Dc`: interleaved with another option. -/
example : ∃ evs κ out f, Parsed Sample.cx Sample.cli (blit "app") (["-D", "a,b", "-v", "-Dc"].map blit) evs κ out
    ∧ fieldAt κ.stack ⟨0, 0, 3⟩ = some f ∧ f.kind = .vec ∧ ∃ v, (⟨0, 0, 3⟩, v) ∈ evs := by
  obtain ⟨evs, κ, out, h, hp⟩ := Sample.parsed ["-D", "a,b", "-v", "-Dc"]
    (fun evs κ _ => (fieldAt κ.stack ⟨0, 0, 3⟩).any (fun f : FieldInfo Sample.Val => decide (f.kind = .vec))
      && evs.any (fun e => decide (e.1 = ⟨0, 0, 3⟩))) (by decide +kernel)
  simp only [Bool.and_eq_true, Option.any_eq_true, List.any_eq_true, decide_eq_true_eq] at hp
  obtain ⟨⟨f, hf, hk⟩, e, h1, h2⟩ := hp
  exact ⟨evs, κ, out, f, h, hf, hk, e.2, h2 ▸ h1⟩

example : Sample.value (Sample.parse ["app", "-D", "a,b", "-v", "-Dc"]) ["define"] = some (.vec [lit "a", lit "b", lit "c"])
    ∧ Sample.value (Sample.parse ["app", "-v"]) ["define"] = some (.vec []) := by decide +kernel

/-! ## C21 -/

/-- C21: an argument that occurs is worth what was given; a default value plays no role. -/
theorem C21_given_wins (h : Parsed cx d argv0 toks evs κ out) {a : Addr} {f : FieldInfo V}
    (hf : fieldAt κ.stack a = some f) {v : Option Bytes} (hocc : (a, v) ∈ evs) (hm : isMulti f = false) :
    (f.kind = .bool ∧ outAt κ.stack out a = some (f.ident, .field (.bool true)))
    ∨ (f.kind = .optionOption ∧ v = none ∧ outAt κ.stack out a = some (f.ident, .field (.optOpt (some none))))
    ∨ ∃ b x, v = some b ∧ f.parser.parse (if f.src.ignoreCase then asciiLower b else b) = .ok x
        ∧ outAt κ.stack out a = some (f.ident, .field (match f.kind with
          | .option => .option (some x)
          | .optionOption => .optOpt (some (some x))
          | _ => .value x)) := by
  obtain ⟨w, hw, ho⟩ := h.field hf
  have hmem := occs_mem.2 hocc
  have hne : occs evs a ≠ [] := List.ne_nil_of_mem hmem
  obtain ⟨g, hg⟩ := Option.ne_none_iff_exists'.1 (h.acceptable a f hf)
  have hw' : fieldOut f (occs evs a) = (given f (occs evs a)).bind (toField f) := by
    unfold fieldOut
    split
    · rename_i h0; exact absurd h0 hne
    · rfl
  rw [hw', hg, Option.bind_some] at hw
  rw [ho]
  rcases given_value hg hne with ⟨hk, _, rfl⟩ | ⟨hk, b, x, h1, h2, rfl⟩ | ⟨hk, ⟨h1, rfl⟩ | ⟨b, x, h1, h2, rfl⟩⟩ | ⟨hm', _⟩
  · simp [toField, hk] at hw
    exact .inl ⟨hk, by rw [← hw]⟩
  · rw [h1, List.mem_singleton] at hmem
    refine .inr (.inr ⟨b, x, hmem, h2, ?_⟩)
    rcases hk with hk | hk <;> simp only [toField, hk] at hw ⊢ <;> cases hw <;> rfl
  · rw [h1, List.mem_singleton] at hmem
    simp [toField, hk] at hw
    exact .inr (.inl ⟨hk, hmem, by rw [← hw]⟩)
  · rw [h1, List.mem_singleton] at hmem
    simp [toField, hk] at hw
    exact .inr (.inr ⟨b, x, hmem, h2, by rw [← hw, hk]⟩)
  · rw [hm] at hm'; cases hm'

/-- C21: the same for `Vec`-like arguments: all values given, and no others. -/
theorem C21_given_many (h : Parsed cx d argv0 toks evs κ out) {a : Addr} {f : FieldInfo V}
    (hf : fieldAt κ.stack a = some f) {v : Option Bytes} (hocc : (a, v) ∈ evs) (hm : isMulti f = true) :
    ∃ (bs : List Bytes) (vs : List V), evs.filter (fun e => decide (e.1 = a)) = bs.map (fun b => (a, some b))
      ∧ ((bs.map (fun b => if f.src.ignoreCase then asciiLower b else b)).flatMap
          (splitValue f.src.valueDelimiter)).map f.parser.parse = vs.map .ok
      ∧ outAt κ.stack out a = some (f.ident, .field (if f.kind = .vec then .vec vs else .optVec (some vs))) :=
  C07_vec_collects h hf (by cases hk : f.kind <;> simp [isMulti, hk] at hm ⊢) ⟨v, hocc⟩

/-- C21: an absent argument with `default_value = "s"` holds the parsed string. -/
theorem C21_default_string (h : Parsed cx d argv0 toks evs κ out) {a : Addr} {f : FieldInfo V}
    (hf : fieldAt κ.stack a = some f) (hocc : ∀ v, (a, v) ∉ evs) {s : Str} (hs : f.src.defaultValue = some s) :
    (isMulti f = false ∧ ∃ x, f.parser.parse (enc s) = .ok x ∧ outAt κ.stack out a = some (f.ident, .field (match f.kind with
          | .option => .option (some x)
          | .optionOption => .optOpt (some (some x))
          | _ => .value x)))
    ∨ (isMulti f = true ∧ ∃ vs : List V, (splitValue f.src.valueDelimiter (enc s)).map f.parser.parse = vs.map .ok
        ∧ outAt κ.stack out a = some (f.ident, .field (if f.kind = .vec then .vec vs else .optVec (some vs)))) := by
  obtain ⟨w, hw, ho⟩ := h.field hf
  have hnil : occs evs a = [] := by
    apply Classical.byContradiction
    intro hne
    obtain ⟨v, hv⟩ := occs_ne_nil.1 hne
    exact hocc v hv
  have hfw := h.stackWF.field hf
  rw [hnil, fieldOut, defaultContent, (hfw.defaultStr s).2 hs] at hw
  simp only [Option.bind_eq_some_iff] at hw
  obtain ⟨g, hg, hw⟩ := hw
  rw [ho]
  cases hk : f.kind with
  | bool => simp [content, hk] at hg
  | value =>
    simp only [content, hk, Option.map_eq_some_iff] at hg
    obtain ⟨x, hx, rfl⟩ := hg
    simp only [toField, hk] at hw
    cases hw
    exact .inl ⟨by simp [isMulti, hk], x, parsed_some.1 hx, rfl⟩
  | option =>
    simp only [content, hk, Option.map_eq_some_iff] at hg
    obtain ⟨x, hx, rfl⟩ := hg
    simp only [toField, hk] at hw
    cases hw
    exact .inl ⟨by simp [isMulti, hk], x, parsed_some.1 hx, rfl⟩
  | optionOption =>
    simp only [content, hk, Option.map_eq_some_iff] at hg
    obtain ⟨x, hx, rfl⟩ := hg
    simp [toField, hk] at hw
    cases hw
    exact .inl ⟨by simp [isMulti, hk], x, parsed_some.1 hx, rfl⟩
  | vec =>
    simp only [content, hk, allValues, Option.map_some, List.flatMap_cons, List.flatMap_nil, List.append_nil,
      Option.map_eq_some_iff] at hg
    obtain ⟨vs, hvs, rfl⟩ := hg
    simp only [toField, hk] at hw
    cases hw
    rw [parsedAll_map, pieces_eq hfw.toFieldPre] at hvs
    exact .inr ⟨by simp [isMulti, hk], vs, hvs, by simp⟩
  | optionVec =>
    simp only [content, hk, allValues, Option.map_some, List.flatMap_cons, List.flatMap_nil, List.append_nil,
      Option.map_eq_some_iff] at hg
    obtain ⟨vs, hvs, rfl⟩ := hg
    simp only [toField, hk] at hw
    cases hw
    rw [parsedAll_map, pieces_eq hfw.toFieldPre] at hvs
    exact .inr ⟨by simp [isMulti, hk], vs, hvs, by simp⟩

/-- The field value for a `default_value_t` expression. -/
def defaultField (f : FieldInfo V) : DefaultOut V → FieldOut V
  | .bool b => .bool b
  | .one x => if f.kind = .value then .value x else .option (some x)
  | .opt x => .optOpt (some x)
  | .many xs => if f.kind = .vec then .vec xs else .optVec (some xs)

/-- C21: an absent argument with `default_value_t = e` holds the value of `e`. -/
theorem C21_default_expr (h : Parsed cx d argv0 toks evs κ out) {a : Addr} {f : FieldInfo V}
    (hf : fieldAt κ.stack a = some f) (hocc : ∀ v, (a, v) ∉ evs) {e : DefaultOut V} {shown : Str}
    (hs : f.src.defaultValueT = some (.explicit (e, shown))) :
    outAt κ.stack out a = some (f.ident, .field (defaultField f e)) := by
  obtain ⟨w, hw, ho⟩ := h.field hf
  have hnil : occs evs a = [] := by
    apply Classical.byContradiction
    intro hne
    obtain ⟨v, hv⟩ := occs_ne_nil.1 hne
    exact hocc v hv
  have hfw := h.stackWF.field hf
  have hdv := hfw.defaultExpr _ _ hs
  have hty := hfw.defaultTy _ _ hdv
  rw [hnil, fieldOut, defaultContent, hdv] at hw
  rw [ho]
  cases e <;> cases hk : f.kind <;> simp [defaultTypeOk, hk] at hty <;> simp [toField, hk] at hw <;>
    simp [defaultField, hk, hw]

/-- `jobs` has `default_value = "1"`. -/
example : ∃ evs κ out f, Parsed Sample.cx Sample.cli (blit "app") (["-v"].map blit) evs κ out
    ∧ fieldAt κ.stack ⟨0, 0, 2⟩ = some f ∧ (∀ v, (⟨0, 0, 2⟩, v) ∉ evs) ∧ f.src.defaultValue = some (lit "1") := by
  obtain ⟨evs, κ, out, h, hp⟩ := Sample.parsed ["-v"]
    (fun evs κ _ => (fieldAt κ.stack ⟨0, 0, 2⟩).any (fun f : FieldInfo Sample.Val => decide (f.src.defaultValue = some (lit "1")))
      && evs.all (fun e => decide (e.1 ≠ ⟨0, 0, 2⟩))) (by decide +kernel)
  simp only [Bool.and_eq_true, Option.any_eq_true, List.all_eq_true, decide_eq_true_eq] at hp
  obtain ⟨⟨f, hf, hk⟩, hno⟩ := hp
  exact ⟨evs, κ, out, f, h, hf, fun v hv => hno _ hv rfl, hk⟩

example : Sample.value (Sample.parse ["app"]) ["jobs"] = some (.value (lit "1"))
    ∧ Sample.value (Sample.parse ["app", "-j", "2"]) ["jobs"] = some (.value (lit "2")) := by decide +kernel

end Palc
