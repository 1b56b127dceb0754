import Verif.Lemmas.Split
import Verif.Lemmas.Declared
import Verif.Props.Values
/-!
# Values: enums, case, delimiters, value parsers (C37, C38, C39, C40)
-/

namespace Palc

open Spec

variable {V : Type} {cx : Cx V} {d : ArgsDef V} {argv0 : Bytes} {toks : List Bytes} {evs : List Event} {κ : Ctx V}
  {out : Out V}

/-! ## C37 -/

theorem adjacent_distinct {α : Type} {key : α → Bytes} {name : α → Str} (hk : ∀ x, key x = enc (name x)) {xs : List α}
    (hs : xs.Pairwise (fun a b => leBytes (key a) (key b)))
    (hd : (xs.zip (xs.drop 1)).any (fun w => decide (name w.1 = name w.2)) = false) : (xs.map name).Nodup := by
  induction xs with
  | nil => simp
  | cons x xs ih =>
    rw [List.pairwise_cons] at hs
    cases xs with
    | nil => simp
    | cons y ys =>
      simp only [List.drop_succ_cons, List.drop_zero, List.zip_cons_cons, List.any_cons, Bool.or_eq_false_iff,
        decide_eq_false_iff_not] at hd
      have ih' := ih hs.2 (by simpa using hd.2)
      rw [List.map_cons, List.nodup_cons]
      refine ⟨?_, ih'⟩
      intro hm
      obtain ⟨z, hz, he⟩ := List.mem_map.1 hm
      rcases List.mem_cons.1 hz with rfl | hz
      · exact hd.1 he.symm
      · -- `x ≤ y ≤ z` and `x = z`
        have h1 := hs.1 y (by simp)
        have h2 := (List.pairwise_cons.1 hs.2).1 z hz
        have hxz : key z = key x := by rw [hk, hk, he]
        rw [hxz] at h2
        have hxy : key x = key y := by
          unfold leBytes at h1 h2
          cases hc : cmpBytes (key x) (key y) with
          | lt => exact absurd (cmpBytes_gt.2 hc) h2
          | eq => exact cmpBytes_eq.1 hc
          | gt => exact absurd hc h1
        rw [hk, hk] at hxy
        exact hd.1 (enc_injective hxy)

theorem deriveValueEnum_ok {variants : List (Str × V)} {e : EnumDef V} (h : deriveValueEnum variants = .ok e) :
    e.arms.Perm variants ∧ (variants.map Prod.fst).Nodup
    ∧ (∀ x ∈ variants, x.1.any isAsciiControl = false)
    ∧ (e.noUpperCase = true ↔ ∀ x ∈ variants, ∀ b ∈ enc x.1, ¬ (65 ≤ b.toNat ∧ b.toNat ≤ 90))
    ∧ e.possibleInputsNul = packNul (e.arms.map Prod.fst) := by
  unfold deriveValueEnum at h
  dsimp only at h
  split at h
  · rename_i hc
    cases h
    have hctl : ∀ x ∈ variants, x.1.any isAsciiControl = false := by
      intro x hx
      have := List.flatMap_eq_nil_iff.1 hc.1 x hx
      cases hxc : x.1.any isAsciiControl
      · rfl
      · rw [hxc] at this; simp at this
    have hfil : variants.filter (fun v => !v.1.any isAsciiControl) = variants := by
      rw [List.filter_eq_self]
      intro x hx; rw [hctl x hx]; rfl
    have hp : (sortByKey (fun e : Str × V => enc e.1) (variants.filter (fun v => !v.1.any isAsciiControl))).Perm variants := by
      rw [hfil]; exact sortByKey_perm _ _
    refine ⟨hp, ?_, hctl, ?_, rfl⟩
    · have := adjacent_distinct (key := fun e : Str × V => enc e.1) (name := Prod.fst) (fun _ => rfl)
        (sortByKey_sorted _ _) hc.2
      exact (hp.map Prod.fst).nodup_iff.1 this
    · simp only [List.all_eq_true, Bool.not_eq_true', decide_eq_false_iff_not]
      exact ⟨fun h x hx => h x (hp.mem_iff.2 hx), fun h x hx => h x (hp.mem_iff.1 hx)⟩
  · cases h

theorem findSome_key {α β γ : Type} [DecidableEq β] {xs : List α} {key : α → β} {val : α → γ} {k : β} (hn : (xs.map key).Nodup)
    {v : γ} : xs.findSome? (fun x => if key x = k then some (val x) else none) = some v ↔ ∃ x ∈ xs, key x = k ∧ val x = v := by
  induction xs with
  | nil => simp
  | cons x xs ih =>
    rw [List.map_cons, List.nodup_cons] at hn
    rw [List.findSome?_cons]
    by_cases h : key x = k
    · rw [if_pos h]
      simp only [Option.some.injEq, List.mem_cons]
      constructor
      · intro hv; exact ⟨x, .inl rfl, h, hv⟩
      · rintro ⟨y, rfl | hy, hk, hv⟩
        · exact hv
        · exact absurd (List.mem_map.2 ⟨y, hy, hk.trans h.symm⟩) hn.1
    · rw [if_neg h]
      simp only [List.mem_cons]
      rw [ih hn.2]
      constructor
      · rintro ⟨y, hy, hk⟩; exact ⟨y, .inr hy, hk⟩
      · rintro ⟨y, rfl | hy, hk⟩
        · exact absurd hk.1 h
        · exact ⟨y, hy, hk⟩

theorem parseValue_iff {variants : List (Str × V)} {e : EnumDef V} (h : deriveValueEnum variants = .ok e) (s : Str) (v : V) :
    e.parseValue s = some v ↔ (s, v) ∈ variants := by
  obtain ⟨hp, hn, -⟩ := deriveValueEnum_ok h
  unfold EnumDef.parseValue
  rw [findSome_key (key := Prod.fst) (val := Prod.snd) ((hp.map Prod.fst).nodup_iff.2 hn)]
  constructor
  · rintro ⟨⟨n, w⟩, hx, rfl, rfl⟩; exact hp.mem_iff.1 hx
  · intro hx; exact ⟨(s, v), hp.mem_iff.2 hx, rfl, rfl⟩

/-- C37: a value of an accepted `ValueEnum` is accepted exactly if it is, byte for byte, the name of a variant, and then it
gives this variant. -/
theorem C37_parse {variants : List (Str × V)} {e : EnumDef V} (h : deriveValueEnum variants = .ok e) (b : Bytes) (v : V) :
    (ValueParser.valueEnum e).parse b = .ok v ↔ ∃ n, (n, v) ∈ variants ∧ b = enc n := by
  simp only [ValueParser.parse]
  constructor
  · intro hp
    split at hp
    · rename_i s hs
      split at hp
      · rename_i w hw
        cases hp
        exact ⟨s, (parseValue_iff h s v).1 hw, fromUtf8_eq_some.1 hs⟩
      · cases hp
    · cases hp
  · rintro ⟨n, hn, rfl⟩
    rw [fromUtf8_enc]
    simp only [(parseValue_iff h n v).2 hn]

/-- C37: no two variants of an accepted `ValueEnum` share a name. -/
theorem C37_names_distinct {variants : List (Str × V)} {e : EnumDef V} (h : deriveValueEnum variants = .ok e) :
    (variants.map Prod.fst).Nodup := (deriveValueEnum_ok h).2.1

/-- C37: displaying a variant gives its name, and parsing the displayed name gives the variant back.  The variants are
distinct because rustc accepts no enum with two equal ones. -/
theorem C37_display_inverse [DecidableEq V] {variants : List (Str × V)} {e : EnumDef V} (h : deriveValueEnum variants = .ok e)
    (hv : (variants.map Prod.snd).Nodup) (n : Str) (v : V) (hm : (n, v) ∈ variants) :
    e.displayValue v = some n ∧ (ValueParser.valueEnum e).parse (enc n) = .ok v := by
  refine ⟨?_, (C37_parse h _ _).2 ⟨n, hm, rfl⟩⟩
  obtain ⟨hp, -⟩ := deriveValueEnum_ok h
  unfold EnumDef.displayValue
  rw [findSome_key (key := Prod.snd) (val := Prod.fst) ((hp.map Prod.snd).nodup_iff.2 hv)]
  exact ⟨(n, v), hp.mem_iff.2 hm, rfl, rfl⟩

/-- C37: an enum with two variants of the same name is rejected at compile time. -/
theorem C37_duplicate_rejected (variants : List (Str × V)) (h : ¬ (variants.map Prod.fst).Nodup) :
    ∃ errs, deriveValueEnum variants = .error errs := by
  cases hd : deriveValueEnum variants with
  | error errs => exact ⟨errs, rfl⟩
  | ok e => exact absurd (C37_names_distinct hd) h

/-- An enum of three variants, with the names in no particular order. -/
def Sample.levels : List (Str × Nat) := [(lit "warn", 2), (lit "error", 1), (lit "off", 0)]

example : ∃ e, deriveValueEnum Sample.levels = .ok e ∧ e.arms.map Prod.snd = [1, 0, 2]
    ∧ e.displayValue 2 = some (lit "warn") := ⟨_, rfl, by decide +kernel, by decide +kernel⟩
example : Sample.isOk (deriveValueEnum Sample.levels) = true := by decide +kernel
example : ¬ ((Sample.levels ++ [(lit "off", 3)]).map Prod.fst).Nodup := by decide +kernel
example : (Sample.levels.map Prod.snd).Nodup := by decide

/-! ## C38 -/

/-- Two bytes are the same up to ASCII case. -/
def SameLetter (a b : UInt8) : Prop :=
  a = b ∨ (65 ≤ a.toNat ∧ a.toNat ≤ 90 ∧ b.toNat = a.toNat + 32) ∨ (65 ≤ b.toNat ∧ b.toNat ≤ 90 ∧ a.toNat = b.toNat + 32)

/-- Two byte strings are the same up to ASCII case. -/
def SameUpToCase (x y : Bytes) : Prop :=
  x.length = y.length ∧ ∀ (i : Nat) (a b : UInt8), x[i]? = some a → y[i]? = some b → SameLetter a b

theorem lowerByte_toNat (b : UInt8) :
    (lowerByte b).toNat = if 65 ≤ b.toNat ∧ b.toNat ≤ 90 then b.toNat + 32 else b.toNat := by
  unfold lowerByte
  split
  · rw [UInt8.toNat_add]; simp; omega
  · rfl

theorem sameLetter_iff (a b : UInt8) : SameLetter a b ↔ lowerByte a = lowerByte b := by
  rw [← UInt8.toNat_inj, lowerByte_toNat, lowerByte_toNat]
  unfold SameLetter
  rw [← UInt8.toNat_inj]
  by_cases ha : 65 ≤ a.toNat ∧ a.toNat ≤ 90 <;> by_cases hb : 65 ≤ b.toNat ∧ b.toNat ≤ 90 <;> simp only [ha, hb] <;>
    simp <;> omega

theorem sameUpToCase_iff (x y : Bytes) : SameUpToCase x y ↔ asciiLower x = asciiLower y := by
  unfold SameUpToCase asciiLower
  constructor
  · rintro ⟨hl, h⟩
    apply List.ext_getElem?
    intro i
    rw [List.getElem?_map, List.getElem?_map]
    cases hx : x[i]? with
    | none =>
      have : y[i]? = none := by rw [List.getElem?_eq_none_iff] at hx ⊢; omega
      rw [this]
    | some a =>
      cases hy : y[i]? with
      | none => rw [List.getElem?_eq_none_iff] at hy; have := (List.getElem?_eq_some_iff.1 hx).1; omega
      | some b => simp [(sameLetter_iff a b).1 (h i a b hx hy)]
  · intro h
    refine ⟨by simpa using congrArg List.length h, fun i a b ha hb => ?_⟩
    have := congrArg (fun l : Bytes => l[i]?) h
    simp only [List.getElem?_map, ha, hb, Option.map_some, Option.some.injEq] at this
    exact (sameLetter_iff a b).2 this

theorem lower_noUpper {x : Bytes} (h : ∀ b ∈ x, ¬ (65 ≤ b.toNat ∧ b.toNat ≤ 90)) : asciiLower x = x := by
  unfold asciiLower
  conv => rhs; rw [← List.map_id x]
  exact List.map_congr_left (fun b hb => by unfold lowerByte; rw [if_neg (h b hb)]; rfl)

theorem field_pre {cmeta : Option CommandMeta} {ds : List (FieldDecl V)} (hd : deriveArgs cx cmeta ds = .ok d) {f : FieldInfo V}
    (hf : f ∈ (coreOf d).fields) : FieldPre cx f := by
  obtain ⟨i, hi⟩ := List.mem_iff_getElem?.1 hf
  exact ((accepted_wf hd).fields i f hi).toFieldPre

theorem select_lower {variants : List (Str × V)} {e : EnumDef V} (h : deriveValueEnum variants = .ok e) {f : FieldInfo V}
    (hwf : FieldPre cx f) (hi : f.src.ignoreCase = true) (hp : f.parser = .valueEnum e) (b : Bytes) (v : V) :
    f.parser.parse (if f.src.ignoreCase then asciiLower b else b) = .ok v
      ↔ ∃ n, (n, v) ∈ variants ∧ SameUpToCase b (enc n) := by
  obtain ⟨-, e', he', hu⟩ := hwf.ignoreCase hi
  rw [hp] at he'
  cases he'
  have hup := (deriveValueEnum_ok h).2.2.2.1.1 hu
  rw [if_pos hi, hp, C37_parse h]
  constructor
  · rintro ⟨n, hn, hb⟩
    refine ⟨n, hn, (sameUpToCase_iff _ _).2 ?_⟩
    rw [hb, lower_noUpper (hup _ hn)]
  · rintro ⟨n, hn, hb⟩
    refine ⟨n, hn, ?_⟩
    rw [(sameUpToCase_iff _ _).1 hb, lower_noUpper (hup _ hn)]

/-- C38: what an `ignore_case` option of an enum type makes of a value: it selects a variant exactly if the value is the
name of the variant up to ASCII case. -/
theorem C38_select {variants : List (Str × V)} {e : EnumDef V} (h : deriveValueEnum variants = .ok e)
    {cmeta : Option CommandMeta} {ds : List (FieldDecl V)} (hd : deriveArgs cx cmeta ds = .ok d) {f : FieldInfo V}
    (hf : f ∈ (coreOf d).fields) (hi : f.src.ignoreCase = true) (hp : f.parser = .valueEnum e) (b : Bytes) (v : V) :
    f.parser.parse (if f.src.ignoreCase then asciiLower b else b) = .ok v
      ↔ ∃ n, (n, v) ∈ variants ∧ SameUpToCase b (enc n) :=
  select_lower h (field_pre hd hf) hi hp b v

/-- C38: after a successful parse, an `ignore_case` field given the value `b` holds the variant whose name is `b` up to ASCII
case. -/
theorem C38_parsed (h : Parsed cx d argv0 toks evs κ out) {a : Addr} {f : FieldInfo V} (hf : fieldAt κ.stack a = some f)
    {variants : List (Str × V)} {e : EnumDef V} (he : deriveValueEnum variants = .ok e) (hp : f.parser = .valueEnum e)
    (hi : f.src.ignoreCase = true) {b : Bytes} (hocc : (a, some b) ∈ evs) (hk : f.kind = .value ∨ f.kind = .option) :
    ∃ n x, (n, x) ∈ variants ∧ SameUpToCase b (enc n)
      ∧ outAt κ.stack out a = some (f.ident, .field (if f.kind = .option then .option (some x) else .value x)) := by
  have hm : isMulti f = false := by rcases hk with hk | hk <;> simp [isMulti, hk]
  rcases C21_given_wins h hf hocc hm with ⟨hb, -⟩ | ⟨hb, -⟩ | ⟨b', x, hb, hx, ho⟩
  · rcases hk with hk | hk <;> rw [hk] at hb <;> cases hb
  · rcases hk with hk | hk <;> rw [hk] at hb <;> cases hb
  · cases hb
    obtain ⟨n, hn, hs⟩ := (select_lower he (h.stackWF.field hf).toFieldPre hi hp b x).1 hx
    refine ⟨n, x, hn, hs, ?_⟩
    rw [ho]
    rcases hk with hk | hk <;> simp [hk]

/-- C38: the macro accepts `ignore_case` only on an enum all of whose names are free of upper-case ASCII letters. -/
theorem C38_accepted (h : Parsed cx d argv0 toks evs κ out) {a : Addr} {f : FieldInfo V} (hf : fieldAt κ.stack a = some f)
    (hi : f.src.ignoreCase = true) : isOption f = true ∧ ∃ e, f.parser = .valueEnum e ∧ e.noUpperCase = true := by
  have hw := (h.stackWF.field hf).toFieldPre
  refine ⟨?_, (hw.ignoreCase hi).2⟩
  cases ho : isOption f
  · have := (hw.posAttrs ho).2.2.1; rw [hi] at this; cases this
  · rfl

/-- The sample's enum is what the macro makes of it, and `-f jSoN` gives `Format::Json`. -/
example : ∃ e, deriveValueEnum [(lit "json", lit "Json"), (lit "text", lit "Text")] = .ok e ∧ e = Sample.formatEnum :=
  ⟨_, rfl, by rw [Sample.formatEnum, EnumDef.mk.injEq]; decide +kernel⟩

example : ∃ (evs : List Event) (κ : Ctx Sample.Val) (out : Out Sample.Val) (f : FieldInfo Sample.Val),
    Parsed Sample.cx Sample.cli (blit "app") (["-f", "jSoN"].map blit) evs κ out ∧ fieldAt κ.stack ⟨0, 1, 1⟩ = some f
    ∧ f.src.ignoreCase = true ∧ f.kind = .option ∧ (⟨0, 1, 1⟩, some (blit "jSoN")) ∈ evs := by
  obtain ⟨evs, κ, out, h, hp⟩ := Sample.parsed ["-f", "jSoN"]
    (fun evs κ _ => (fieldAt κ.stack ⟨0, 1, 1⟩).any (fun f : FieldInfo Sample.Val => f.src.ignoreCase && decide (f.kind = .option))
      && evs.any (fun e => decide (e = ((⟨0, 1, 1⟩ : Addr), some (blit "jSoN"))))) (by decide +kernel)
  simp only [Bool.and_eq_true, Option.any_eq_true, List.any_eq_true, decide_eq_true_eq] at hp
  obtain ⟨⟨f, hf, hi, hk⟩, e, h1, h2⟩ := hp
  exact ⟨evs, κ, out, f, h, hf, hi, hk, h2 ▸ h1⟩

example : Sample.value (Sample.parse ["app", "-f", "jSoN"]) ["output", "format"] = some (.option (some (lit "Json"))) := by
  decide +kernel

example : SameUpToCase (blit "JsOn") (blit "json") := by rw [sameUpToCase_iff]; decide +kernel
example : ¬ SameUpToCase (blit "json1") (blit "json") := by rw [sameUpToCase_iff]; decide +kernel
example : ¬ SameUpToCase (blit "É") (blit "é") := by rw [sameUpToCase_iff]; decide +kernel
example : ¬ SameUpToCase (blit "@") (blit "`") := by rw [sameUpToCase_iff]; decide +kernel

/-! ## C39 -/

/-- C39: splitting at a delimiter: joining the pieces gives the value back, no piece contains the delimiter, and there is
at least one piece. -/
theorem C39_split (c : Char) (v : Bytes) :
    List.intercalate (encChar c) (splitOn c v) = v ∧ (∀ p ∈ splitOn c v, ¬ encChar c <:+: p) ∧ splitOn c v ≠ [] :=
  ⟨splitOn_join c v, splitOn_free c v, splitOn_ne_nil c v⟩

/-- C39: these conditions determine the pieces. -/
theorem C39_unique (c : Char) (v : Bytes) (ps : List Bytes) (hne : ps ≠ []) (hj : List.intercalate (encChar c) ps = v)
    (hf : ∀ p ∈ ps, ¬ encChar c <:+: p) : splitOn c v = ps :=
  pieces_unique c _ _ (splitOn_ne_nil c v) hne (splitOn_free c v) hf (by rw [splitOn_join, hj])

/-- C39: the empty value is one empty piece. -/
theorem C39_empty (c : Char) : splitOn c [] = [[]] := rfl

/-- A character that is an ASCII letter. -/
def isLetter (c : Char) : Prop := (65 ≤ c.toNat ∧ c.toNat ≤ 90) ∨ (97 ≤ c.toNat ∧ c.toNat ≤ 122)

/-- C39: after a successful parse, a field with a delimiter holds the values of the pieces of all occurrences in order.  Full
statement: for all fields with a delimiter.  Missing: `ignore_case` options whose delimiter is an ASCII letter, for which
it is false (`C39_letter_delimiter`). -/
theorem C39_pieces_partial (h : Parsed cx d argv0 toks evs κ out) {a : Addr} {f : FieldInfo V}
    (hf : fieldAt κ.stack a = some f) {c : Char} (hc : f.src.valueDelimiter = some c)
    (hl : f.src.ignoreCase = true → ¬ isLetter c) (hocc : ∃ v, (a, v) ∈ evs) :
    ∃ (bs : List Bytes) (ps : List (List Bytes)) (vs : List V),
      evs.filter (fun e => decide (e.1 = a)) = bs.map (fun b => (a, some b))
      ∧ ps.map (List.intercalate (encChar c)) = bs
      ∧ (∀ p ∈ ps, p ≠ [] ∧ ∀ x ∈ p, ¬ encChar c <:+: x)
      ∧ (ps.flatten.map (fun x => f.parser.parse (if f.src.ignoreCase then asciiLower x else x))) = vs.map .ok
      ∧ outAt κ.stack out a = some (f.ident, .field (if f.kind = .vec then .vec vs else .optVec (some vs))) := by
  have hw := (h.stackWF.field hf).toFieldPre
  have hm : f.kind = .vec ∨ f.kind = .optionVec := by
    have := hw.delimMulti (by rw [hw.delim, hc]; rfl)
    cases hk : f.kind <;> simp [isMulti, hk] at this ⊢
  obtain ⟨bs, vs, h1, h2, h3⟩ := C07_vec_collects h hf hm hocc
  refine ⟨bs, bs.map (splitOn c), vs, h1, ?_, ?_, ?_, h3⟩
  · rw [List.map_map]
    conv => rhs; rw [← List.map_id bs]
    exact List.map_congr_left (fun b _ => splitOn_join c b)
  · intro p hp
    obtain ⟨b, -, rfl⟩ := List.mem_map.1 hp
    exact ⟨splitOn_ne_nil c b, splitOn_free c b⟩
  · rw [← h2, hc, ← List.flatMap_def, List.flatMap_map, List.map_flatMap, List.map_flatMap]
    congr 1
    funext b
    simp only [splitValue]
    cases hi : f.src.ignoreCase
    · simp
    · have hn : ¬ (65 ≤ c.toNat ∧ c.toNat ≤ 90) ∧ ¬ (97 ≤ c.toNat ∧ c.toNat ≤ 122) := by
        have := hl hi
        unfold isLetter at this
        exact ⟨fun h => this (.inl h), fun h => this (.inr h)⟩
      simp only [if_pos]
      rw [splitOn_lower hn, List.map_map]
      rfl

example : splitOn ',' (blit "a,,b,") = [blit "a", [], blit "b", []] := by decide +kernel
example : splitOn 'é' (blit "xéyéé") = [blit "x", blit "y", [], []] := by decide +kernel
example : ∃ (evs : List Event) (κ : Ctx Sample.Val) (out : Out Sample.Val) (f : FieldInfo Sample.Val),
    Parsed Sample.cx Sample.cli (blit "app") (["-D", "a,b", "-Dc"].map blit) evs κ out
    ∧ fieldAt κ.stack ⟨0, 0, 3⟩ = some f ∧ f.src.valueDelimiter = some ',' ∧ f.src.ignoreCase = false
    ∧ (⟨0, 0, 3⟩, some (blit "a,b")) ∈ evs := by
  obtain ⟨evs, κ, out, h, hp⟩ := Sample.parsed ["-D", "a,b", "-Dc"]
    (fun evs κ _ => decide ((⟨0, 0, 3⟩, some (blit "a,b")) ∈ evs) && (fieldAt κ.stack ⟨0, 0, 3⟩).any
      (fun f : FieldInfo Sample.Val => f.src.valueDelimiter == some ',' && !f.src.ignoreCase)) (by decide +kernel)
  simp only [Bool.and_eq_true, decide_eq_true_eq] at hp
  obtain ⟨h1, h2⟩ := hp
  cases hf : fieldAt κ.stack ⟨0, 0, 3⟩ with
  | none => rw [hf] at h2; cases h2
  | some f =>
    rw [hf] at h2
    simp only [Option.any_some, Bool.and_eq_true, beq_iff_eq, Bool.not_eq_true'] at h2
    exact ⟨evs, κ, out, f, h, hf, h2.1, h2.2, h1⟩

namespace Sample

/-- `#[arg(long, ignore_case = true, value_delimiter = 'X')] formats: Vec<Format>`. -/
def upperDecls (c : Char) : List (FieldDecl Val) :=
  [ .arg (lit "formats") (.vec format) { long := some .inherit, ignoreCase := true, valueDelimiter := some c } ]

def letterCli (c : Char) : ArgsDef Val := get (deriveArgs Sample.cx none (upperDecls c))

end Sample

/-- C39, finding 5: an `ignore_case` option with an upper-case letter as delimiter is accepted by the macro, but its values
are never split, because they are lower-cased first.  With a lower-case letter they are also split at the upper-case one. -/
theorem C39_letter_delimiter :
    DerivedArgs Sample.cx (Sample.letterCli 'Z') ∧ DerivedArgs Sample.cx (Sample.letterCli 'z')
    ∧ Sample.value (tryParseFrom (Sample.letterCli 'Z') (["app", "--formats=json"].map blit)) ["formats"]
      = some (.vec [lit "Json"])
    ∧ Sample.failure (tryParseFrom (Sample.letterCli 'Z') (["app", "--formats=jsonZtext"].map blit)) ≠ none
    ∧ Sample.value (tryParseFrom (Sample.letterCli 'z') (["app", "--formats=jsonZtext"].map blit)) ["formats"]
      = some (.vec [lit "Json", lit "Text"]) :=
  ⟨Sample.derived_leaf (by decide) (by decide), Sample.derived_leaf (by decide) (by decide), by decide +kernel⟩

/-! ## C40 -/

/-- C40: a `FromStr` value: exactly the valid UTF-8 strings the user's parser accepts. -/
theorem C40_fromStr_ok (f : Str → Except Str V) (b : Bytes) (v : V) :
    (ValueParser.fromStr f).parse b = .ok v ↔ ∃ s, b = enc s ∧ f s = .ok v := by
  simp only [ValueParser.parse]
  cases hu : fromUtf8 b with
  | none =>
    simp only [reduceCtorEq, false_iff, not_exists]
    rintro s ⟨rfl, -⟩
    rw [fromUtf8_enc] at hu; cases hu
  | some s =>
    have hb := fromUtf8_eq_some.1 hu
    constructor
    · intro h
      cases hf : f s with
      | ok w => simp only [hf] at h; cases h; exact ⟨s, hb, hf⟩
      | error _ => simp only [hf] at h; cases h
    · rintro ⟨t, ht, hf⟩
      have : s = t := enc_injective (hb.symm.trans ht)
      subst this
      simp only [hf]

/-- C40: the errors of a `FromStr` value carry the exact input, and as source the error of the user's parser or that the
value is not valid UTF-8. -/
theorem C40_fromStr_error (f : Str → Except Str V) (b : Bytes) (e : Error) :
    (ValueParser.fromStr f).parse b = .error e ↔
      ((∀ s, b ≠ enc s) ∧ e = { kind := .invalidValue, input := some b, source := some .utf8 })
      ∨ ∃ s err, b = enc s ∧ f s = .error err ∧ e = { kind := .invalidValue, input := some b, source := some (.user err) } := by
  simp only [ValueParser.parse]
  cases hu : fromUtf8 b with
  | none =>
    have hno : ∀ s, b ≠ enc s := by rintro s rfl; rw [fromUtf8_enc] at hu; cases hu
    constructor
    · intro h; cases h; exact .inl ⟨hno, rfl⟩
    · rintro (⟨-, rfl⟩ | ⟨s, err, h, -⟩)
      · rfl
      · exact absurd h (hno s)
  | some s =>
    have hb := fromUtf8_eq_some.1 hu
    constructor
    · intro h
      cases hf : f s with
      | ok w => simp only [hf] at h; cases h
      | error err => simp only [hf] at h; cases h; exact .inr ⟨s, err, hb, hf, rfl⟩
    · rintro (⟨h, -⟩ | ⟨t, err, ht, hf, rfl⟩)
      · exact absurd hb (h s)
      · have : s = t := enc_injective (hb.symm.trans ht)
        subst this
        simp only [hf]
        rfl

/-- C40: a `TryFrom<&OsStr>` value gets the bytes as they are, valid UTF-8 or not; its errors carry them and the user's error. -/
theorem C40_osStr (f : Bytes → Except Str V) (b : Bytes) :
    (∀ v, (ValueParser.tryFromOsStr f).parse b = .ok v ↔ f b = .ok v)
    ∧ ∀ e, (ValueParser.tryFromOsStr f).parse b = .error e ↔
        ∃ err, f b = .error err ∧ e = { kind := .invalidValue, input := some b, source := some (.user err) } := by
  simp only [ValueParser.parse]
  cases hf : f b with
  | ok w => simp
  | error err =>
    simp only [reduceCtorEq, Except.error.injEq, exists_eq_left', implies_true, true_and]
    intro e
    exact ⟨fun h => h.symm, fun h => h.symm⟩

/-- C40: the errors of an enum value carry the exact input and the list of all names; the source is only present for a value
that is not valid UTF-8. -/
theorem C40_enum_error {variants : List (Str × V)} {ed : EnumDef V} (h : deriveValueEnum variants = .ok ed) (b : Bytes) (e : Error)
    (he : (ValueParser.valueEnum ed).parse b = .error e) :
    (∀ n v, (n, v) ∈ variants → b ≠ enc n) ∧ e.kind = .invalidValue ∧ e.input = some b
    ∧ (e.source = some .utf8 ↔ ∀ s, b ≠ enc s) ∧ (e.source = none ↔ ∃ s, b = enc s)
    ∧ ∃ names : List Str, names.Perm (variants.map Prod.fst)
        ∧ e.contextualHelp = lit "[possible values: " ++ List.intercalate (lit ", ") names ++ lit "]" := by
  have hne : ∀ n v, (n, v) ∈ variants → b ≠ enc n := by
    rintro n v hm rfl
    rw [(C37_parse h _ _).2 ⟨n, hm, rfl⟩] at he; cases he
  obtain ⟨hp, -, hctl, -, hpack⟩ := deriveValueEnum_ok h
  have hsplit : splitTerminator nul ed.possibleInputsNul = ed.arms.map Prod.fst := by
    rw [hpack]
    apply splitTerminator_packNul
    intro s hs hn
    obtain ⟨x, hx, rfl⟩ := List.mem_map.1 hs
    have := hctl x (hp.mem_iff.1 hx)
    rw [List.any_eq_false] at this
    exact this nul hn (by decide)
  have hctx : possibleValues ed.possibleInputsNul
      = lit "[possible values: " ++ List.intercalate (lit ", ") (ed.arms.map Prod.fst) ++ lit "]" := by
    unfold possibleValues; rw [hsplit]
  simp only [ValueParser.parse] at he
  refine ⟨hne, ?_⟩
  cases hu : fromUtf8 b with
  | none =>
    have hno : ∀ s, b ≠ enc s := by rintro s rfl; rw [fromUtf8_enc] at hu; cases hu
    rw [hu] at he
    cases he
    refine ⟨rfl, rfl, ⟨fun _ => hno, fun _ => rfl⟩, ⟨(by intro h; cases h), fun ⟨s, hs⟩ => absurd hs (hno s)⟩, _,
      hp.map Prod.fst, ?_⟩
    exact hctx
  | some s =>
    have hb := fromUtf8_eq_some.1 hu
    rw [hu] at he
    simp only at he
    split at he
    · cases he
    · cases he
      refine ⟨rfl, rfl, ⟨(by intro h; cases h), fun h => absurd hb (h s)⟩, ⟨fun _ => ⟨s, hb⟩, fun _ => rfl⟩, _,
        hp.map Prod.fst, ?_⟩
      exact hctx

example : ∀ s, ([0xff] : Bytes) ≠ enc s := by
  intro s hs
  have : fromUtf8 [0xff] = some s := fromUtf8_eq_some.2 hs
  have h2 : fromUtf8 [0xff] = none := by decide +kernel
  rw [h2] at this; cases this

end Palc
