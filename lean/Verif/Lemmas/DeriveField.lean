import Verif.WF
import Verif.Lemmas.Attrs
import Verif.Lemmas.Utf8
/-! Facts about one field accepted by the derive macro. -/

namespace Palc

open Spec

variable {V : Type}

theorem requireValue_eq (f : FieldInfo V) : f.kind.requireValue = takesValue f := by
  unfold takesValue; cases f.kind <;> rfl

theorem acceptsMultiple_eq (f : FieldInfo V) : f.kind.acceptsMultipleValues = isMulti f := by
  unfold isMulti; cases f.kind <;> rfl

theorem fieldDefault_ok {cx : Cx V} {kind : MagicKind} {vt : Ty V} {m : ArgMeta V}
    (h : (fieldDefault cx kind vt m).1 = []) :
    (∀ v shown, (fieldDefault cx kind vt m).2 = some (.valueExpr v shown) → defaultTypeOk kind v = true)
    ∧ ((fieldDefault cx kind vt m).2 = none ↔ (m.defaultValue = none ∧ m.defaultValueT.isNone = true))
    ∧ (∀ s, (fieldDefault cx kind vt m).2 = some (.parseStr s) ↔ m.defaultValue = some s)
    ∧ (∀ v shown, m.defaultValueT = some (.explicit (v, shown)) →
        (fieldDefault cx kind vt m).2 = some (.valueExpr v shown)) := by
  unfold fieldDefault at *
  cases hT : m.defaultValueT with
  | none =>
    cases hS : m.defaultValue with
    | none => simp
    | some s => simp
  | some o =>
    cases hS : m.defaultValue with
    | some s => cases o <;> simp [hT, hS] at h
    | none =>
      cases o with
      | inherit =>
        simp only [hT, hS] at h ⊢
        cases hd : defaultOf cx kind vt with
        | none => simp [hd] at h
        | some p =>
          obtain ⟨v, shown⟩ := p
          simp only [hd] at h ⊢
          split at h
          · rename_i hok; simp [hok]
          · simp at h
      | explicit p =>
        obtain ⟨v, shown⟩ := p
        simp only [hT, hS] at h ⊢
        split at h
        · rename_i hok; simp [hok]
        · simp at h


theorem hyphen_bit (m : ArgMeta V) (h : ¬ (m.allowHyphenValues = true ∧ m.allowNegativeNumbers = true))
    (i : Nat) : (acceptHyphen m).2.getLsbD i
      = ((m.allowHyphenValues && decide (i = 18)) || (m.allowNegativeNumbers && decide (i = 19))) := by
  unfold acceptHyphen
  cases ha : m.allowHyphenValues <;> cases hn : m.allowNegativeNumbers
  · simp
  · simp only [ArgAttrs.ACCEPT_HYPHEN_NUM]; rw [ArgAttrs.getLsbD_one_shl 19 i (by decide)]; simp
  · simp only [ArgAttrs.ACCEPT_HYPHEN_ANY]; rw [ArgAttrs.getLsbD_one_shl 18 i (by decide)]; simp
  · exact absurd ⟨ha, hn⟩ h

theorem baseAttrs_bit (kind : MagicKind) (m : ArgMeta V)
    (h : ¬ (m.allowHyphenValues = true ∧ m.allowNegativeNumbers = true)) (i : Nat) :
    (baseAttrs kind m).getLsbD i
      = ((m.allowHyphenValues && decide (i = 18)) || (m.allowNegativeNumbers && decide (i = 19))
        || (kind.requireValue && decide (i = 16)) || (m.requireEquals && decide (i = 17))
        || (m.global && decide (i = 20)) || (m.ignoreCase && decide (i = 21))) := by
  unfold baseAttrs
  simp only [ArgAttrs.getLsbD_set, ArgAttrs.union, BitVec.getLsbD_or, hyphen_bit m h,
    ArgAttrs.REQUIRE_VALUE, ArgAttrs.REQUIRE_EQ, ArgAttrs.GLOBAL, ArgAttrs.MAKE_LOWERCASE,
    ArgAttrs.getLsbD_one_shl 16 i (by decide), ArgAttrs.getLsbD_one_shl 17 i (by decide),
    ArgAttrs.getLsbD_one_shl 20 i (by decide), ArgAttrs.getLsbD_one_shl 21 i (by decide)]
  simp

theorem positionalAttrs_bit (kind : MagicKind) (m : ArgMeta V) (i : Nat) :
    (positionalAttrs kind m).getLsbD i
      = ((baseAttrs kind m).getLsbD i || (kind.acceptsMultipleValues && decide (i = 22))
        || (m.last && decide (i = 24)) || ((m.trailingVarArg || m.last) && decide (i = 23))) := by
  unfold positionalAttrs
  simp only [ArgAttrs.getLsbD_set,
    ArgAttrs.VAR_ARG, ArgAttrs.LAST, ArgAttrs.GREEDY,
    ArgAttrs.getLsbD_one_shl 22 i (by decide), ArgAttrs.getLsbD_one_shl 23 i (by decide),
    ArgAttrs.getLsbD_one_shl 24 i (by decide)]

/-- What the absence of errors in the common part says. -/
structure CommonOk (cx : Cx V) (ident : Str) (kind : MagicKind) (vt : Ty V) (m : ArgMeta V) : Prop where
  dflt : (fieldDefault cx kind vt m).1 = []
  req : (fieldDefault cx kind vt m).2.isSome = true → m.required = false
  delim : m.valueDelimiter.isSome = true → kind.acceptsMultipleValues = true
  hyp : ¬ (m.allowHyphenValues = true ∧ m.allowNegativeNumbers = true)
  hyp2 : m.allowHyphenValues = true ∨ m.allowNegativeNumbers = true →
    kind.requireValue = true ∧ m.requireEquals = false
  vn : ∀ c ∈ valueNameOf cx ident m, isAsciiControl c = false
  oo : kind = .optionOption → m.requireEquals = true
  par : ∃ p, fieldParser cx kind vt = some p
  case : m.ignoreCase = true → ∃ d, fieldParser cx kind vt = some (.valueEnum d) ∧ d.noUpperCase = true

theorem ite_nil {α : Type} {b : Prop} [Decidable b] {x : α} {xs : List α}
    (h : (if b then x :: xs else []) = []) : ¬ b := by
  intro hb; rw [if_pos hb] at h; exact absurd h (by simp)

theorem hyphen_ne_zero (m : ArgMeta V) :
    ((acceptHyphen m).2 != 0#32) = (m.allowHyphenValues ^^ m.allowNegativeNumbers) := by
  unfold acceptHyphen
  cases ha : m.allowHyphenValues <;> cases hn : m.allowNegativeNumbers <;>
    simp [ArgAttrs.ACCEPT_HYPHEN_NUM, ArgAttrs.ACCEPT_HYPHEN_ANY]

theorem commonErrors_ok {cx : Cx V} {ident : Str} {kind : MagicKind} {vt : Ty V} {m : ArgMeta V}
    (h : commonErrors cx ident kind vt m = []) : CommonOk cx ident kind vt m := by
  unfold commonErrors at h
  simp only [List.append_eq_nil_iff] at h
  obtain ⟨⟨⟨⟨⟨⟨⟨⟨h1, h2⟩, h3⟩, h4⟩, h5⟩, h6⟩, h7⟩, h8⟩, h9⟩ := h
  have h2 := ite_nil h2
  have h3 := ite_nil h3
  have h5 := ite_nil h5
  have h6 := ite_nil h6
  have h7 := ite_nil h7
  have h9 := ite_nil h9
  have hyp : ¬ (m.allowHyphenValues = true ∧ m.allowNegativeNumbers = true) := by
    rintro ⟨a, b⟩
    unfold acceptHyphen at h4
    rw [a, b] at h4
    simp at h4
  rw [hyphen_ne_zero] at h5
  refine { dflt := h1, req := ?_, delim := ?_, hyp := hyp, hyp2 := ?_, vn := ?_, oo := ?_, par := ?_,
           case := ?_ }
  · intro a; rw [a] at h2; simpa using h2
  · intro a; rw [a] at h3; simpa using h3
  · intro a
    have : (m.allowHyphenValues ^^ m.allowNegativeNumbers) = true := by
      revert a hyp
      cases m.allowHyphenValues <;> cases m.allowNegativeNumbers <;> simp
    rw [this] at h5
    revert h5
    cases kind.requireValue <;> cases m.requireEquals <;> first | rfl | simp
  · simpa [List.any_eq_true] using h6
  · intro a; simpa [a] using h7
  · cases hp : fieldParser cx kind vt with
    | none => simp [hp] at h9
    | some p => exact ⟨p, rfl⟩
  · intro a
    rw [if_pos a] at h8
    split at h8
    · rename_i d hd
      refine ⟨d, hd, ?_⟩
      split at h8
      · assumption
      · simp at h8
    · simp at h8

theorem encodeLongName_ok {s : Str} (h : (encodeLongName s).1 = []) :
    s ≠ [] ∧ s.head? ≠ some '-' ∧ ∀ c ∈ s, c ≠ '=' ∧ isAsciiControl c = false := by
  unfold encodeLongName at h
  simp only at h
  split at h
  · simp at h
  · split at h
    · simp at h
    · split at h
      · simp at h
      · rename_i h1 h2 h3
        refine ⟨h1, h2, ?_⟩
        intro c hc
        have : ¬ (c = '=' ∨ isAsciiControl c = true) :=
          fun hh => h3 (List.any_eq_true.2 ⟨c, hc, by simpa using hh⟩)
        simpa [not_or] using this

theorem encodeShortName_ok {c : Char} (h : (encodeShortName c).1 = []) :
    c ≠ '-' ∧ c ≠ '=' ∧ isAsciiControl c = false := by
  unfold encodeShortName at h
  have := ite_nil h
  simpa [not_or] using this

theorem isAsciiControl_nul : isAsciiControl nul = true := by decide

theorem longList (cx : Cx V) (f : FieldInfo V) :
    f.src.alias ++ (primaryLong cx f.ident f.src).toList = longNames cx f := by
  unfold primaryLong longNames
  cases h : f.src.long with
  | none => simp
  | some o => cases o <;> simp

theorem shortList (f : FieldInfo V) :
    f.src.shortAlias ++ (primaryShort f.ident f.src).toList = shortNames f := by
  unfold primaryShort shortNames
  cases h : f.src.short with
  | none => simp
  | some o =>
    cases o with
    | inherit => cases f.ident <;> simp
    | explicit c => simp


theorem mem_desc_named {kind : MagicKind} {m : ArgMeta V} {short : Option Char} {long : Option Str}
    {vn : Str} {c : Char} (hc : c ∈ namedDesc kind m short long vn) :
    (∃ s, short = some s ∧ c = s) ∨ (∃ l, long = some l ∧ c ∈ l) ∨ c ∈ vn
      ∨ c ∈ ['-', ',', ' ', '[', '=', '<', '>', ']'] := by
  unfold namedDesc at hc
  have key : ∀ x, x ∈ (match short, long with
    | some s, some l => '-' :: s :: ',' :: ' ' :: '-' :: '-' :: l
    | none, some l => '-' :: '-' :: l
    | some s, none => ['-', s]
    | none, none => []) → (∃ s, short = some s ∧ x = s) ∨ (∃ l, long = some l ∧ x ∈ l)
      ∨ x ∈ ['-', ',', ' '] := by
    intro x hx
    cases short <;> cases long <;> simp at hx ⊢ <;> grind
  simp only at hc
  split at hc
  · simp only [List.mem_append] at hc
    rcases hc with ((hc | hc) | hc) | hc
    · rcases key _ hc with h | h | h
      · exact Or.inl h
      · exact Or.inr (Or.inl h)
      · right; right; right; simp at h ⊢; grind
    · right; right; right; revert hc; simp [lit]; grind
    · exact Or.inr (Or.inr (Or.inl hc))
    · right; right; right; revert hc; simp [lit]; grind
  · split at hc
    · simp only [List.mem_append, List.mem_cons] at hc
      rcases hc with ((hc | hc | hc) | (hc | hc)) | (hc | hc)
      · rcases key _ hc with h | h | h
        · exact Or.inl h
        · exact Or.inr (Or.inl h)
        · right; right; right; simp at h ⊢; grind
      · right; right; right; rw [hc]; split <;> simp
      · simp at hc
      · right; right; right; simp [hc]
      · exact Or.inr (Or.inr (Or.inl hc))
      · right; right; right; simp [hc]
      · simp at hc
    · rcases key _ hc with h | h | h
      · exact Or.inl h
      · exact Or.inr (Or.inl h)
      · right; right; right; simp at h ⊢; grind

theorem mem_desc_positional {kind : MagicKind} {r : Bool} {vn : Str} {c : Char}
    (hc : c ∈ positionalDesc kind r vn) : c ∈ vn ∨ c ∈ ['<', '>', '[', ']', '.'] := by
  unfold positionalDesc at hc
  simp only [List.mem_append] at hc
  rcases hc with hc | hc
  · split at hc
    · simp at hc ⊢; grind
    · simp at hc ⊢; grind
  · split at hc
    · revert hc; simp [lit]; grind
    · simp at hc

theorem base_contains (kind : MagicKind) (m : ArgMeta V)
    (h : ¬ (m.allowHyphenValues = true ∧ m.allowNegativeNumbers = true)) (k : Nat) (hk : k < 32) :
    (baseAttrs kind m).contains (1#32 <<< k)
      = ((m.allowHyphenValues && decide (k = 18)) || (m.allowNegativeNumbers && decide (k = 19))
        || (kind.requireValue && decide (k = 16)) || (m.requireEquals && decide (k = 17))
        || (m.global && decide (k = 20)) || (m.ignoreCase && decide (k = 21))) := by
  rw [ArgAttrs.contains_shl _ k hk]; exact baseAttrs_bit _ m h k

theorem positional_contains (kind : MagicKind) (m : ArgMeta V)
    (h : ¬ (m.allowHyphenValues = true ∧ m.allowNegativeNumbers = true)) (k : Nat) (hk : k < 32) :
    (positionalAttrs kind m).contains (1#32 <<< k)
      = ((m.allowHyphenValues && decide (k = 18)) || (m.allowNegativeNumbers && decide (k = 19))
        || (kind.requireValue && decide (k = 16)) || (m.requireEquals && decide (k = 17))
        || (m.global && decide (k = 20)) || (m.ignoreCase && decide (k = 21))
        || (kind.acceptsMultipleValues && decide (k = 22))
        || (m.last && decide (k = 24)) || ((m.trailingVarArg || m.last) && decide (k = 23))) := by
  rw [ArgAttrs.contains_shl _ k hk, positionalAttrs_bit, baseAttrs_bit _ m h k]

theorem fieldRequired_eq (kind : MagicKind) (m : ArgMeta V) (dv : Option (DefaultValue V)) :
    fieldRequired kind m dv = ((m.required || decide (kind = .value)) && dv.isNone) := by
  unfold fieldRequired; cases dv <;> simp

theorem fieldParser_getD {cx : Cx V} {kind : MagicKind} {vt : Ty V} {p q : ValueParser V}
    (h : fieldParser cx kind vt = some p) : (fieldParser cx kind vt).getD q = p := by rw [h]; rfl

/-- A named field the derive macro accepts has all the expected properties, apart from the index,
which is not yet set. -/
theorem argField_pre_named {cx : Cx V} {ident : Str} {ty : Ty V} {m : ArgMeta V}
    (hm : m.isNamed = true) (h : (argField cx ident ty m).1 = []) :
    FieldPre cx (argField cx ident ty m).2
      ∧ (∀ i, i < 8 → (argField cx ident ty m).2.attrs.getLsbD i = false) := by
  unfold argField at h
  simp only [hm, if_true, List.append_eq_nil_iff] at h
  obtain ⟨⟨⟨hc, hl⟩, hlong⟩, hshort⟩ := h
  have hc := commonErrors_ok hc
  have hl := ite_nil hl
  have hm' : (m.long.isSome || m.short.isSome) = true := hm
  obtain ⟨p, hp⟩ := hc.par
  have hd := fieldDefault_ok hc.dflt
  have ll : ∀ s ∈ m.alias ++ (primaryLong cx ident m).toList,
      s ≠ [] ∧ s.head? ≠ some '-' ∧ ∀ c ∈ s, c ≠ '=' ∧ isAsciiControl c = false := by
    intro s hs
    apply encodeLongName_ok
    rw [List.flatMap_eq_nil_iff] at hlong
    exact hlong (encodeLongName s) (List.mem_map_of_mem hs)
  have ss : ∀ c ∈ m.shortAlias ++ (primaryShort ident m).toList,
      c ≠ '-' ∧ c ≠ '=' ∧ isAsciiControl c = false := by
    intro s hs
    apply encodeShortName_ok
    rw [List.flatMap_eq_nil_iff] at hshort
    exact hshort (encodeShortName s) (List.mem_map_of_mem hs)
  have hl1 : m.last = false := by revert hl; cases m.last <;> simp
  have hl2 : m.trailingVarArg = false := by revert hl; cases m.trailingVarArg <;> simp
  have bit := base_contains (classify ty).1 m hc.hyp
  have hfp := fieldParser_getD (q := .fromStr cx.boolFromStr) hp
  generalize hf : (argField cx ident ty m).2 = f
  have hsrc : f.src = m := by rw [← hf]; simp [argField, hm]
  have hid : f.ident = ident := by rw [← hf]; simp [argField, hm]
  have hkind : f.kind = (classify ty).1 := by rw [← hf]; simp [argField, hm]
  have hattrs : f.attrs = baseAttrs (classify ty).1 m := by rw [← hf]; simp [argField, hm]
  have hdv : f.defaultValue = (fieldDefault cx (classify ty).1 (classify ty).2 m).2 := by
    rw [← hf]; simp [argField, hm]
  have hreq : f.required = fieldRequired f.kind f.src f.defaultValue := by
    rw [← hf]; simp [argField, hm]
  have hpar : f.parser = p := by
    rw [← hf]; simp [argField, hm, hfp]
  have hvd : f.valueDelimiter = m.valueDelimiter := by rw [← hf]; simp [argField, hm]
  have hopt : isOption f = true := by unfold isOption; rw [hsrc]; exact hm'
  have henc : f.encNames = (longEncs cx ident m).map (·.2) ++ (shortEncs ident m).map (·.2) := by
    rw [← hf]; simp [argField, hm]
  have hex : f.exclusive = m.exclusive ∧ f.dependencies = m.requires ∧ f.conflicts = m.conflictsWith
      ∧ f.doc = m.doc ∧ f.hide = m.hide := by rw [← hf]; simp [argField, hm]
  have hdesc : f.description = namedDesc (classify ty).1 m (primaryShort ident m) (primaryLong cx ident m)
      (valueNameOf cx ident m) := by rw [← hf]; simp [argField, hm]
  have hlongs : longNames cx f = m.alias ++ (primaryLong cx ident m).toList := by
    rw [← longList, hsrc, hid]
  have hshorts : shortNames f = m.shortAlias ++ (primaryShort ident m).toList := by
    rw [← shortList, hsrc, hid]
  have hmul := acceptsMultiple_eq f
  have hrv := requireValue_eq f
  rw [hkind] at hmul hrv
  clear hf
  refine ⟨?_, ?_⟩
  · refine { rv := ?_, re := ?_, ha := ?_, hn := ?_, gl := ?_, lo := ?_, va := ?_, la := ?_, gr := ?_,
             vaNamed := ?_, namedNoLast := ?_, names := ?_, longOk := ?_, shortOk := ?_, posAttrs := ?_,
             lastMulti := ?_, required := ?_, delim := ?_, delimMulti := ?_, optOpt := ?_,
             hyphenVal := ?_, hyphenOne := ?_, defaultTy := ?_, defaultSrc := ?_, defaultStr := ?_,
             defaultExpr := ?_, defaultReq := ?_, ignoreCase := ?_, excl := ?_, deps := ?_, confs := ?_, docSrc := ?_,
             hideSrc := ?_, descOk := ?_, desc := ?_ }
    · rw [hattrs, ArgAttrs.REQUIRE_VALUE, bit 16 (by decide), ← hrv]; simp
    · rw [hattrs, ArgAttrs.REQUIRE_EQ, bit 17 (by decide), hsrc]; simp
    · rw [hattrs, ArgAttrs.ACCEPT_HYPHEN_ANY, bit 18 (by decide), hsrc]; simp
    · rw [hattrs, ArgAttrs.ACCEPT_HYPHEN_NUM, bit 19 (by decide), hsrc]; simp
    · rw [hattrs, ArgAttrs.GLOBAL, bit 20 (by decide), hsrc]; simp
    · rw [hattrs, ArgAttrs.MAKE_LOWERCASE, bit 21 (by decide), hsrc]; simp
    · intro h; rw [hopt] at h; exact absurd h (by decide)
    · rw [hattrs, ArgAttrs.LAST, bit 24 (by decide), hsrc, hl1]; simp
    · rw [hattrs, ArgAttrs.GREEDY, bit 23 (by decide), hsrc, hl1, hl2]; simp
    · intro _; rw [hattrs, ArgAttrs.VAR_ARG, bit 22 (by decide)]; simp
    · intro _; rw [hsrc]; exact ⟨hl1, hl2⟩
    · rw [if_pos hopt, henc, hlongs, hshorts]
      simp [longEncs, shortEncs, encodeLongName, encodeShortName, encodeName, Function.comp_def]
    · intro _; rw [hlongs]; exact ll
    · intro _; rw [hshorts]; exact ss
    · intro h; rw [hopt] at h; exact absurd h (by decide)
    · intro h; rw [hsrc, hl1] at h; exact absurd h (by decide)
    · rw [hreq, fieldRequired_eq]; rfl
    · rw [hvd, hsrc]
    · intro h; rw [← hmul]; rw [hvd] at h; exact hc.delim h
    · intro h; rw [hsrc]; rw [hkind] at h; exact ⟨hc.oo h, hopt⟩
    · intro h; rw [hsrc] at h ⊢; rw [← hrv]; exact hc.hyp2 h
    · rw [hsrc]; exact hc.hyp
    · rw [hdv, hkind]; exact hd.1
    · rw [hdv, hsrc]; exact hd.2.1
    · rw [hdv, hsrc]; exact hd.2.2.1
    · rw [hdv, hsrc]; exact hd.2.2.2
    · rw [hdv, hsrc]; exact hc.req
    · intro h
      rw [hsrc] at h
      obtain ⟨d, hd, hu⟩ := hc.case h
      refine ⟨?_, ?_⟩
      · rw [hkind]
        intro hb
        simp [fieldParser, hb] at hd
      rw [hp] at hd
      refine ⟨d, ?_, hu⟩
      rw [hpar]; exact Option.some.inj hd
    · rw [hsrc]; exact hex.1
    · rw [hsrc]; exact hex.2.1
    · rw [hsrc]; exact hex.2.2.1
    · rw [hsrc]; exact hex.2.2.2.1
    · rw [hsrc]; exact hex.2.2.2.2
    · rw [hdesc]
      intro c hn
      rcases mem_desc_named hn with ⟨s, hs, hs'⟩ | ⟨l, hs, hs'⟩ | h | h
      · rw [hs']; exact (ss s (by simp [hs])).2.2
      · exact ((ll l (by simp [hs])).2.2 _ hs').2
      · exact hc.vn _ h
      · clear hn; revert h c; decide
    · rw [hdesc]
      unfold label shortPart longPart valuePart valueName namedDesc primaryShort primaryLong valueNameOf
      rw [if_pos hopt, hsrc, hid, hkind]
      cases hk : (classify ty).1 <;> rcases m.short with _ | (_ | c) <;> rcases m.long with _ | (_ | l) <;>
        cases ident <;> simp [MagicKind.requireValue, List.intercalate, lit] <;> cases m.requireEquals <;> first | rfl | simp
  · intro i hi
    rw [hattrs, baseAttrs_bit _ _ hc.hyp]
    have : i ≠ 16 ∧ i ≠ 17 ∧ i ≠ 18 ∧ i ≠ 19 ∧ i ≠ 20 ∧ i ≠ 21 := by omega
    simp [this]

/-- The same for a positional field. -/
theorem argField_pre_positional {cx : Cx V} {ident : Str} {ty : Ty V} {m : ArgMeta V}
    (hm : m.isNamed = false) (h : (argField cx ident ty m).1 = []) :
    FieldPre cx (argField cx ident ty m).2
      ∧ (∀ i, i < 8 → (argField cx ident ty m).2.attrs.getLsbD i = false) := by
  unfold argField at h
  simp only [hm, if_false, Bool.false_eq_true, List.append_eq_nil_iff] at h
  obtain ⟨⟨⟨hc, hna⟩, hhy⟩, hla⟩ := h
  have hc := commonErrors_ok hc
  have hna := ite_nil hna
  have hhy := ite_nil hhy
  have hla := ite_nil hla
  rw [hyphen_ne_zero] at hhy
  have hm' : (m.long.isSome || m.short.isSome) = false := hm
  obtain ⟨p, hp⟩ := hc.par
  have hd := fieldDefault_ok hc.dflt
  have hpos : m.requireEquals = false ∧ m.global = false
    ∧ m.ignoreCase = false ∧ m.allowHyphenValues = false ∧ m.allowNegativeNumbers = false := by
    have := hc.hyp
    revert hna hhy this
    cases m.requireEquals <;> cases m.global <;> cases m.ignoreCase <;> cases m.allowHyphenValues <;>
      cases m.allowNegativeNumbers <;> simp
  have bit := positional_contains (classify ty).1 m hc.hyp
  have hfp := fieldParser_getD (q := .fromStr cx.boolFromStr) hp
  generalize hf : (argField cx ident ty m).2 = f
  have hsrc : f.src = m := by rw [← hf]; simp [argField, hm]
  have hid : f.ident = ident := by rw [← hf]; simp [argField, hm]
  have hkind : f.kind = (classify ty).1 := by rw [← hf]; simp [argField, hm]
  have hattrs : f.attrs = positionalAttrs (classify ty).1 m := by rw [← hf]; simp [argField, hm]
  have hdv : f.defaultValue = (fieldDefault cx (classify ty).1 (classify ty).2 m).2 := by
    rw [← hf]; simp [argField, hm]
  have hreq : f.required = fieldRequired f.kind f.src f.defaultValue := by
    rw [← hf]; simp [argField, hm]
  have hpar : f.parser = p := by
    rw [← hf]; simp [argField, hm, hfp]
  have hvd : f.valueDelimiter = m.valueDelimiter := by rw [← hf]; simp [argField, hm]
  have hopt : isOption f = false := by unfold isOption; rw [hsrc]; exact hm'
  have henc : f.encNames = [] := by
    rw [← hf]; simp [argField, hm]
  have hex : f.exclusive = m.exclusive ∧ f.dependencies = m.requires ∧ f.conflicts = m.conflictsWith
      ∧ f.doc = m.doc ∧ f.hide = m.hide := by rw [← hf]; simp [argField, hm]
  have hdesc : f.description = positionalDesc (classify ty).1 f.required (valueNameOf cx ident m) := by
    rw [← hf]; simp [argField, hm]
  have hmul := acceptsMultiple_eq f
  have hrv := requireValue_eq f
  rw [hkind] at hmul hrv
  clear hf
  refine ⟨?_, ?_⟩
  · refine { rv := ?_, re := ?_, ha := ?_, hn := ?_, gl := ?_, lo := ?_, va := ?_, la := ?_, gr := ?_,
             vaNamed := ?_, namedNoLast := ?_, names := ?_, longOk := ?_, shortOk := ?_, posAttrs := ?_,
             lastMulti := ?_, required := ?_, delim := ?_, delimMulti := ?_, optOpt := ?_,
             hyphenVal := ?_, hyphenOne := ?_, defaultTy := ?_, defaultSrc := ?_, defaultStr := ?_,
             defaultExpr := ?_, defaultReq := ?_, ignoreCase := ?_, excl := ?_, deps := ?_, confs := ?_, docSrc := ?_,
             hideSrc := ?_, descOk := ?_, desc := ?_ }
    · rw [hattrs, ArgAttrs.REQUIRE_VALUE, bit 16 (by decide), ← hrv]; simp
    · rw [hattrs, ArgAttrs.REQUIRE_EQ, bit 17 (by decide), hsrc]; simp
    · rw [hattrs, ArgAttrs.ACCEPT_HYPHEN_ANY, bit 18 (by decide), hsrc]; simp
    · rw [hattrs, ArgAttrs.ACCEPT_HYPHEN_NUM, bit 19 (by decide), hsrc]; simp
    · rw [hattrs, ArgAttrs.GLOBAL, bit 20 (by decide), hsrc]; simp
    · rw [hattrs, ArgAttrs.MAKE_LOWERCASE, bit 21 (by decide), hsrc]; simp
    · intro _; rw [hattrs, ArgAttrs.VAR_ARG, bit 22 (by decide), ← hmul]; simp
    · rw [hattrs, ArgAttrs.LAST, bit 24 (by decide), hsrc]; simp
    · rw [hattrs, ArgAttrs.GREEDY, bit 23 (by decide), hsrc]; simp
    · intro h; rw [hopt] at h; exact absurd h (by decide)
    · intro h; rw [hopt] at h; exact absurd h (by decide)
    · rw [hopt, henc]; simp
    · intro h; rw [hopt] at h; exact absurd h (by decide)
    · intro h; rw [hopt] at h; exact absurd h (by decide)
    · intro _; rw [hsrc]; exact hpos
    · intro h; rw [hsrc] at h; rw [h] at hla; rw [← hmul]; simpa using hla
    · rw [hreq, fieldRequired_eq]; rfl
    · rw [hvd, hsrc]
    · intro h; rw [← hmul]; rw [hvd] at h; exact hc.delim h
    · intro h
      rw [hkind] at h
      have := hc.oo h
      rw [hpos.1] at this
      exact absurd this (by decide)
    · intro h; rw [hsrc] at h ⊢; rw [← hrv]; exact hc.hyp2 h
    · rw [hsrc]; exact hc.hyp
    · rw [hdv, hkind]; exact hd.1
    · rw [hdv, hsrc]; exact hd.2.1
    · rw [hdv, hsrc]; exact hd.2.2.1
    · rw [hdv, hsrc]; exact hd.2.2.2
    · rw [hdv, hsrc]; exact hc.req
    · intro h
      rw [hsrc, hpos.2.2.1] at h
      exact absurd h (by decide)
    · rw [hsrc]; exact hex.1
    · rw [hsrc]; exact hex.2.1
    · rw [hsrc]; exact hex.2.2.1
    · rw [hsrc]; exact hex.2.2.2.1
    · rw [hsrc]; exact hex.2.2.2.2
    · rw [hdesc]
      intro c hn
      rcases mem_desc_positional hn with h | h
      · exact hc.vn _ h
      · clear hn; revert h c; decide
    · rw [hdesc]
      unfold label positionalLabel valueName positionalDesc valueNameOf
      have hr : f.required = isRequired f := by rw [hreq, fieldRequired_eq]; rfl
      rw [hopt, hsrc, hid, hmul, hr]
      cases isRequired f <;> cases m.valueName <;> simp [lit]
  · intro i hi
    rw [hattrs, positionalAttrs_bit, baseAttrs_bit _ _ hc.hyp]
    have : i ≠ 16 ∧ i ≠ 17 ∧ i ≠ 18 ∧ i ≠ 19 ∧ i ≠ 20 ∧ i ≠ 21 ∧ i ≠ 22 ∧ i ≠ 23 ∧ i ≠ 24 := by omega
    simp [this]

theorem argField_pre {cx : Cx V} {ident : Str} {ty : Ty V} {m : ArgMeta V}
    (h : (argField cx ident ty m).1 = []) :
    FieldPre cx (argField cx ident ty m).2
      ∧ (∀ i, i < 8 → (argField cx ident ty m).2.attrs.getLsbD i = false) := by
  cases hm : m.isNamed
  · exact argField_pre_positional hm h
  · exact argField_pre_named hm h

theorem argField_src (cx : Cx V) (ident : Str) (ty : Ty V) (m : ArgMeta V) :
    (argField cx ident ty m).2.src = m ∧ (argField cx ident ty m).2.ident = ident
      ∧ (argField cx ident ty m).2.kind = (classify ty).1 := by
  cases hm : m.isNamed <;> simp [argField, hm]

end Palc
