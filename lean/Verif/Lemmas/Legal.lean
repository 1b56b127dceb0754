import Verif.SpecLegal
import Verif.Lemmas.Declared
/-!
# What the derive macro accepts is what is legal
-/

namespace Palc

open Spec

variable {V : Type} {cx : Cx V}

theorem kind_repeats (ty : Ty V) : (classify ty).1.acceptsMultipleValues = Repeats ty := by
  rcases ty with _ | t | t | v
  · rfl
  · cases t <;> rfl
  · rfl
  · rfl
theorem kind_needs (ty : Ty V) : (classify ty).1.requireValue = NeedsValue ty := by
  rcases ty with _ | t | t | v
  · rfl
  · cases t <;> rfl
  · rfl
  · rfl
theorem kind_value (ty : Ty V) : (classify ty).2 = valueType ty := by
  rcases ty with _ | t | t | v
  · rfl
  · cases t <;> rfl
  · rfl
  · rfl
theorem kind_optOpt (ty : Ty V) : (classify ty).1 = .optionOption ↔ ∃ t, ty = .option (.option t) := by
  rcases ty with _ | t | t | v
  · simp [classify]
  · cases t <;> simp [classify]
  · simp [classify]
  · simp [classify]
theorem kind_bool (ty : Ty V) : (classify ty).1 = .bool ↔ ty = .bool := by
  rcases ty with _ | t | t | v
  · simp [classify]
  · cases t <;> simp [classify]
  · simp [classify]
  · simp [classify]
theorem kind_fits (ty : Ty V) (v : DefaultOut V) : defaultTypeOk (classify ty).1 v = true ↔ DefaultFits ty v := by
  rcases ty with _ | t | t | w
  · cases v <;> simp [classify, defaultTypeOk, DefaultFits]
  · cases t <;> cases v <;> simp [classify, defaultTypeOk, DefaultFits]
  · cases v <;> simp [classify, defaultTypeOk, DefaultFits]
  · cases v <;> simp [classify, defaultTypeOk, DefaultFits]

theorem kindOf_classify (ty : Ty V) : KindOf ty (classify ty).1 := by
  rcases ty with _ | t | t | v
  · exact .flag
  · cases t
    · exact .opt (by simp) (by simp)
    · exact .optOpt
    · exact .optVec
    · exact .opt (by simp) (by simp)
  · exact .vec
  · exact .one

theorem Spec.KindOf.unique {ty : Ty V} {k k' : MagicKind} (h : KindOf ty k) (h' : KindOf ty k') : k = k' := by
  cases h <;> cases h' <;> first | rfl | (rename_i h1 h2; first | exact absurd rfl (h1 _) | exact absurd rfl (h2 _))

theorem kindOf_iff {ty : Ty V} {k : MagicKind} : KindOf ty k ↔ k = (classify ty).1 :=
  ⟨fun h => h.unique (kindOf_classify ty), fun h => h ▸ kindOf_classify ty⟩

/-- The result of the lookup. -/
theorem parser_eq (v : ValTy V) : v.parser = match v.valueEnum with
    | some e => some (.valueEnum e)
    | none => match v.tryFromOsStr with
      | some f => some (.tryFromOsStr f)
      | none => match v.fromStr with
        | some f => some (.fromStr f)
        | none => none := by
  unfold ValTy.parser ValTy.lookup ValTy.lookup ValTy.lookup ValTy.lookup ValTy.implAt
  cases v.valueEnum <;> cases v.tryFromOsStr <;> cases v.fromStr <;> rfl

theorem parsesWith_iff {ty : Ty V} {p : ValueParser V} : ParsesWith cx (valueType ty) p ↔ fieldParser cx (classify ty).1 (classify ty).2 = some p := by
  unfold fieldParser
  rw [kind_value]
  have key : ∀ t : Ty V, ParsesWith cx t p ↔ inferParser cx t = some p := by
    intro t
    constructor
    · intro h
      cases h with
      | bool => rfl
      | valueEnum h => simp [inferParser, parser_eq, h]
      | osStr h1 h2 => simp [inferParser, parser_eq, h1, h2]
      | str h1 h2 h3 => simp [inferParser, parser_eq, h1, h2, h3]
    · intro h
      cases t with
      | bool => cases h; exact .bool
      | option => cases h
      | vec => cases h
      | other v =>
        simp only [inferParser, parser_eq] at h
        cases h1 : v.valueEnum with
        | some e => rw [h1] at h; cases h; exact .valueEnum h1
        | none =>
          cases h2 : v.tryFromOsStr with
          | some f => rw [h1, h2] at h; cases h; exact .osStr h1 h2
          | none =>
            cases h3 : v.fromStr with
            | some f => rw [h1, h2, h3] at h; cases h; exact .str h1 h2 h3
            | none => rw [h1, h2, h3] at h; cases h
  by_cases hb : (classify ty).1 = .bool
  · rw [if_pos hb, (kind_bool ty).mp hb, key]
    rfl
  · rw [if_neg hb]; exact key _

theorem control_iff (c : Char) : isAsciiControl c = true ↔ Control c := by
  simp [isAsciiControl, Control]
theorem control_iff' (c : Char) : isAsciiControl c = false ↔ ¬ Control c := by
  rw [← control_iff]; simp

theorem parser_some (v : ValTy V) :
    v.parser.isSome = true ↔ v.valueEnum.isSome = true ∨ v.tryFromOsStr.isSome = true ∨ v.fromStr.isSome = true := by
  rw [parser_eq]
  cases v.valueEnum <;> cases v.tryFromOsStr <;> cases v.fromStr <;> simp

theorem parser_enum (v : ValTy V) (e : EnumDef V) : v.parser = some (.valueEnum e) ↔ v.valueEnum = some e := by
  rw [parser_eq]
  cases v.valueEnum <;> cases v.tryFromOsStr <;> cases v.fromStr <;> simp

theorem fieldParser_some (ty : Ty V) : (fieldParser cx (classify ty).1 (classify ty).2).isSome = true ↔ Parsable (valueType ty) := by
  unfold fieldParser
  rw [kind_value]
  by_cases hb : (classify ty).1 = .bool
  · rw [if_pos hb, (kind_bool ty).mp hb]
    simp [valueType, Parsable]
  · rw [if_neg hb]
    cases valueType ty <;> simp [inferParser, Parsable, parser_some]

theorem fieldParser_enum (ty : Ty V) (e : EnumDef V) : fieldParser cx (classify ty).1 (classify ty).2 = some (.valueEnum e)
    ↔ ty ≠ .bool ∧ ∃ v, valueType ty = .other v ∧ v.valueEnum = some e := by
  unfold fieldParser
  rw [kind_value]
  by_cases hb : (classify ty).1 = .bool
  · rw [if_pos hb, (kind_bool ty).mp hb]
    simp
  · rw [if_neg hb]
    have hb' : ty ≠ .bool := fun h => hb ((kind_bool ty).mpr h)
    cases valueType ty <;> simp [inferParser, hb', parser_enum]

theorem defaultOf_one {kind : MagicKind} (hk : kind ≠ .bool) {t : Ty V} {v : DefaultOut V} {shown : Str}
    (h : defaultOf cx kind t = some (v, shown)) : ∃ a, v = .one a := by
  unfold defaultOf at h
  cases t with
  | bool =>
    simp only [if_neg hk] at h
    split at h
    · simp only [Option.some.injEq, Prod.mk.injEq] at h; exact ⟨_, h.1.symm⟩
    · cases h
  | other w =>
    dsimp only at h
    split at h
    · simp only [Option.some.injEq, Prod.mk.injEq] at h; exact ⟨_, h.1.symm⟩
    · cases h
  | option => cases h
  | vec => cases h

theorem inherit_fails {kind : MagicKind} (hk : kind = .optionOption ∨ kind = .optionVec ∨ kind = .vec) (t : Ty V) :
    (match defaultOf cx kind t with
      | some (v, shown) => ((if defaultTypeOk kind v then [] else [DeriveError.defaultType]), some (DefaultValue.valueExpr v shown))
      | none => ([.defaultType], none)).1 ≠ [] := by
  have hb : kind ≠ .bool := by rcases hk with rfl | rfl | rfl <;> simp
  cases hd : defaultOf cx kind t with
  | none => simp
  | some p =>
    obtain ⟨v, shown⟩ := p
    obtain ⟨a, rfl⟩ := defaultOf_one hb hd
    rcases hk with rfl | rfl | rfl <;> simp [defaultTypeOk]

theorem fieldDefault_legal (ty : Ty V) (m : ArgMeta V) :
    (fieldDefault cx (classify ty).1 (classify ty).2 m).1 = [] ↔
      (m.defaultValue = none ∨ m.defaultValueT.isNone = true)
      ∧ (∀ v shown, m.defaultValueT = some (.explicit (v, shown)) → DefaultFits ty v)
      ∧ (m.defaultValueT = some .inherit → HasDefault cx ty) := by
  unfold fieldDefault
  cases hT : m.defaultValueT with
  | none => cases hS : m.defaultValue <;> simp
  | some o =>
    cases hS : m.defaultValue with
    | some s => cases o <;> simp
    | none =>
      cases o with
      | explicit p =>
        obtain ⟨v, shown⟩ := p
        dsimp only
        have hk := kind_fits ty v
        by_cases h : defaultTypeOk (classify ty).1 v = true
        · rw [if_pos h]
          simp only [Option.some.injEq, Override.explicit.injEq, Prod.mk.injEq, reduceCtorEq, false_imp_iff, and_true, true_iff, true_or, true_and]
          rintro _ _ ⟨rfl, _⟩
          exact hk.mp h
        · rw [if_neg h]
          simp only [List.cons_ne_nil, false_iff]
          intro hh
          exact h (hk.mpr (hh.2.1 v shown rfl))
      | inherit =>
        dsimp only
        rcases ty with _ | t | t | w
        · simp [classify, defaultOf, defaultTypeOk, HasDefault]
        · rcases t with _ | t | t | w
          · simp only [classify, defaultOf, HasDefault]
            cases cx.boolFromStr (lit "false") <;> simp [defaultTypeOk]
          · refine ⟨fun h => absurd h (inherit_fails (Or.inl rfl) t), fun h => (h.2.2 rfl).elim⟩
          · refine ⟨fun h => absurd h (inherit_fails (Or.inr (Or.inl rfl)) t), fun h => (h.2.2 rfl).elim⟩
          · simp only [classify, defaultOf, HasDefault]
            cases w.default <;> simp [defaultTypeOk]
        · refine ⟨fun h => absurd h (inherit_fails (Or.inr (Or.inr rfl)) t), fun h => (h.2.2 rfl).elim⟩
        · simp only [classify, defaultOf, HasDefault]
          cases w.default <;> simp [defaultTypeOk]

theorem fieldDefault_isSome {ty : Ty V} {m : ArgMeta V} (h : (fieldDefault cx (classify ty).1 (classify ty).2 m).1 = []) :
    (fieldDefault cx (classify ty).1 (classify ty).2 m).2.isSome = true ↔ m.defaultValue.isSome = true ∨ m.defaultValueT.isSome = true := by
  have := (fieldDefault_ok h).2.1
  cases hd : (fieldDefault cx (classify ty).1 (classify ty).2 m).2 with
  | none =>
    obtain ⟨h1, h2⟩ := this.mp hd
    simp only [Option.isNone_iff_eq_none] at h2
    simp [h1, h2]
  | some x =>
    rw [hd] at this
    simp only [reduceCtorEq, false_iff, not_and] at this
    simp only [Option.isSome_some, true_iff]
    cases hS : m.defaultValue with
    | some s => exact Or.inl rfl
    | none =>
      have := this hS
      cases hT : m.defaultValueT with
      | none => rw [hT] at this; exact absurd rfl this
      | some o => exact Or.inr rfl

theorem fieldDefault_is {ty : Ty V} {m : ArgMeta V} {dv : Option (DefaultValue V)}
    (h : fieldDefault cx (classify ty).1 (classify ty).2 m = ([], dv)) : DefaultIs cx ty m dv := by
  have hleg := (fieldDefault_legal (cx := cx) ty m).1 (by rw [h])
  have hd : dv = (fieldDefault cx (classify ty).1 (classify ty).2 m).2 := by rw [h]
  subst hd
  unfold fieldDefault
  rcases ht : m.defaultValueT with _ | (_ | ⟨v, shown⟩) <;> rcases hv : m.defaultValue with _ | s
  · exact .none hv (by simp [ht])
  · exact .text hv (by simp [ht])
  · have hi := hleg.2.2 ht
    rw [kind_value]
    dsimp only
    rcases ty with _ | t | t | w
    · exact .flag hv ht rfl
    · rcases t with _ | t | t | w
      · obtain ⟨v, hv'⟩ := hi
        simp only [valueType, defaultOf, classify, hv']
        exact .optBool hv ht rfl hv'
      · exact hi.elim
      · exact hi.elim
      · simp only [HasDefault] at hi
        rcases hw : w.default with _ | ⟨a, b⟩
        · rw [hw] at hi; cases hi
        · simp only [valueType, defaultOf, hw]
          exact .impl hv ht (.inr rfl) hw
    · exact hi.elim
    · simp only [HasDefault] at hi
      rcases hw : w.default with _ | ⟨a, b⟩
      · rw [hw] at hi; cases hi
      · simp only [valueType, defaultOf, hw]
        exact .impl hv ht (.inl rfl) hw
  · have := hleg.1; simp [hv, ht] at this
  · exact .expr hv ht
  · have := hleg.1; simp [hv, ht] at this

theorem ite_nil_iff {α : Type} {b : Prop} [Decidable b] {x : α} {xs : List α} :
    (if b then x :: xs else []) = [] ↔ ¬ b := by
  by_cases h : b <;> simp [h]

theorem encodeLong_iff (s : Str) : (encodeLongName s).1 = [] ↔ s ≠ [] ∧ s.head? ≠ some '-' ∧ '=' ∉ s ∧ ∀ c ∈ s, ¬ Control c := by
  constructor
  · intro h
    obtain ⟨h1, h2, h3⟩ := encodeLongName_ok h
    exact ⟨h1, h2, fun hc => (h3 _ hc).1 rfl, fun c hc => (control_iff' c).mp (h3 c hc).2⟩
  · rintro ⟨h1, h2, h3, h4⟩
    unfold encodeLongName
    dsimp only
    rw [if_neg h1, if_neg h2, if_neg]
    intro h
    obtain ⟨c, hc, hd⟩ := List.any_eq_true.mp h
    simp only [Bool.or_eq_true, decide_eq_true_eq] at hd
    rcases hd with rfl | hd
    · exact h3 hc
    · exact h4 c hc ((control_iff c).mp hd)

theorem encodeShort_iff (c : Char) : (encodeShortName c).1 = [] ↔ c ≠ '-' ∧ c ≠ '=' ∧ ¬ Control c := by
  unfold encodeShortName
  dsimp only
  rw [ite_nil_iff, control_iff, not_or, not_or]

theorem mem_requested_long {i : Str} {ty : Ty V} {m : ArgMeta V} (hn : m.isNamed = true) (s : Str) :
    Name.long s ∈ requestedNames cx (.arg i ty m) ↔ s ∈ m.alias ++ (primaryLong cx i m).toList := by
  have : (m.long.isNone && m.short.isNone) = false := by
    unfold ArgMeta.isNamed at hn
    cases hl : m.long <;> cases hs : m.short <;> simp_all
  unfold requestedNames primaryLong
  dsimp only
  rw [this]
  simp only [Bool.false_eq_true, if_false]
  rcases hl : m.long with _ | (_ | _) <;> simp

theorem mem_requested_short {i : Str} {ty : Ty V} {m : ArgMeta V} (hn : m.isNamed = true) (s : Char) :
    Name.short s ∈ requestedNames cx (.arg i ty m) ↔ s ∈ m.shortAlias ++ (primaryShort i m).toList := by
  have : (m.long.isNone && m.short.isNone) = false := by
    unfold ArgMeta.isNamed at hn
    cases hl : m.long <;> cases hs : m.short <;> simp_all
  unfold requestedNames primaryShort
  dsimp only
  rw [this]
  simp only [Bool.false_eq_true, if_false]
  rcases hl : m.short with _ | (_ | _)
  · simp
  · cases i <;> simp
  · simp

theorem requested_pos {i : Str} {ty : Ty V} {m : ArgMeta V} (hn : m.isNamed = false) : requestedNames cx (.arg i ty m) = [] := by
  unfold ArgMeta.isNamed at hn
  unfold requestedNames
  dsimp only
  rw [if_pos]
  cases hl : m.long <;> cases hs : m.short <;> simp_all

theorem named_iff (m : ArgMeta V) : Named m ↔ m.isNamed = true := by
  unfold Named ArgMeta.isNamed; simp

theorem common_iff (i : Str) (ty : Ty V) (m : ArgMeta V) :
    commonErrors cx i (classify ty).1 (classify ty).2 m = [] ↔ CommonOk cx i (classify ty).1 (classify ty).2 m := by
  refine ⟨commonErrors_ok, fun h => ?_⟩
  unfold commonErrors
  simp only [List.append_eq_nil_iff, ite_nil_iff]
  refine ⟨⟨⟨⟨⟨⟨⟨⟨h.dflt, ?_⟩, ?_⟩, ?_⟩, ?_⟩, ?_⟩, ?_⟩, ?_⟩, ?_⟩
  · intro hh
    simp only [Bool.and_eq_true] at hh
    rw [h.req hh.1] at hh
    exact absurd hh.2 (by simp)
  · intro hh
    simp only [Bool.and_eq_true, Bool.not_eq_true'] at hh
    rw [h.delim hh.1] at hh
    exact absurd hh.2 (by simp)
  · have := h.hyp
    unfold acceptHyphen
    cases ha : m.allowHyphenValues <;> cases hb : m.allowNegativeNumbers <;> simp_all
  · rw [hyphen_ne_zero]
    intro hh
    have h2 := h.hyp2
    cases ha : m.allowHyphenValues <;> cases hb : m.allowNegativeNumbers <;> simp_all
  · intro hh
    obtain ⟨c, hc, hd⟩ := List.any_eq_true.mp hh
    rw [h.vn c hc] at hd
    cases hd
  · intro hh
    simp only [Bool.and_eq_true, decide_eq_true_eq, Bool.not_eq_true'] at hh
    rw [h.oo hh.1] at hh
    exact absurd hh.2 (by simp)
  · by_cases hi : m.ignoreCase = true
    · obtain ⟨d, h1, h2⟩ := h.case hi
      rw [if_pos hi, h1]
      simp [h2]
    · rw [if_neg hi]
  · obtain ⟨p, hp⟩ := h.par
    rw [hp]; simp

/-- One argument: accepted exactly if legal. -/
theorem argField_legal (i : Str) (ty : Ty V) (m : ArgMeta V) : (argField cx i ty m).1 = [] ↔ LegalArg cx i ty m := by
  have hcommon : CommonOk cx i (classify ty).1 (classify ty).2 m ↔
      Parsable (valueType ty) ∧ (∀ c ∈ shownName cx i m, ¬ Control c)
      ∧ (m.defaultValue = none ∨ m.defaultValueT.isNone = true)
      ∧ (∀ v shown, m.defaultValueT = some (.explicit (v, shown)) → DefaultFits ty v)
      ∧ (m.defaultValueT = some .inherit → HasDefault cx ty)
      ∧ (m.defaultValue.isSome = true ∨ m.defaultValueT.isSome = true → m.required = false)
      ∧ (m.valueDelimiter.isSome = true → Repeats ty = true)
      ∧ (m.allowHyphenValues = false ∨ m.allowNegativeNumbers = false)
      ∧ (m.allowHyphenValues = true ∨ m.allowNegativeNumbers = true → NeedsValue ty = true ∧ m.requireEquals = false)
      ∧ (∀ t, ty = .option (.option t) → m.requireEquals = true)
      ∧ (m.ignoreCase = true → ty ≠ .bool ∧ ∃ v e, valueType ty = .other v ∧ v.valueEnum = some e ∧ e.noUpperCase = true) := by
    constructor
    · intro h
      obtain ⟨d1, d2, d3⟩ := (fieldDefault_legal ty m).mp h.dflt
      refine ⟨?_, ?_, d1, d2, d3, ?_, ?_, ?_, ?_, ?_, ?_⟩
      · obtain ⟨p, hp⟩ := h.par
        exact (fieldParser_some (cx := cx) ty).mp (by rw [hp]; rfl)
      · intro c hc; exact (control_iff' c).mp (h.vn c hc)
      · intro hh; exact h.req ((fieldDefault_isSome h.dflt).mpr hh)
      · intro hh; rw [← kind_repeats]; exact h.delim hh
      · have := h.hyp
        cases ha : m.allowHyphenValues <;> cases hb : m.allowNegativeNumbers <;> simp_all
      · rw [← kind_needs]; exact h.hyp2
      · intro t ht; exact h.oo ((kind_optOpt ty).mpr ⟨t, ht⟩)
      · intro hi
        obtain ⟨d, h1, h2⟩ := h.case hi
        obtain ⟨h3, v, h4, h5⟩ := (fieldParser_enum ty d).mp h1
        exact ⟨h3, v, d, h4, h5, h2⟩
    · rintro ⟨h1, h2, h3, h4, h5, h6, h7, h8, h9, h10, h11⟩
      have hd := (fieldDefault_legal (cx := cx) ty m).mpr ⟨h3, h4, h5⟩
      refine { dflt := hd, req := ?_, delim := ?_, hyp := ?_, hyp2 := ?_, vn := ?_, oo := ?_, par := ?_, case := ?_ }
      · intro hh; exact h6 ((fieldDefault_isSome hd).mp hh)
      · rw [kind_repeats]; exact h7
      · rintro ⟨a, b⟩
        rw [a, b] at h8
        simp at h8
      · rw [kind_needs]; exact h9
      · intro c hc; exact (control_iff' c).mpr (h2 c hc)
      · intro hk
        obtain ⟨t, ht⟩ := (kind_optOpt ty).mp hk
        exact h10 t ht
      · exact Option.isSome_iff_exists.mp ((fieldParser_some (cx := cx) ty).mpr h1)
      · intro hi
        obtain ⟨a, v, e, b, c, d⟩ := h11 hi
        exact ⟨e, (fieldParser_enum ty e).mpr ⟨a, v, b, c⟩, d⟩
  unfold argField
  cases hn : m.isNamed with
  | true =>
    have hN : Named m := (named_iff m).mpr hn
    simp only [if_true, List.append_eq_nil_iff, ite_nil_iff, common_iff, hcommon]
    have hl : (longEncs cx i m).flatMap (·.1) = [] ↔ ∀ s, Name.long s ∈ requestedNames cx (.arg i ty m) →
        s ≠ [] ∧ s.head? ≠ some '-' ∧ '=' ∉ s ∧ ∀ c ∈ s, ¬ Control c := by
      rw [List.flatMap_eq_nil_iff]
      unfold longEncs
      constructor
      · intro h s hs
        rw [mem_requested_long hn] at hs
        exact (encodeLong_iff s).mp (h _ (List.mem_map_of_mem hs))
      · intro h x hx
        obtain ⟨s, hs, rfl⟩ := List.mem_map.mp hx
        exact (encodeLong_iff s).mpr (h s ((mem_requested_long hn s).mpr hs))
    have hs : (shortEncs i m).flatMap (·.1) = [] ↔ ∀ s, Name.short s ∈ requestedNames cx (.arg i ty m) →
        s ≠ '-' ∧ s ≠ '=' ∧ ¬ Control s := by
      rw [List.flatMap_eq_nil_iff]
      unfold shortEncs
      constructor
      · intro h s hs
        rw [mem_requested_short hn] at hs
        exact (encodeShort_iff s).mp (h _ (List.mem_map_of_mem hs))
      · intro h x hx
        obtain ⟨s, hs, rfl⟩ := List.mem_map.mp hx
        exact (encodeShort_iff s).mpr (h s ((mem_requested_short hn s).mpr hs))
    rw [hl, hs]
    constructor
    · rintro ⟨⟨⟨⟨h1, h2, h3, h4, h5, h6, h7, h8, h9, h10, h11⟩, hla⟩, hlo⟩, hsh⟩
      exact { parsable := h1, valueName := h2, oneDefault := h3, defaultFits := h4, defaultImpl := h5, notRequired := h6,
              delimiter := h7, oneHyphen := h8, hyphen := h9, optionalValue := h10, ignoreCase := h11, longs := hlo, shorts := hsh,
              named := fun _ => by simpa using hla, positional := fun h => absurd hN h, last := fun h => absurd hN h }
    · intro h
      refine ⟨⟨⟨⟨h.parsable, h.valueName, h.oneDefault, h.defaultFits, h.defaultImpl, h.notRequired, h.delimiter, h.oneHyphen,
        h.hyphen, h.optionalValue, h.ignoreCase⟩, ?_⟩, h.longs⟩, h.shorts⟩
      obtain ⟨a, b⟩ := h.named hN
      simp [a, b]
  | false =>
    have hN : ¬ Named m := by rw [named_iff, hn]; simp
    simp only [Bool.false_eq_true, if_false, List.append_eq_nil_iff, ite_nil_iff, common_iff, hcommon, hyphen_ne_zero, kind_repeats]
    constructor
    · rintro ⟨⟨⟨⟨h1, h2, h3, h4, h5, h6, h7, h8, h9, h10, h11⟩, hp⟩, hh⟩, hla⟩
      refine { parsable := h1, valueName := h2, oneDefault := h3, defaultFits := h4, defaultImpl := h5, notRequired := h6,
               delimiter := h7, oneHyphen := h8, hyphen := h9, optionalValue := h10, ignoreCase := h11,
               longs := ?_, shorts := ?_,
               named := fun h => absurd h hN, positional := fun _ => ?_, last := fun _ hl => ?_ }
      · rw [requested_pos hn]; simp
      · rw [requested_pos hn]; simp
      · cases ha : m.allowHyphenValues <;> cases hb : m.allowNegativeNumbers <;> simp_all
      · simp [hl] at hla; exact hla
    · intro h
      refine ⟨⟨⟨⟨h.parsable, h.valueName, h.oneDefault, h.defaultFits, h.defaultImpl, h.notRequired, h.delimiter, h.oneHyphen,
        h.hyphen, h.optionalValue, h.ignoreCase⟩, ?_⟩, ?_⟩, ?_⟩
      · obtain ⟨a, b, c, _, _⟩ := h.positional hN
        simp [a, b, c]
      · obtain ⟨_, _, _, a, b⟩ := h.positional hN
        simp [a, b]
      · intro hh
        simp only [Bool.and_eq_true, Bool.not_eq_true'] at hh
        rw [h.last hN hh.1] at hh
        exact absurd hh.2 (by simp)

/-! ### The loop over the fields -/

theorem enc_eq (i : Str) (ty : Ty V) (m : ArgMeta V) :
    (argField cx i ty m).2.encNames = (requestedNames cx (.arg i ty m)).map encodeName := by
  cases hn : m.isNamed with
  | false => rw [requested_pos hn]; simp [argField, hn]
  | true =>
    have h0 : (m.long.isNone && m.short.isNone) = false := by
      unfold ArgMeta.isNamed at hn
      cases hl : m.long <;> cases hs : m.short <;> simp_all
    have h1 : (argField cx i ty m).2.encNames = (longEncs cx i m).map (·.2) ++ (shortEncs i m).map (·.2) := by
      simp [argField, hn]
    rw [h1]
    unfold requestedNames longEncs shortEncs primaryLong primaryShort
    dsimp only
    rw [h0]
    simp only [Bool.false_eq_true, if_false, List.map_append, List.map_map]
    have hlong : ((fun x => x.2) ∘ encodeLongName) = encodeName ∘ Name.long := rfl
    have hshort : ((fun x => x.2) ∘ encodeShortName) = encodeName ∘ Name.short := rfl
    rcases hl : m.long with _ | (_ | _) <;> rcases hs : m.short with _ | (_ | _) <;> cases i <;>
      simp [hlong, hshort, encodeName]

theorem names_eq (ds : List (FieldDecl V)) :
    ((declFields cx ds).filter isOption).flatMap (·.encNames) = (ds.flatMap (requestedNames cx)).map encodeName := by
  induction ds with
  | nil => rfl
  | cons x xs ih =>
    rw [List.flatMap_cons, List.map_append, ← ih]
    cases x with
    | arg i ty m =>
      have : declFields cx (FieldDecl.arg i ty m :: xs) = (argField cx i ty m).2 :: declFields cx xs := by
        simp [declFields, declField]
      rw [this, List.filter_cons, argField_isOption]
      cases hn : m.isNamed with
      | true => simp [enc_eq]
      | false => rw [requested_pos hn]; simp
    | subcommand i o vs => rfl
    | flatten i d => rfl

theorem isNamed_eq (m : ArgMeta V) : m.isNamed = !(m.long.isNone && m.short.isNone) := by
  unfold ArgMeta.isNamed; cases m.long <;> cases m.short <;> rfl

theorem single_decl (i : Str) (ty : Ty V) (m : ArgMeta V) : isSingle (argField cx i ty m).2 = isSinglePos (.arg i ty m) := by
  unfold isSingle isSinglePos
  dsimp only
  rw [argField_isOption, ← acceptsMultiple_eq, (argField_src cx i ty m).1, (argField_src cx i ty m).2.2, kind_repeats, isNamed_eq]
  cases m.long.isNone <;> cases m.short.isNone <;> cases Repeats ty <;> cases m.last <;> rfl

theorem many_decl (i : Str) (ty : Ty V) (m : ArgMeta V) : isVar (argField cx i ty m).2 = isManyPos (.arg i ty m) := by
  unfold isVar isManyPos
  dsimp only
  rw [argField_isOption, ← acceptsMultiple_eq, (argField_src cx i ty m).1, (argField_src cx i ty m).2.2, kind_repeats, isNamed_eq]
  cases m.long.isNone <;> cases m.short.isNone <;> cases Repeats ty <;> cases m.last <;> rfl

theorem last_decl (i : Str) (ty : Ty V) (m : ArgMeta V) : isLastF (argField cx i ty m).2 = isLastPos (.arg i ty m) := by
  unfold isLastF isLastPos
  dsimp only
  rw [argField_isOption, (argField_src cx i ty m).1, isNamed_eq]
  cases m.long.isNone <;> cases m.short.isNone <;> cases m.last <;> rfl

theorem filter_none {p : FieldInfo V → Bool} {q : FieldDecl V → Bool} (h : ∀ i ty m, p (argField cx i ty m).2 = q (.arg i ty m))
    (h2 : ∀ i o vs, q (.subcommand i o vs) = false) (h3 : ∀ i d, q (.flatten i d) = false) (ds : List (FieldDecl V)) :
    (declFields cx ds).filter p = [] ↔ ∀ y ∈ ds, q y = false := by
  rw [List.filter_eq_nil_iff]
  unfold declFields
  constructor
  · intro hh y hy
    cases y with
    | arg i ty m =>
      have := hh _ (List.mem_filterMap.mpr ⟨_, hy, rfl⟩)
      rw [h] at this
      simpa using this
    | subcommand => exact h2 ..
    | flatten => exact h3 ..
  · intro hh f hf
    obtain ⟨y, hy, he⟩ := List.mem_filterMap.mp hf
    cases y with
    | arg i ty m =>
      simp only [declField, Option.some.injEq] at he
      subst he
      rw [h, hh _ hy]; simp
    | subcommand => cases he
    | flatten => cases he

theorem toList_none {α : Type} {o : Option α} : o.isSome = false ↔ o.toList = [] := by cases o <;> simp

/-- Condition for one more field. -/
def StepOk (cx : Cx V) (ds : List (FieldDecl V)) (x : FieldDecl V) : Prop :=
  match x with
  | .subcommand _ _ _ => ∀ y ∈ ds, isSubDecl y = false
  | .flatten _ d => d.info.positionalLen = 0 ∧ d.hasSub = false
  | .arg i ty m =>
    LegalArg cx i ty m ∧ (requestedNames cx (.arg i ty m)).Nodup
    ∧ (∀ n ∈ requestedNames cx (.arg i ty m), n ∉ ds.flatMap (requestedNames cx))
    ∧ (isLastPos (.arg i ty m) = true → ∀ y ∈ ds, isLastPos y = false)
    ∧ (isManyPos (.arg i ty m) = true → ∀ y ∈ ds, isManyPos y = false)
    ∧ (isSinglePos (.arg i ty m) = true → ∀ y ∈ ds, isManyPos y = false)

theorem checkDup_iff {seen ns : List Str} : (checkDup seen ns).1 = [] ↔ ns.Nodup ∧ ∀ n ∈ ns, n ∉ seen := by
  refine ⟨fun h => ⟨(checkDup_ok h).1, (checkDup_ok h).2.1⟩, ?_⟩
  induction ns generalizing seen with
  | nil => intro _; rfl
  | cons x xs ih =>
    rintro ⟨h1, h2⟩
    rw [List.nodup_cons] at h1
    simp only [checkDup]
    rw [if_neg (h2 x (by simp))]
    apply ih
    refine ⟨h1.2, ?_⟩
    intro n hn
    rw [List.mem_cons, not_or]
    exact ⟨fun e => h1.1 (e ▸ hn), h2 n (by simp [hn])⟩

theorem nodup_map_enc {l : List Name} : (l.map encodeName).Nodup ↔ l.Nodup := by
  constructor
  · exact fun h => List.Pairwise.of_map _ (fun a b hab e => hab (by rw [e])) h
  · intro h
    exact List.Pairwise.map _ (fun a b hab e => hab (encodeName_inj e)) h

theorem step_iff {s : DState V} {ds : List (FieldDecl V)} {x : FieldDecl V} (inv : DInv cx s ds) (h0 : s.errors = []) :
    (deriveStep cx s x).errors = [] ↔ StepOk cx ds x := by
  have hmany : s.varArg.isSome = false ↔ ∀ y ∈ ds, isManyPos y = false := by
    rw [toList_none, inv.varArg]
    exact filter_none (many_decl (cx := cx)) (fun _ _ _ => rfl) (fun _ _ => rfl) ds
  have hlast : s.last.isSome = false ↔ ∀ y ∈ ds, isLastPos y = false := by
    rw [toList_none, inv.last]
    exact filter_none (last_decl (cx := cx)) (fun _ _ _ => rfl) (fun _ _ => rfl) ds
  cases x with
  | subcommand i o vs =>
    have hsub : s.sub = .none ↔ ∀ y ∈ ds, isSubDecl y = false := by
      have : s.sub = .none ↔ subToList s.sub = [] := by cases s.sub <;> simp [subToList]
      rw [this, inv.sub, List.filterMap_eq_nil_iff]
      constructor
      · intro h y hy
        have := h y hy
        cases y <;> simp_all [declSub, isSubDecl]
      · intro h y hy
        have := h y hy
        cases y <;> simp_all [declSub, isSubDecl]
    unfold StepOk
    dsimp only
    rw [← hsub]
    simp only [deriveStep]
    cases s.sub with
    | none => simp [h0]
    | some => simp
  | flatten i d =>
    unfold StepOk
    simp only [deriveStep, List.append_eq_nil_iff, h0, true_and, ite_nil_iff, Bool.not_eq_true]
    by_cases hp : d.info.positionalLen = 0 <;> simp [hp]
  | arg i ty m =>
    have hs := single_decl (cx := cx) i ty m
    have hv := many_decl (cx := cx) i ty m
    have hl := last_decl (cx := cx) i ty m
    have hopt := argField_isOption cx i ty m
    have hsrc := (argField_src cx i ty m).1
    have hmul := acceptsMultiple_eq (argField cx i ty m).2
    unfold StepOk
    dsimp only
    rw [← hs, ← hv, ← hl, ← argField_legal, ← hlast, ← hmany]
    have hnames : (checkDup s.seen (argField cx i ty m).2.encNames).1 = [] ↔
        (requestedNames cx (.arg i ty m)).Nodup ∧ ∀ n ∈ requestedNames cx (.arg i ty m), n ∉ ds.flatMap (requestedNames cx) := by
      rw [checkDup_iff, enc_eq, nodup_map_enc]
      refine and_congr_right fun _ => ?_
      have hseen : ∀ n, encodeName n ∈ s.seen ↔ n ∈ ds.flatMap (requestedNames cx) := by
        intro n
        rw [inv.seen, inv.named, names_eq, List.mem_map]
        constructor
        · rintro ⟨a, ha, he⟩
          exact encodeName_inj he ▸ ha
        · exact fun h => ⟨n, h, rfl⟩
      constructor
      · intro h n hn hm
        exact h _ (List.mem_map_of_mem hn) ((hseen n).mpr hm)
      · intro h e he hm
        obtain ⟨n, hn, rfl⟩ := List.mem_map.mp he
        exact h n hn ((hseen n).mp hm)
    have hpos : m.isNamed = false → requestedNames cx (.arg i ty m) = [] := requested_pos
    generalize hf : (argField cx i ty m).2 = f at *
    simp only [deriveStep, hf]
    cases hn : m.isNamed with
    | true =>
      rw [hn] at hopt
      have p1 : isSingle f = false := by simp [isSingle, hopt]
      have p2 : isVar f = false := by simp [isVar, hopt]
      have p3 : isLastF f = false := by simp [isLastF, hopt]
      simp only [if_true, p1, p2, p3, Bool.false_eq_true, false_imp_iff, and_true]
      by_cases hl : (m.last || m.trailingVarArg) = true
      · have hne : (argField cx i ty m).1 ≠ [] := by
          unfold argField
          simp [hn, hl]
        rw [if_pos hl]
        simp [hne]
      · rw [if_neg hl]
        simp only [List.append_eq_nil_iff, h0, true_and, hnames]
    | false =>
      rw [hn] at hopt
      rw [hpos hn]
      simp only [Bool.false_eq_true, if_false, List.nodup_nil, List.not_mem_nil, false_imp_iff, implies_true, true_and]
      by_cases hl : m.last = true
      · have p1 : isSingle f = false := by simp [isSingle, hsrc, hl]
        have p2 : isVar f = false := by simp [isVar, hsrc, hl]
        have p3 : isLastF f = true := by simp [isLastF, hopt, hsrc, hl]
        rw [if_pos hl]
        simp [p1, p2, p3, h0]
      · have hl' : m.last = false := by simpa using hl
        have p3 : isLastF f = false := by simp [isLastF, hsrc, hl']
        rw [if_neg hl]
        by_cases hmu : f.kind.acceptsMultipleValues = true
        · rw [if_pos hmu]
          rw [hmu] at hmul
          have p1 : isSingle f = false := by simp [isSingle, ← hmul]
          have p2 : isVar f = true := by simp [isVar, hopt, hsrc, hl', ← hmul]
          simp [p1, p2, p3, h0]
        · rw [if_neg hmu]
          have hmu' : f.kind.acceptsMultipleValues = false := by simpa using hmu
          rw [hmu'] at hmul
          have p1 : isSingle f = true := by simp [isSingle, hopt, ← hmul, hsrc, hl']
          have p2 : isVar f = false := by simp [isVar, ← hmul]
          by_cases hva : s.varArg.isSome = true
          · rw [if_pos hva]; simp [p1, hva]
          · rw [if_neg hva]; simp [p1, p2, p3, h0, hva]

/-- Everything checked by the loop. -/
structure LoopOk (cx : Cx V) (ds : List (FieldDecl V)) : Prop where
  args : ∀ i ty m, FieldDecl.arg i ty m ∈ ds → LegalArg cx i ty m
  names : (ds.flatMap (requestedNames cx)).Nodup
  oneSub : (ds.filter isSubDecl).length ≤ 1
  oneMany : (ds.filter isManyPos).length ≤ 1
  oneLast : (ds.filter isLastPos).length ≤ 1
  order : ∀ pre x mid y post, ds = pre ++ x :: mid ++ y :: post → isManyPos x = true → isSinglePos y = false
  flat : ∀ i d, FieldDecl.flatten i d ∈ ds → d.info.positionalLen = 0 ∧ d.hasSub = false

theorem filter_snoc_le {α : Type} {p : α → Bool} {l : List α} {x : α} (h : (l.filter p).length ≤ 1) :
    ((l ++ [x]).filter p).length ≤ 1 ↔ (p x = true → ∀ y ∈ l, p y = false) := by
  rw [List.filter_append]
  by_cases hx : p x = true
  · simp only [List.filter_cons, hx, if_true, List.filter_nil, List.length_append, List.length_cons, List.length_nil, true_imp_iff]
    constructor
    · intro hh y hy
      have : l.filter p = [] := List.length_eq_zero_iff.mp (by omega)
      rw [List.filter_eq_nil_iff] at this
      simpa using this y hy
    · intro hh
      have : l.filter p = [] := by
        rw [List.filter_eq_nil_iff]; intro y hy; rw [hh y hy]; simp
      rw [this]; simp
  · simp [hx, h]

theorem filter_snoc_of {α : Type} {p : α → Bool} {l : List α} {x : α} (h : ((l ++ [x]).filter p).length ≤ 1) : (l.filter p).length ≤ 1 := by
  rw [List.filter_append, List.length_append] at h; omega

theorem order_snoc {ds : List (FieldDecl V)} {x : FieldDecl V} :
    (∀ pre a mid b post, ds ++ [x] = pre ++ a :: mid ++ b :: post → isManyPos a = true → isSinglePos b = false)
    ↔ (∀ pre a mid b post, ds = pre ++ a :: mid ++ b :: post → isManyPos a = true → isSinglePos b = false)
      ∧ (isSinglePos x = true → ∀ y ∈ ds, isManyPos y = false) := by
  constructor
  · intro h
    refine ⟨fun pre a mid b post he => h pre a mid b (post ++ [x]) (by rw [he]; simp), ?_⟩
    intro hx y hy
    obtain ⟨s, t, rfl⟩ := List.append_of_mem hy
    cases hm : isManyPos y with
    | false => rfl
    | true =>
      have := h s y t x [] (by simp) hm
      rw [hx] at this
      cases this
  · rintro ⟨h1, h2⟩ pre a mid b post he ha
    rcases List.eq_nil_or_concat post with rfl | ⟨post', z, rfl⟩
    · have he' : ds ++ [x] = (pre ++ a :: mid) ++ [b] := by simpa using he
      obtain ⟨e1, e2⟩ := List.append_inj' he' rfl
      simp only [List.cons.injEq, and_true] at e2
      subst e2
      cases hs : isSinglePos x with
      | false => rfl
      | true =>
        have := h2 hs a (by rw [e1]; simp)
        rw [ha] at this
        cases this
    · have he' : ds ++ [x] = (pre ++ a :: mid ++ b :: post') ++ [z] := by simpa using he
      obtain ⟨e1, _⟩ := List.append_inj' he' rfl
      exact h1 pre a mid b post' e1 ha

theorem loop_snoc {ds : List (FieldDecl V)} {x : FieldDecl V} : LoopOk cx (ds ++ [x]) ↔ LoopOk cx ds ∧ StepOk cx ds x := by
  constructor
  · intro h
    have hord := order_snoc.mp h.order
    have hnames := h.names
    rw [List.flatMap_append, List.nodup_append] at hnames
    have pre : LoopOk cx ds := {
      args := fun i ty m hm => h.args i ty m (by simp [hm])
      names := hnames.1
      oneSub := filter_snoc_of h.oneSub
      oneMany := filter_snoc_of h.oneMany
      oneLast := filter_snoc_of h.oneLast
      order := hord.1
      flat := fun i d hd => h.flat i d (by simp [hd]) }
    refine ⟨pre, ?_⟩
    cases x with
    | subcommand i o vs => exact (filter_snoc_le pre.oneSub).mp h.oneSub rfl
    | flatten i d => exact h.flat i d (by simp)
    | arg i ty m =>
      refine ⟨h.args i ty m (by simp), ?_, ?_, (filter_snoc_le pre.oneLast).mp h.oneLast, (filter_snoc_le pre.oneMany).mp h.oneMany, hord.2⟩
      · simpa using hnames.2.1
      · intro n hn hm
        exact hnames.2.2 n hm n (by simpa using hn) rfl
  · rintro ⟨pre, st⟩
    refine { args := ?_, names := ?_, oneSub := ?_, oneMany := ?_, oneLast := ?_, order := ?_, flat := ?_ }
    · intro i ty m hm
      rcases List.mem_append.mp hm with hm | hm
      · exact pre.args i ty m hm
      · rw [List.mem_singleton] at hm; subst hm; exact st.1
    · rw [List.flatMap_append, List.nodup_append]
      refine ⟨pre.names, ?_, ?_⟩
      · cases x with
        | arg i ty m => simpa using st.2.1
        | subcommand => simp [requestedNames]
        | flatten => simp [requestedNames]
      · intro a ha b hb hab
        subst hab
        cases x with
        | arg i ty m => exact st.2.2.1 a (by simpa using hb) ha
        | subcommand => simp [requestedNames] at hb
        | flatten => simp [requestedNames] at hb
    · rw [filter_snoc_le pre.oneSub]
      cases x with
      | subcommand => exact fun _ => st
      | arg => intro h; cases h
      | flatten => intro h; cases h
    · rw [filter_snoc_le pre.oneMany]
      cases x with
      | arg => exact st.2.2.2.2.1
      | subcommand => intro h; cases h
      | flatten => intro h; cases h
    · rw [filter_snoc_le pre.oneLast]
      cases x with
      | arg => exact st.2.2.2.1
      | subcommand => intro h; cases h
      | flatten => intro h; cases h
    · rw [order_snoc]
      refine ⟨pre.order, ?_⟩
      cases x with
      | arg => exact st.2.2.2.2.2
      | subcommand => intro h; cases h
      | flatten => intro h; cases h
    · intro i d hd
      rcases List.mem_append.mp hd with hd | hd
      · exact pre.flat i d hd
      · rw [List.mem_singleton] at hd; subst hd; exact st

theorem snoc_ind {α : Type} {P : List α → Prop} (h0 : P []) (h1 : ∀ l x, P l → P (l ++ [x])) (l : List α) : P l := by
  have : ∀ n (l : List α), l.length = n → P l := by
    intro n
    induction n with
    | zero => intro l hl; rw [List.length_eq_zero_iff.mp hl]; exact h0
    | succ n ih =>
      intro l hl
      rcases List.eq_nil_or_concat l with rfl | ⟨l', x, rfl⟩
      · exact h0
      · have hlen : l'.length = n := by simpa using hl
        have := h1 l' x (ih l' hlen)
        simpa using this
  exact this _ l rfl

theorem loop_iff (ds : List (FieldDecl V)) : (ds.foldl (deriveStep cx) {}).errors = [] ↔ LoopOk cx ds := by
  induction ds using snoc_ind with
  | h0 =>
    refine ⟨fun _ => ?_, fun _ => rfl⟩
    refine { args := by simp, names := by simp, oneSub := by simp, oneMany := by simp, oneLast := by simp, order := ?_, flat := by simp }
    intro pre x mid y post he
    simp at he
  | h1 l x ih =>
    rw [List.foldl_append, List.foldl_cons, List.foldl_nil, loop_snoc, ← ih]
    constructor
    · intro h
      have he := deriveStep_errors cx _ x h
      exact ⟨he, (step_iff (foldl_inv cx l he) he).mp h⟩
    · rintro ⟨he, hs⟩
      exact (step_iff (foldl_inv cx l he) he).mpr hs

/-! ### The remaining checks -/

theorem identsDistinct_iff {l : List Str} : identsDistinct l = true ↔ l.Nodup := by
  refine ⟨identsDistinct_nodup, ?_⟩
  induction l with
  | nil => intro _; rfl
  | cons x xs ih =>
    intro h
    rw [List.nodup_cons] at h
    simp [identsDistinct, h.1, ih h.2]

theorem lookup_isSome (L : List (FieldInfo V)) (x : Str) :
    (lookupIdx (assignIndexes L) x).isSome = true ↔ ∃ g ∈ L, g.ident = x := by
  unfold lookupIdx
  rw [Option.isSome_map, List.find?_isSome]
  unfold assignIndexes
  constructor
  · rintro ⟨f, hf, he⟩
    obtain ⟨⟨g, i⟩, hg, rfl⟩ := List.mem_map.mp hf
    exact ⟨g, List.fst_mem_of_mem_zipIdx hg, by simpa using he⟩
  · rintro ⟨g, hg, rfl⟩
    obtain ⟨k, hk⟩ := List.getElem?_of_mem hg
    exact ⟨_, List.mem_map.mpr ⟨(g, k), List.mem_zipIdx_iff_getElem?.mpr hk, rfl⟩, by simp⟩

theorem resolveAll_isSome (D : List (FieldInfo V)) (ids : List Str) :
    (resolveAll D ids).isSome = true ↔ ∀ x ∈ ids, (lookupIdx D x).isSome = true := by
  induction ids with
  | nil => simp [resolveAll]
  | cons x xs ih =>
    simp only [resolveAll]
    cases h : lookupIdx D x with
    | none => simp [h]
    | some n => simp [h, ih]

theorem resolveRefs_iff (L : List (FieldInfo V)) (ids : List Str) :
    (resolveRefs (assignIndexes L) ids).1 = [] ↔ ∀ x ∈ ids, ∃ g ∈ L, g.ident = x := by
  have : (∀ x ∈ ids, ∃ g ∈ L, g.ident = x) ↔ (resolveAll (assignIndexes L) ids).isSome = true := by
    rw [resolveAll_isSome]
    exact forall_congr' fun x => imp_congr_right fun _ => (lookup_isSome L x).symm
  rw [this]
  unfold resolveRefs
  by_cases h : ids = []
  · rw [if_pos h, h]; simp [resolveAll]
  · rw [if_neg h]
    cases resolveAll (assignIndexes L) ids <;> simp

theorem positionalLen_eq (d : ArgsDef V) : d.info.positionalLen = (coreOf d).fields.length - (coreOf d).namedCnt := by
  obtain ⟨core, flats, sub⟩ := d
  rw [ArgsDef.info]
  simp [ArgsInfo.positionalLen, ArgsInfo.new, Core.positional, coreOf]

theorem flat_iff {d : ArgsDef V} (wf : CoreWF cx (coreOf d)) :
    (d.info.positionalLen = 0 ∧ d.hasSub = false) ↔ (∀ f ∈ (coreOf d).fields, isOption f = true) ∧ subOf d = .none := by
  have hsub : d.hasSub = false ↔ subOf d = .none := by
    obtain ⟨c, f, s⟩ := d
    cases s <;> simp [ArgsDef.hasSub, subOf]
  rw [hsub, positionalLen_eq]
  refine and_congr_left fun _ => ?_
  constructor
  · intro h f hf
    apply wf.named
    rwa [List.take_of_length_le (by omega)]
  · intro h
    obtain ⟨ps, va, la, he, h1, h2, h3⟩ := wf.layout
    have : (coreOf d).fields.drop (coreOf d).namedCnt = [] := by
      apply List.eq_nil_iff_forall_not_mem.mpr
      intro f hf
      have ho := h f (List.mem_of_mem_drop hf)
      rw [he] at hf
      simp only [List.mem_append, Option.mem_toList] at hf
      rcases hf with (hf | hf) | hf
      · rw [(h1 f hf).1] at ho; cases ho
      · rw [(h2 f hf).1] at ho; cases ho
      · rw [(h3 f hf).1] at ho; cases ho
    have := congrArg List.length this
    simpa using this

/-- A struct is accepted exactly if its declarations are legal. -/
theorem deriveArgs_legal {cmeta : Option CommandMeta} {ds : List (FieldDecl V)}
    (hflat : ∀ i d, FieldDecl.flatten i d ∈ ds → CoreWF cx (coreOf d)) :
    (∃ d, deriveArgs cx cmeta ds = .ok d) ↔ Legal cx ds := by
  have hiff : (∃ d, deriveArgs cx cmeta ds = .ok d) ↔
      ds.length ≤ 254 ∧ LoopOk cx ds
      ∧ (∀ i ty m, FieldDecl.arg i ty m ∈ ds → ∀ r, r ∈ m.requires ∨ r ∈ m.conflictsWith → ∃ ty' m', FieldDecl.arg r ty' m' ∈ ds)
      ∧ (∀ i d, FieldDecl.flatten i d ∈ ds → ∀ j ty m, FieldDecl.arg j ty m ∈ ds → m.exclusive = false)
      ∧ (ds.map FieldDecl.ident).Nodup := by
    have hsplit : (∃ d, deriveArgs cx cmeta ds = .ok d) ↔ ds.length ≤ 254 ∧ (ds.foldl (deriveStep cx) {}).errors = []
        ∧ ((assignIndexes (ds.foldl (deriveStep cx) {}).all).map (resolveField (assignIndexes (ds.foldl (deriveStep cx) {}).all))).flatMap (·.1) = []
        ∧ ¬ ((!(ds.foldl (deriveStep cx) {}).flats.isEmpty && (assignIndexes (ds.foldl (deriveStep cx) {}).all).any (·.exclusive)) = true)
        ∧ identsDistinct (ds.map (·.ident)) = true := by
      unfold deriveArgs
      by_cases hlen : ds.length > 254
      · rw [if_pos hlen]
        constructor
        · rintro ⟨d, hd⟩; cases hd
        · intro h; omega
      · rw [if_neg hlen]
        dsimp only
        have hall : ∀ s : DState V, s.named ++ s.positional ++ s.varArg.toList ++ s.last.toList = s.all := fun _ => rfl
        rw [hall]
        generalize ds.foldl (deriveStep cx) {} = s
        have hle : ds.length ≤ 254 := by omega
        have hid : (if identsDistinct (ds.map (·.ident)) = true then [] else [DeriveError.duplicatedIdent]) = []
            ↔ identsDistinct (ds.map (·.ident)) = true := by
          by_cases h : identsDistinct (ds.map (·.ident)) = true <;> simp [h]
        constructor
        · rintro ⟨d, hd⟩
          obtain ⟨he, _⟩ := ite_ok hd
          simp only [List.append_eq_nil_iff, ite_nil_iff, hid] at he
          exact ⟨hle, he.1.1.1, he.1.1.2, he.1.2, he.2⟩
        · rintro ⟨_, h1, h2, h3, h4⟩
          refine ⟨_, if_pos ?_⟩
          simp only [List.append_eq_nil_iff, ite_nil_iff, hid]
          exact ⟨⟨⟨h1, h2⟩, h3⟩, h4⟩
    rw [hsplit, loop_iff, identsDistinct_iff]
    refine and_congr_right fun _ => and_congr_right fun hloop => ?_
    have inv := foldl_inv cx ds ((loop_iff ds).mpr hloop)
    generalize ds.foldl (deriveStep cx) {} = s at inv
    have hperm : s.all.Perm (declFields cx ds) := by
      have : s.all = (declFields cx ds).filter isOption ++ (declFields cx ds).filter isSingle
          ++ (declFields cx ds).filter isVar ++ (declFields cx ds).filter isLastF := by
        rw [← inv.named, ← inv.positional, ← inv.varArg, ← inv.last]; rfl
      rw [this]; exact split4 _
    have hmem : ∀ f, f ∈ s.all ↔ ∃ i ty m, FieldDecl.arg i ty m ∈ ds ∧ f = (argField cx i ty m).2 := by
      intro f
      rw [hperm.mem_iff]
      unfold declFields
      rw [List.mem_filterMap]
      constructor
      · rintro ⟨x, hx, he⟩
        cases x with
        | arg i ty m => exact ⟨i, ty, m, hx, by simpa [declField, eq_comm] using he⟩
        | subcommand => cases he
        | flatten => cases he
      · rintro ⟨i, ty, m, hx, rfl⟩
        exact ⟨_, hx, rfl⟩
    have hid : ∀ r, (∃ g ∈ s.all, g.ident = r) ↔ ∃ ty' m', FieldDecl.arg r ty' m' ∈ ds := by
      intro r
      constructor
      · rintro ⟨g, hg, rfl⟩
        obtain ⟨i, ty, m, hm, rfl⟩ := (hmem g).mp hg
        exact ⟨ty, m, by rw [(argField_src cx i ty m).2.1]; exact hm⟩
      · rintro ⟨ty, m, hm⟩
        exact ⟨_, (hmem _).mpr ⟨r, ty, m, hm, rfl⟩, (argField_src cx r ty m).2.1⟩
    have hargs : ∀ i ty (m : ArgMeta V), (argField cx i ty m).2.dependencies = m.requires
        ∧ (argField cx i ty m).2.conflicts = m.conflictsWith ∧ (argField cx i ty m).2.exclusive = m.exclusive := by
      intro i ty m
      unfold argField
      dsimp only
      split <;> exact ⟨rfl, rfl, rfl⟩
    have hrefs : ((assignIndexes s.all).map (resolveField (assignIndexes s.all))).flatMap (·.1) = [] ↔
        ∀ f ∈ s.all, (resolveRefs (assignIndexes s.all) f.dependencies).1 = [] ∧ (resolveRefs (assignIndexes s.all) f.conflicts).1 = [] := by
      rw [List.flatMap_eq_nil_iff]
      generalize hD : assignIndexes s.all = D
      have hfs : ∀ f ∈ D, ∃ g ∈ s.all, f.dependencies = g.dependencies ∧ f.conflicts = g.conflicts := by
        intro f hf
        rw [← hD] at hf
        unfold assignIndexes at hf
        obtain ⟨⟨g, k⟩, hg, rfl⟩ := List.mem_map.mp hf
        exact ⟨g, List.fst_mem_of_mem_zipIdx hg, rfl, rfl⟩
      have hsf : ∀ g ∈ s.all, ∃ f ∈ D, f.dependencies = g.dependencies ∧ f.conflicts = g.conflicts := by
        intro g hg
        obtain ⟨k, hk⟩ := List.getElem?_of_mem hg
        refine ⟨{ g with attrs := ArgAttrs.set g.attrs (ArgAttrs.index k) true }, ?_, rfl, rfl⟩
        rw [← hD]
        exact List.mem_map.mpr ⟨(g, k), List.mem_zipIdx_iff_getElem?.mpr hk, rfl⟩
      constructor
      · intro h g hg
        obtain ⟨f, hf, e1, e2⟩ := hsf g hg
        have := h _ (List.mem_map_of_mem hf)
        simp only [resolveField, List.append_eq_nil_iff] at this
        rw [← e1, ← e2]; exact this
      · intro h y hy
        obtain ⟨f, hf, rfl⟩ := List.mem_map.mp hy
        obtain ⟨g, hg, e1, e2⟩ := hfs f hf
        have := h g hg
        simp only [resolveField, List.append_eq_nil_iff]
        rw [e1, e2]; exact this
    rw [hrefs]
    have h3 : (∀ f ∈ s.all, (resolveRefs (assignIndexes s.all) f.dependencies).1 = [] ∧ (resolveRefs (assignIndexes s.all) f.conflicts).1 = [])
        ↔ ∀ i ty m, FieldDecl.arg i ty m ∈ ds → ∀ r, r ∈ m.requires ∨ r ∈ m.conflictsWith → ∃ ty' m', FieldDecl.arg r ty' m' ∈ ds := by
      simp only [resolveRefs_iff, hid]
      constructor
      · intro h i ty m hm r hr
        obtain ⟨h1, h2⟩ := h _ ((hmem _).mpr ⟨i, ty, m, hm, rfl⟩)
        rw [(hargs i ty m).1] at h1
        rw [(hargs i ty m).2.1] at h2
        rcases hr with hr | hr
        · exact h1 r hr
        · exact h2 r hr
      · intro h f hf
        obtain ⟨i, ty, m, hm, rfl⟩ := (hmem f).mp hf
        rw [(hargs i ty m).1, (hargs i ty m).2.1]
        exact ⟨fun r hr => h i ty m hm r (Or.inl hr), fun r hr => h i ty m hm r (Or.inr hr)⟩
    have h4 : ¬ ((!s.flats.isEmpty && (assignIndexes s.all).any (·.exclusive)) = true)
        ↔ ∀ i d, FieldDecl.flatten i d ∈ ds → ∀ j ty m, FieldDecl.arg j ty m ∈ ds → m.exclusive = false := by
      have hany : (assignIndexes s.all).any (·.exclusive) = s.all.any (·.exclusive) := by
        unfold assignIndexes
        rw [List.any_map]
        conv => rhs; rw [← List.zipIdx_map_fst 0 s.all, List.any_map]
        rfl
      rw [hany, inv.flats]
      constructor
      · intro h i d hd j ty m hm
        cases he : m.exclusive with
        | false => rfl
        | true =>
          refine absurd ?_ h
          rw [Bool.and_eq_true]
          constructor
          · simp only [Bool.not_eq_true', List.isEmpty_eq_false_iff, ne_eq, List.filterMap_eq_nil_iff]
            intro hh
            have := hh _ hd
            simp [declFlat] at this
          · rw [List.any_eq_true]
            exact ⟨_, (hmem _).mpr ⟨j, ty, m, hm, rfl⟩, (hargs j ty m).2.2.trans he⟩
      · intro h hh
        rw [Bool.and_eq_true] at hh
        obtain ⟨f, hf, he⟩ := List.any_eq_true.mp hh.2
        obtain ⟨j, ty, m, hm, rfl⟩ := (hmem f).mp hf
        have hne : ds.filterMap declFlat ≠ [] := by simpa using hh.1
        obtain ⟨y, hy⟩ := List.exists_mem_of_ne_nil _ hne
        obtain ⟨x, hx, hxy⟩ := List.mem_filterMap.mp hy
        cases x with
        | flatten i d =>
          have := h i d hx j ty m hm
          rw [(hargs j ty m).2.2, this] at he
          cases he
        | arg => cases hxy
        | subcommand => cases hxy
    rw [h3, h4]
  rw [hiff]
  constructor
  · rintro ⟨h1, h2, h3, h4, h5⟩
    exact { size := h1, idents := h5, args := h2.args, names := h2.names, oneSub := h2.oneSub, oneMany := h2.oneMany,
            oneLast := h2.oneLast, order := h2.order, refs := h3, flat := fun i d hd => (flat_iff (hflat i d hd)).mp (h2.flat i d hd),
            exclusive := h4 }
  · intro h
    exact ⟨h.size, { args := h.args, names := h.names, oneSub := h.oneSub, oneMany := h.oneMany, oneLast := h.oneLast, order := h.order,
                     flat := fun i d hd => (flat_iff (hflat i d hd)).mpr (h.flat i d hd) }, h.refs, h.exclusive, h.idents⟩

end Palc
