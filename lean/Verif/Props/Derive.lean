import Verif.Lemmas.Declared
import Verif.Lemmas.Validate
import Verif.Example
import Verif.SpecLegal
import Verif.Lemmas.Legal
/-!
# What the derive macros generate (C25, C27, C41, C42, C45, C49)
-/

namespace Palc

open Spec

variable {V : Type} {cx : Cx V} {cmeta : Option CommandMeta} {ds : List (FieldDecl V)} {d : ArgsDef V}

/-! ## C49 -/

/-- C49: the fields of the generated parser are exactly the declared arguments, each once, with its attributes. -/
theorem C49_every_argument_once (h : deriveArgs cx cmeta ds = .ok d) :
    ((coreOf d).fields.map (fun f => (f.ident, f.src))).Perm
      (ds.filterMap (fun x => match x with
        | .arg i _ m => some (i, m)
        | _ => none)) := by
  have := (args_perm h).map (fun x => (x.1, x.2.2.1))
  rw [List.map_map, List.map_filterMap] at this
  refine this.trans (List.Perm.of_eq ?_)
  apply filterMap_congr'
  intro x _
  cases x <;> rfl

/-- C49: each field has the kind that its type is spelled as, the value parser that its type implements, and the separator
and default that its attributes ask for. -/
theorem C49_type_parser_default (h : deriveArgs cx cmeta ds = .ok d) {f : FieldInfo V} (hf : f ∈ (coreOf d).fields) :
    ∃ ty, FieldDecl.arg f.ident ty f.src ∈ ds ∧ KindOf ty f.kind ∧ ParsesWith cx (valueType ty) f.parser
      ∧ DefaultIs cx ty f.src f.defaultValue ∧ f.valueDelimiter = f.src.valueDelimiter := by
  obtain ⟨ty, h1, h2, h3, h4⟩ := field_default h hf
  obtain ⟨k, hk⟩ := List.getElem?_of_mem hf
  exact ⟨ty, h1, kindOf_iff.2 h2, parsesWith_iff.2 h3, fieldDefault_is h4, ((accepted_wf h).fields k f hk).delim⟩

/-- C49: flattened structs and the subcommand are kept too. -/
theorem C49_flattened_and_subcommand (h : deriveArgs cx cmeta ds = .ok d) :
    (∀ fl core sub, d = .mk core fl sub → fl = Flats.ofList (ds.filterMap (fun x => match x with
        | .flatten i d' => some (i, d')
        | _ => none)))
    ∧ (∀ i o vs, FieldDecl.subcommand i o vs ∈ ds ↔ subOf d = .some i o vs) := by
  obtain ⟨core, flats, sub⟩ := d
  have ha := deriveArgs_ok h
  constructor
  · intro fl c s he
    cases he
    rw [ha.flatsEq]
    congr 1
  · intro i o vs
    have hs : (i, o, vs) ∈ ds.filterMap declSub ↔ FieldDecl.subcommand i o vs ∈ ds := by
      rw [List.mem_filterMap]
      constructor
      · rintro ⟨x, hx, he⟩
        cases x <;> simp [declSub] at he
        obtain ⟨rfl, rfl, rfl⟩ := he
        exact hx
      · intro hx; exact ⟨_, hx, rfl⟩
    rw [← hs, ← ha.subEq]
    cases sub with
    | none => simp [subToList, subOf]
    | some i' o' vs' => simp only [subToList, List.mem_singleton, subOf, Prod.mk.injEq, SubField.some.injEq]; grind

example : (coreOf Sample.cli).fields.map (fun f : FieldInfo Sample.Val => f.ident)
    = [lit "verbose", lit "config", lit "jobs", lit "define", lit "color", lit "level", lit "offset", lit "pattern", lit "file"] := by
  decide

/-! ## C25 -/

/-- The key of an option name: `--name`, or the character alone for a short name. -/
def lookupKey : Name → Bytes
  | .long s => blit "--" ++ enc s
  | .short c => encChar c

theorem lookupKey_eq (n : Name) : lookupKey n = enc (encodeName n) := by
  cases n with
  | long s => rfl
  | short c => simp [lookupKey, encodeName, enc]

/-- C25: looking up bytes in the generated table finds the attributes of a field iff the bytes are one of its names. -/
theorem C25_lookup (h : deriveArgs cx cmeta ds = .ok d) (b : Bytes) (w : ArgAttrs) :
    d.info.getNamed b = some w ↔
      ∃ f ∈ (coreOf d).fields, ∃ n, declares cx f n = true ∧ b = lookupKey n ∧ w = f.attrs := by
  have wf := accepted_wf h
  obtain ⟨core, flats, sub⟩ := d
  have hname : ∀ g ∈ core.fields, (hasName b g = true ↔ ∃ n, declares cx g n = true ∧ b = lookupKey n) := by
    intro g hg
    obtain ⟨k, hk⟩ := List.getElem?_of_mem hg
    unfold hasName
    rw [encNames_eq (wf.fields k g hk).toFieldPre, List.any_eq_true]
    constructor
    · rintro ⟨s, hs, he⟩
      obtain ⟨n, hn, rfl⟩ := List.mem_map.1 hs
      exact ⟨n, mem_fieldNames.1 hn, by rw [lookupKey_eq]; exact (by simpa using he : _ = _).symm⟩
    · rintro ⟨n, hn, he⟩
      exact ⟨_, List.mem_map_of_mem (mem_fieldNames.2 hn), by simp [he, lookupKey_eq]⟩
  rcases getNamed_spec wf (info := (ArgsDef.mk core flats sub).info) rfl b with ⟨i, f, hi, hn, hg, hu⟩ | ⟨hg, hno⟩
  · rw [hg]
    have hf := List.mem_of_getElem? hi
    constructor
    · rintro ⟨⟩
      obtain ⟨n, h1, h2⟩ := (hname f hf).1 hn
      exact ⟨f, hf, n, h1, h2, rfl⟩
    · rintro ⟨g, hg', n, h1, h2, rfl⟩
      obtain ⟨j, hj⟩ := List.getElem?_of_mem hg'
      have hji := hu j g hj ((hname g hg').2 ⟨n, h1, h2⟩)
      subst hji
      have : some f = some g := hi.symm.trans hj
      cases this
      rfl
  · rw [hg]
    constructor
    · intro h'; cases h'
    · rintro ⟨g, hg', n, h1, h2, _⟩
      have := (hname g hg').2 ⟨n, h1, h2⟩
      rw [hno g hg'] at this; cases this

/-- C25: the key determines the name, and no two fields share a name. -/
theorem C25_unambiguous (h : deriveArgs cx cmeta ds = .ok d) {i j : Nat} {f g : FieldInfo V} {n m : Name}
    (hf : (coreOf d).fields[i]? = some f) (hg : (coreOf d).fields[j]? = some g) (hn : declares cx f n = true)
    (hm : declares cx g m = true) (he : lookupKey n = lookupKey m) : n = m ∧ i = j ∧ f = g := by
  have hnm : n = m := by
    rw [lookupKey_eq, lookupKey_eq] at he
    exact encodeName_inj (enc_injective he)
  subst hnm
  have wf := accepted_wf h
  obtain ⟨core, flats, sub⟩ := d
  have hname : ∀ (k : Nat) (g : FieldInfo V), core.fields[k]? = some g → declares cx g n = true → hasName (lookupKey n) g = true := by
    intro k g hk hd
    unfold hasName
    rw [encNames_eq (wf.fields k g hk).toFieldPre, List.any_eq_true]
    exact ⟨_, List.mem_map_of_mem (mem_fieldNames.2 hd), by simp [lookupKey_eq]⟩
  rcases getNamed_spec wf (info := (ArgsDef.mk core flats sub).info) rfl (lookupKey n) with ⟨k, e, _, _, _, hu⟩ | ⟨_, hno⟩
  · have h1 := hu i f hf (hname i f hf hn)
    have h2 := hu j g hg (hname j g hg hm)
    have : i = j := by rw [h1, h2]
    subst this
    rw [hf] at hg
    cases hg
    exact ⟨rfl, rfl, rfl⟩
  · have := hno f (List.mem_of_getElem? hf)
    rw [hname i f hf hn] at this; cases this

example : ∃ w : ArgAttrs, Sample.cli.info.getNamed (blit "--cfg") = some w ∧ w.getIndex = 1
    ∧ Sample.cli.info.getNamed (blit "c") = some w ∧ Sample.cli.info.getNamed (blit "--config") = some w
    ∧ Sample.cli.info.getNamed (blit "--confi") = none ∧ Sample.cli.info.getNamed (blit "config") = none := by
  cases h : Sample.cli.info.getNamed (blit "--cfg") with
  | none => exact absurd h (by decide +kernel)
  | some w =>
    have : some w = Sample.cli.info.getNamed (blit "--cfg") := h.symm
    refine ⟨w, rfl, ?_, ?_, ?_, by decide +kernel, by decide +kernel⟩
    · have h2 : (Sample.cli.info.getNamed (blit "--cfg")).map ArgAttrs.getIndex = some 1 := by decide +kernel
      rw [h] at h2; simpa using h2
    · rw [this]; decide +kernel
    · rw [this]; decide +kernel

/-! ## C27 -/

/-- C27: every declared argument has a field whose packed word gives back exactly its index and the requested behaviours:
needing a value (any type but `bool` and `Option<Option<_>>`), `require_equals`, `allow_hyphen_values`, `allow_negative_numbers`,
`global`, `ignore_case`, `last`, greedy (`trailing_var_arg` or `last`) and, for positional arguments, variable length
(`Vec`-like types). -/
theorem C27_attributes (h : deriveArgs cx cmeta ds = .ok d) {ident : Str} {ty : Ty V} {m : ArgMeta V}
    (hm : FieldDecl.arg ident ty m ∈ ds) :
    ∃ (i : Nat) (f : FieldInfo V), (coreOf d).fields[i]? = some f ∧ f.ident = ident ∧ f.attrs.getIndex = i ∧ i < 254
      ∧ (f.attrs.contains ArgAttrs.REQUIRE_VALUE = true ↔ NeedsValue ty = true)
      ∧ (f.attrs.contains ArgAttrs.REQUIRE_EQ = true ↔ m.requireEquals = true)
      ∧ (f.attrs.contains ArgAttrs.ACCEPT_HYPHEN_ANY = true ↔ m.allowHyphenValues = true)
      ∧ (f.attrs.contains ArgAttrs.ACCEPT_HYPHEN_NUM = true ↔ m.allowNegativeNumbers = true)
      ∧ (f.attrs.contains ArgAttrs.GLOBAL = true ↔ m.global = true)
      ∧ (f.attrs.contains ArgAttrs.MAKE_LOWERCASE = true ↔ m.ignoreCase = true)
      ∧ (f.attrs.contains ArgAttrs.LAST = true ↔ m.last = true)
      ∧ (f.attrs.contains ArgAttrs.GREEDY = true ↔ m.trailingVarArg = true ∨ m.last = true)
      ∧ (f.attrs.contains ArgAttrs.VAR_ARG = true ↔
          m.long.isSome = false ∧ m.short.isSome = false ∧ Repeats ty = true) := by
  obtain ⟨i, f, hi, h1, h2, h3⟩ := declared_field h hm
  have wf := accepted_wf h
  have hw := wf.fields i f hi
  have hlen := wf.len
  have hii := (List.getElem?_eq_some_iff.1 hi).1
  refine ⟨i, f, hi, h1, hw.idx, by omega, ?_, ?_, ?_, ?_, ?_, ?_, ?_, ?_, ?_⟩
  · rw [hw.rv, ← kind_needs, ← h2]; unfold takesValue; cases f.kind <;> simp [MagicKind.requireValue]
  · rw [hw.re, h3]
  · rw [hw.ha, h3]
  · rw [hw.hn, h3]
  · rw [hw.gl, h3]
  · rw [hw.lo, h3]
  · rw [hw.la, h3]
  · rw [hw.gr, h3, Bool.or_eq_true]
  · cases ho : isOption f with
    | true =>
      rw [hw.vaNamed ho]
      unfold isOption at ho
      rw [h3, Bool.or_eq_true] at ho
      constructor
      · intro h'; cases h'
      · rintro ⟨h4, h5, _⟩; rw [h4, h5] at ho; simp at ho
    | false =>
      rw [hw.va ho, ← kind_repeats, ← h2]
      unfold isOption at ho
      rw [h3, Bool.or_eq_false_iff] at ho
      unfold isMulti
      cases f.kind <;> simp [ho, MagicKind.acceptsMultipleValues]

/-- C27: packing any index below 256 with any flags loses nothing (the nine flags occupy bits above the index). -/
theorem C27_index (w : ArgAttrs) (i : Nat) (hi : i < 256) (hw : ∀ k, k < 8 → w.getLsbD k = false) :
    (w.set (ArgAttrs.index i) true).getIndex = i ∧
    ∀ k, 16 ≤ k → k ≤ 24 → (w.set (ArgAttrs.index i) true).contains (1#32 <<< k) = w.contains (1#32 <<< k) :=
  ⟨ArgAttrs.getIndex_set_index _ _ hi hw, fun k h1 h2 => contains_set_index w i k (by omega) (by omega)⟩

example : FieldDecl.arg (lit "offset") (.option Sample.number)
      { long := some .inherit, allowNegativeNumbers := true, conflictsWith := [lit "level"] } ∈ Sample.cliDecls
    ∧ (((coreOf Sample.cli).fields[6]?).map (fun f : FieldInfo Sample.Val => (f.ident, f.attrs.getIndex, f.attrs.contains ArgAttrs.ACCEPT_HYPHEN_NUM,
        f.attrs.contains ArgAttrs.ACCEPT_HYPHEN_ANY, f.attrs.contains ArgAttrs.REQUIRE_VALUE, f.attrs.contains ArgAttrs.GLOBAL)))
      = some (lit "offset", 6, true, false, true, false) :=
  ⟨by simp [Sample.cliDecls], by decide⟩

/-! ## C41 -/

theorem requestedNames_eq (i : Str) (ty : Ty V) (m : ArgMeta V) :
    requestedNames cx (.arg i ty m) = fieldNames cx (argField cx i ty m).2 := by
  obtain ⟨h1, h2, _⟩ := argField_src cx i ty m
  unfold requestedNames fieldNames isOption longNames shortNames
  rw [h1, h2]
  rcases hl : m.long with _ | (_ | _) <;> rcases hs : m.short with _ | (_ | _) <;> simp [hl, hs]

/-- C41: a struct is accepted only if all option names of its arguments are pairwise different. -/
theorem C41_names_distinct (h : deriveArgs cx cmeta ds = .ok d) : (ds.flatMap (requestedNames cx)).Nodup := by
  have : ds.flatMap (requestedNames cx) = (declFields cx ds).flatMap (fieldNames cx) := by
    unfold declFields
    clear h
    induction ds with
    | nil => rfl
    | cons x xs ih =>
      cases x with
      | arg i ty m => rw [List.flatMap_cons, ih, requestedNames_eq]; rfl
      | subcommand => rw [List.flatMap_cons, ih]; rfl
      | flatten => rw [List.flatMap_cons, ih]; rfl
  rw [this]
  have hp := fields_perm h (fieldNames cx) (fun _ _ => rfl)
  have hn := names_nodup h
  rw [List.flatMap_def] at hn ⊢
  exact (List.Perm.flatten hp).nodup_iff.1 hn

/-- C41: and only if every long name is non-empty, does not start with '-' and has no '=' and no ASCII control character, and
no short name is '-', '=' or an ASCII control character. -/
theorem C41_names_wellformed (h : deriveArgs cx cmeta ds = .ok d) {x : FieldDecl V} (hx : x ∈ ds) :
    (∀ s, Name.long s ∈ requestedNames cx x → s ≠ [] ∧ s.head? ≠ some '-' ∧ '=' ∉ s ∧ ∀ c ∈ s, ¬ (c.toNat < 32 ∨ c.toNat = 127))
    ∧ ∀ c, Name.short c ∈ requestedNames cx x → c ≠ '-' ∧ c ≠ '=' ∧ ¬ (c.toNat < 32 ∨ c.toNat = 127) := by
  cases x with
  | subcommand => simp [requestedNames]
  | flatten => simp [requestedNames]
  | arg i ty m =>
    have hp : FieldPre cx (argField cx i ty m).2 := by
      obtain ⟨core, flats, sub⟩ := d
      exact (argField_pre ((deriveArgs_ok h).errs i ty m hx)).1
    rw [requestedNames_eq]
    constructor
    · intro s hs
      rw [mem_fieldNames] at hs
      simp only [declares, Bool.and_eq_true, List.contains_iff_mem] at hs
      obtain ⟨h1, h2, h3⟩ := hp.longOk hs.1 s hs.2
      refine ⟨h1, h2, fun hc => (h3 _ hc).1 rfl, fun c hc => ?_⟩
      have := (h3 c hc).2
      simpa [isAsciiControl] using this
    · intro c hs
      rw [mem_fieldNames] at hs
      simp only [declares, Bool.and_eq_true, List.contains_iff_mem] at hs
      obtain ⟨h1, h2, h3⟩ := hp.shortOk hs.1 c hs.2
      refine ⟨h1, h2, ?_⟩
      simpa [isAsciiControl] using h3

example : Sample.isOk (deriveArgs Sample.cx none Sample.cliDecls) = true
    ∧ Sample.cliDecls.flatMap (requestedNames Sample.cx) = [.long (lit "verbose"), .short 'v', .long (lit "cfg"), .long (lit "config"),
      .short 'c', .long (lit "jobs"), .short 'j', .short 'D', .long (lit "color"), .long (lit "level"), .long (lit "offset"),
      .long (lit "pattern")] := by decide

/-- Two arguments with the same short name are rejected, also through an alias; malformed names too. -/
example : deriveArgs Sample.cx none [.arg (lit "aa") .bool { short := some .inherit }, .arg (lit "ab") .bool { short := some .inherit }]
      matches .error [.duplicatedName] ∧
    deriveArgs Sample.cx none [.arg (lit "aa") .bool { long := some .inherit }, .arg (lit "ab") .bool { short := some .inherit, alias := [lit "aa"] }]
      matches .error [.duplicatedName] ∧
    deriveArgs Sample.cx none [.arg (lit "aa") .bool { long := some (.explicit (lit "a=b")) }] matches .error [.longName] ∧
    deriveArgs Sample.cx none [.arg (lit "aa") .bool { short := some (.explicit '-') }] matches .error [.shortName] := by decide

/-! ## C42 -/

/-- C42 does not hold (finding 2): an enum with two variants of the same name is accepted. -/
theorem C42_duplicate_accepted :
    ∃ vdecls : List (VariantDecl Sample.Val), DerivedVariants Sample.cx (deriveSub Sample.cx vdecls)
      ∧ ¬ (deriveSub Sample.cx vdecls).names.Nodup ∧ (deriveSub Sample.cx vdecls).names = [lit "foo-bar", lit "foo-bar"] :=
  ⟨[.unit (lit "Foo_Bar") none, .unit (lit "Foo_bar") none], .mk _ (by simp) rfl, by decide, by decide⟩

/-- C42: what does hold, also for colliding names: looking up a subcommand finds a variant with exactly that name, and fails only
if there is none.  Missing: that the variant is the only one with that name. -/
theorem C42_lookup_partial (vs : Variants V) (ident : Str) (opt : Bool) (b : Bytes) :
    ∃ si, (SubField.some ident opt vs).info = some si ∧
      (∀ n i, si.search b = some (n, i) → vs.names[i]? = some n ∧ enc n = b) ∧
      (si.search b = none → ∀ n ∈ vs.names, enc n ≠ b) := by
  refine ⟨_, by rw [SubField.info], ?_, ?_⟩
  all_goals
    have hs := sortByKey_sorted (fun e : Str × Nat => enc e.1) vs.names.zipIdx
    have hl := table_lookup (subcmdMap vs.names) hs b
    have hmem : ∀ e, e ∈ subcmdMap vs.names ↔ vs.names[e.2]? = some e.1 := by
      intro e
      unfold subcmdMap
      rw [(sortByKey_perm _ _).mem_iff]
      obtain ⟨n, i⟩ := e
      exact List.mem_zipIdx_iff_getElem?
  · intro n i hsr
    unfold SubcmdInfo.search at hsr
    rcases hl with ⟨e, he, hek, hr⟩ | ⟨_, hr⟩
    · have : some e = some (n, i) := hr.symm.trans hsr
      cases this
      exact ⟨(hmem _).1 he, hek⟩
    · simp only at hsr; rw [hr] at hsr; cases hsr
  · intro hsr n hn hb
    unfold SubcmdInfo.search at hsr
    rcases hl with ⟨e, he, hek, hr⟩ | ⟨hno, _⟩
    · have : some e = none := hr.symm.trans hsr
      cases this
    · obtain ⟨i, hi⟩ := List.getElem?_of_mem hn
      exact hno (n, i) ((hmem _).2 hi) hb

example : ∃ si, (subOf Sample.cli).info = some si ∧ si.search (blit "run") = some (lit "run", 1) ∧ si.search (blit "Run") = none := by
  cases h : (subOf Sample.cli).info with
  | none => exact absurd (congrArg Option.isSome h) (by decide +kernel)
  | some si =>
    refine ⟨si, rfl, ?_, ?_⟩
    · have : ((subOf Sample.cli).info.map (·.search (blit "run"))) = some (some (lit "run", 1)) := by decide +kernel
      rw [h] at this; simpa using this
    · have : ((subOf Sample.cli).info.map (·.search (blit "Run"))) = some none := by decide +kernel
      rw [h] at this; simpa using this

/-! ## C45 -/

/-- C45: a packed list of names decodes to the names. -/
theorem C45_names (xs : List Str) (h : ∀ x ∈ xs, Char.ofNat 0 ∉ x) : splitTerminator nul (packNul xs) = xs :=
  splitTerminator_packNul xs h

/-- C45: the description of every field of an accepted struct is found under its index, and nothing elsewhere. -/
theorem C45_descriptions (h : deriveArgs cx cmeta ds = .ok d) (i : Nat) :
    d.info.getDescription i = ((coreOf d).fields[i]?).map (fun f : FieldInfo V => f.description) := by
  have wf := accepted_wf h
  obtain ⟨core, flats, sub⟩ := d
  rw [getDescription_packNul _ (core.fields.map (fun f : FieldInfo V => f.description)) rfl, List.getElem?_map]
  · rfl
  · intro x hx
    obtain ⟨f, hf, rfl⟩ := List.mem_map.1 hx
    obtain ⟨k, hk⟩ := List.getElem?_of_mem hf
    exact (wf.fields k f hk).noNul

/-- C45: the possible values shown for an accepted enum are exactly its names. -/
theorem C45_possible_values {vs : List (Str × V)} {e : EnumDef V} (h : deriveValueEnum vs = .ok e) :
    ∃ ns : List Str, ns.Perm (vs.map Prod.fst) ∧
      possibleValues e.possibleInputsNul = lit "[possible values: " ++ List.intercalate (lit ", ") ns ++ lit "]" := by
  unfold deriveValueEnum at h
  simp only at h
  obtain ⟨⟨he, _⟩, h⟩ := ite_ok h
  subst h
  have hctl : ∀ v ∈ vs, v.1.any isAsciiControl = false := by
    intro v hv
    rw [List.flatMap_eq_nil_iff] at he
    have := he v hv
    cases hc : v.1.any isAsciiControl with
    | false => rfl
    | true => rw [hc] at this; simp at this
  have hok : vs.filter (fun v => !v.1.any isAsciiControl) = vs := by
    rw [List.filter_eq_self]
    intro v hv; simp only [Bool.not_eq_true']; exact hctl v hv
  rw [hok]
  have hp := sortByKey_perm (fun e : Str × V => enc e.1) vs
  refine ⟨(sortByKey (fun e => enc e.1) vs).map Prod.fst, hp.map _, ?_⟩
  unfold possibleValues
  rw [splitTerminator_packNul]
  intro x hx hn
  obtain ⟨v, hv, rfl⟩ := List.mem_map.1 hx
  have := hctl v (hp.mem_iff.1 hv)
  rw [List.any_eq_false] at this
  exact this nul hn (by decide)

/-- C45: the subcommand names listed in help are the names of the variants, in order. -/
theorem C45_subcommands (vs : Variants V) (h : ∀ x ∈ vs.names, Char.ofNat 0 ∉ x) (info : ArgsInfo) {ident : Str} {opt : Bool}
    (hi : info.subcmdInfo = (SubField.some ident opt vs).info) :
    ∃ l, info.subcommandsWithHelp = some l ∧ l.map Prod.fst = vs.names ∧ l.map Prod.snd = vs.helps := by
  rw [SubField.info] at hi
  refine ⟨vs.names.zip vs.helps, ?_, ?_⟩
  · unfold ArgsInfo.subcommandsWithHelp
    rw [hi]
    simp only
    rw [splitTerminator_packNul _ h]
  · have hlen := variants_lengths vs
    constructor
    · exact List.map_fst_zip (Nat.le_of_eq hlen)
    · exact List.map_snd_zip (Nat.le_of_eq hlen.symm)

/-- C45: compile-time concatenation gives the concatenated text. -/
theorem C45_concat (strs : List Str) : constConcat strs = some strs.flatten := constConcat_eq strs

example : splitTerminator nul (packNul [lit "a", lit "", lit "bc"]) = [lit "a", lit "", lit "bc"]
    ∧ Sample.cli.info.getDescription 8 = some (lit "[FILE]") ∧ Sample.cli.info.getDescription 9 = none
    ∧ constConcat [lit "ä", lit "", lit "€x"] = some (lit "ä€x") := by decide +kernel

/-- A name containing NUL would be split: the hypothesis is needed. -/
example : splitTerminator nul (packNul [['a', Char.ofNat 0, 'b']]) ≠ [['a', Char.ofNat 0, 'b']] := by decide

end Palc
