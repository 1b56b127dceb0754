import Verif.Lemmas.Mistakes
import Verif.Props.Macros
/-!
# Mistakes do not hide each other (C93)

The macros collect errors: what is wrong with some of the fields or variants is reported whatever else there is, right or wrong.
-/

namespace Palc

open Spec

variable {V : Type} {cx : SrcCx V} {env : TyExpr → TyInfo V} {input : Input V}

/-- What `derive(Args)`/`derive(Parser)` reports for part of the fields of a struct, it also reports for the struct.  Excepted are
references to other fields, which may be among the others, and the combination of a flattened struct with an exclusive argument, which
is not noticed if another mistake concerns the exclusive one (`C93_unnoticed`). -/
theorem C93_struct {fields' fields : List (SrcField V)} (hs : fields'.Sublist fields) (hl : fields.length ≤ 254) {es' : List SrcError}
    (h : expandArgs cx env { input with data := .structNamed fields' } = .errors es') {e : SrcError} (he : e ∈ es') (hx : OfMacro e)
    (hy : e ≠ .derive .fieldNotFound ∧ e ≠ .derive .exclusiveFlatten) :
    ∃ es, expandArgs cx env { input with data := .structNamed fields } = .errors es ∧ e ∈ es := by
  unfold expandArgs at h ⊢
  dsimp only at h ⊢
  by_cases hg : input.generics = true
  · rw [if_pos hg] at h ⊢
    cases h
    exact ⟨_, rfl, he⟩
  · rw [if_neg hg] at h ⊢
    generalize parseCommandAttrs cx.pkgDescription input.attrs = r at h ⊢
    obtain ⟨cmeta, errs⟩ := r
    dsimp only at h ⊢
    -- errors of the attributes of the struct
    have hattr : e ∈ errs → ∃ es, (match deriveFields cx env cmeta fields with
        | .ok d => if errs = [] then Expansion.ok d else .errors errs
        | .errors es => .errors (errs ++ es)
        | .panic => .panic) = Expansion.errors es ∧ e ∈ es := by
      intro hm
      have hne : errs ≠ [] := fun hn => by rw [hn] at hm; cases hm
      cases hd : deriveFields cx env cmeta fields with
      | ok d => exact ⟨errs, by simp [hne], hm⟩
      | errors es => exact ⟨_, rfl, List.mem_append_left _ hm⟩
      | panic => exact absurd hd deriveFields_panic
    cases hd : deriveFields cx env cmeta fields' with
    | ok d =>
      rw [hd] at h
      dsimp only at h
      split at h
      · cases h
      · cases h; exact hattr he
    | errors es1 =>
      rw [hd] at h
      cases h
      rcases List.mem_append.1 he with he | he
      · exact hattr he
      · obtain ⟨es2, h1, h2⟩ := deriveFields_mono (cmeta := cmeta) hs hl hd he hx hy
        rw [h1]
        exact ⟨_, rfl, List.mem_append_right _ h2⟩
    | panic => exact absurd hd deriveFields_panic

/-- What `derive(Subcommand)` reports for some of the variants of an enum, it also reports for the enum, unless it panics (when it
does is stated by C59).  Only errors of the macro are claimed here, since rustc gets to see nothing if there are any. -/
theorem C93_variants {vs' vs : List (SrcVariant V)} (hs : vs'.Sublist vs) {es' : List SrcError}
    (h : expandSubcommand cx env { input with data := .enum vs' } = .errors es') {e : SrcError} (he : e ∈ es') (_hx : OfMacro e)
    (hp : expandSubcommand cx env { input with data := .enum vs } ≠ .panic) :
    ∃ es, expandSubcommand cx env { input with data := .enum vs } = .errors es ∧ e ∈ es := by
  unfold expandSubcommand at h hp ⊢
  dsimp only at h hp ⊢
  by_cases hg : input.generics = true
  · rw [if_pos hg] at h ⊢
    cases h
    exact ⟨_, rfl, he⟩
  · rw [if_neg hg] at h hp ⊢
    have hm : e ∈ (vs.map (expandVariant cx env)).flatMap (·.1) := by
      split at h
      · cases h
      · split at h
        · cases h
        · cases h
          obtain ⟨y, h1, h2⟩ := List.mem_flatMap.1 he
          exact List.mem_flatMap.2 ⟨y, (hs.map _).subset h1, h2⟩
    split at hp
    · exact absurd rfl hp
    · rename_i hn
      rw [if_neg hn, if_neg (fun hx => by rw [hx] at hm; cases hm)]
      exact ⟨_, rfl, hm⟩

/-- Mistakes in the attributes of a variant (those reported if it had no fields) are reported whatever is wrong with its fields or with
other variants. -/
theorem C93_variant_attributes {vs : List (SrcVariant V)} {v : SrcVariant V} (hv : v ∈ vs) {es' : List SrcError}
    (h : expandSubcommand cx env { input with data := .enum [{ v with fields := .unit }] } = .errors es') {e : SrcError} (he : e ∈ es')
    (hp : expandSubcommand cx env { input with data := .enum vs } ≠ .panic) :
    ∃ es, expandSubcommand cx env { input with data := .enum vs } = .errors es ∧ e ∈ es := by
  unfold expandSubcommand at h hp ⊢
  dsimp only at h hp ⊢
  by_cases hg : input.generics = true
  · rw [if_pos hg] at h ⊢
    cases h
    exact ⟨_, rfl, he⟩
  · rw [if_neg hg] at h hp ⊢
    have hm : e ∈ (vs.map (expandVariant cx env)).flatMap (·.1) := by
      split at h
      · cases h
      · split at h
        · cases h
        · cases h
          refine List.mem_flatMap.2 ⟨_, List.mem_map.2 ⟨v, hv, rfl⟩, ?_⟩
          simp only [List.map_cons, List.map_nil, List.flatMap_cons, List.flatMap_nil, List.append_nil, expandVariant] at he
          unfold expandVariant
          dsimp only
          split
          · exact he
          · split
            · exact List.mem_append_left _ he
            · exact List.mem_append_left _ (List.mem_append_left _ he)
          · exact List.mem_append_left _ he
          · split
            · exact List.mem_append_left _ he
            · split
              · exact he
              · exact List.mem_append_left _ he
              · exact he
    split at hp
    · exact absurd rfl hp
    · rename_i hn
      rw [if_neg hn, if_neg (fun hx => by rw [hx] at hm; cases hm)]
      exact ⟨_, rfl, hm⟩

/-- In particular: a field that is wrong by itself is reported in any struct that has it. -/
theorem C93_field {fields : List (SrcField V)} {f : SrcField V} (hf : f ∈ fields) (hl : fields.length ≤ 254) {es' : List SrcError}
    (h : expandArgs cx env { input with data := .structNamed [f] } = .errors es') {e : SrcError} (he : e ∈ es') (hx : OfMacro e)
    (hy : e ≠ .derive .fieldNotFound ∧ e ≠ .derive .exclusiveFlatten) :
    ∃ es, expandArgs cx env { input with data := .structNamed fields } = .errors es ∧ e ∈ es :=
  C93_struct (List.singleton_sublist.2 hf) hl h he hx hy

theorem deriveValueEnum_mono {xs' xs : List (Str × V)} (hs : xs'.Sublist xs) {es' : List DeriveError}
    (h : deriveValueEnum xs' = .error es') {e : DeriveError} (he : e ∈ es') : ∃ es, deriveValueEnum xs = .error es ∧ e ∈ es := by
  unfold deriveValueEnum at h
  dsimp only at h
  split at h
  · cases h
  · cases h
    unfold deriveValueEnum
    dsimp only
    rcases List.mem_append.1 he with he | he
    · have hm := List.mem_flatMap.1 he
      obtain ⟨x, h1, h2⟩ := hm
      have hm : e ∈ xs.flatMap (fun v => if v.1.any isAsciiControl then [DeriveError.valueControl] else []) :=
        List.mem_flatMap.2 ⟨x, hs.subset h1, h2⟩
      rw [if_neg (fun hn => by rw [hn.1] at hm; cases hm)]
      exact ⟨_, rfl, List.mem_append_left _ hm⟩
    · split at he
      · rename_i hdup
        have hfs := hs.filter (fun v : Str × V => !v.1.any isAsciiControl)
        have hdup' : ((sortByKey (fun e : Str × V => enc e.1) (xs.filter (fun v => !v.1.any isAsciiControl))).zip
            ((sortByKey (fun e : Str × V => enc e.1) (xs.filter (fun v => !v.1.any isAsciiControl))).drop 1)).any
              (fun w => decide (w.1.1 = w.2.1)) = true := by
          cases hc : ((sortByKey (fun e : Str × V => enc e.1) (xs.filter (fun v => !v.1.any isAsciiControl))).zip
            ((sortByKey (fun e : Str × V => enc e.1) (xs.filter (fun v => !v.1.any isAsciiControl))).drop 1)).any
              (fun w => decide (w.1.1 = w.2.1)) with
          | true => rfl
          | false =>
            have hn := adjacent_distinct (key := fun e : Str × V => enc e.1) (name := Prod.fst) (fun _ => rfl) (sortByKey_sorted _ _) hc
            have hn' := ((sortByKey_perm _ _).map Prod.fst).nodup_iff.1 hn
            have hn'' := hn'.sublist (hfs.map Prod.fst)
            rw [distinct_adjacent (name := Prod.fst) (((sortByKey_perm _ _).map Prod.fst).nodup_iff.2 hn'')] at hdup
            cases hdup
        rw [if_neg (fun hn => by rw [hn.2] at hdup'; cases hdup'), if_pos hdup']
        exact ⟨_, rfl, List.mem_append_right _ he⟩
      · cases he

/-- What `derive(ValueEnum)` reports for some of the variants of an enum, it also reports for the enum. -/
theorem C93_value_enum {attrs : List (Attr Unit)} {vs' vs : List (EnumVariant V)} (hs : vs'.Sublist vs) {es' : List SrcError}
    (h : expandValueEnum cx attrs (some vs') = .errors es') {e : SrcError} (he : e ∈ es') :
    ∃ es, expandValueEnum cx attrs (some vs) = .errors es ∧ e ∈ es := by
  unfold expandValueEnum at h ⊢
  dsimp only at h ⊢
  generalize parseValueAttrs enumUpdate none attrs = r at h ⊢
  obtain ⟨rename, errs⟩ := r
  dsimp only at h ⊢
  have hmap := hs.map (variantName cx (rename.getD .kebabCase))
  have early : e ∈ errs ++ (vs'.map (variantName cx (rename.getD .kebabCase))).flatMap (·.1) →
      e ∈ errs ++ (vs.map (variantName cx (rename.getD .kebabCase))).flatMap (·.1) := by
    intro hm
    rcases List.mem_append.1 hm with hm | hm
    · exact List.mem_append_left _ hm
    · obtain ⟨y, h1, h2⟩ := List.mem_flatMap.1 hm
      exact List.mem_append_right _ (List.mem_flatMap.2 ⟨y, hmap.subset h1, h2⟩)
  have done : e ∈ errs ++ (vs.map (variantName cx (rename.getD .kebabCase))).flatMap (·.1) →
      ∃ es, (match deriveValueEnum ((vs.map (variantName cx (rename.getD .kebabCase))).filterMap (·.2)) with
        | .ok e => if errs ++ (vs.map (variantName cx (rename.getD .kebabCase))).flatMap (·.1) = [] then Expansion.ok e
          else .errors (errs ++ (vs.map (variantName cx (rename.getD .kebabCase))).flatMap (·.1))
        | .error es => .errors (errs ++ (vs.map (variantName cx (rename.getD .kebabCase))).flatMap (·.1) ++ es.map .derive))
          = Expansion.errors es ∧ e ∈ es := by
    intro hm
    split
    · rw [if_neg (fun hn => by rw [hn] at hm; cases hm)]
      exact ⟨_, rfl, hm⟩
    · exact ⟨_, rfl, List.mem_append_left _ hm⟩
  split at h
  · split at h
    · cases h
    · cases h
      exact done (early he)
  · rename_i es1 h1
    cases h
    rcases List.mem_append.1 he with he | he
    · exact done (early he)
    · obtain ⟨x, h2, rfl⟩ := List.mem_map.1 he
      obtain ⟨es2, h3, h4⟩ := deriveValueEnum_mono (hmap.filterMap (·.2)) h1 h2
      rw [h3]
      exact ⟨_, rfl, List.mem_append_right _ (List.mem_map.2 ⟨x, h4, rfl⟩)⟩

/-! ## Cases -/

namespace Sample

/-- The errors reported. -/
def reported {α : Type} : Expansion α → List SrcError
  | .errors es => es
  | _ => []

/-- `-verbose`, which is no name. -/
def badName : SrcField Val := { ident := lit "verbose", ty := boolTy, attrs := [.arg (some [str "long" "-verbose"])] }
/-- Unknown attributes. -/
def badAttr : SrcField Val := { ident := lit "color", ty := boolTy, attrs := [.arg (some [bare "long", bare "colour"])] }
/-- Two subcommands. -/
def sub1 : SrcField Val := { ident := lit "one", ty := named "Cmd", attrs := [.command (some [bare "subcommand"])] }
def sub2 : SrcField Val := { ident := lit "two", ty := named "Cmd", attrs := [.command (some [bare "subcommand"])] }

-- Three mistakes of a struct, all reported.
example : reported (expandArgs srcCx srcEnv { data := .structNamed [sub1, badName, badAttr, sub2] })
    = [.unknownAttr, .derive .longName, .derive .duplicatedSubcommand] := by decide +kernel

/-- The name stays wrong, whatever is added. -/
example {before after : List (SrcField Val)} (hl : before.length + after.length ≤ 253) :
    ∃ es, expandArgs srcCx srcEnv { data := .structNamed (before ++ badName :: after) } = .errors es ∧ .derive .longName ∈ es :=
  C93_field (input := { data := .structOther }) (f := badName) (by simp) (by simp; omega) (es' := [.derive .longName])
    (by rfl) (by simp) (by decide) (by decide)

/-- Two subcommands stay a mistake. -/
example {before between after : List (SrcField Val)} (hl : before.length + between.length + after.length ≤ 252) :
    ∃ es, expandArgs srcCx srcEnv { data := .structNamed (before ++ sub1 :: (between ++ sub2 :: after)) } = .errors es
      ∧ .derive .duplicatedSubcommand ∈ es :=
  C93_struct (input := { data := .structOther }) (fields' := [sub1, sub2])
    ((List.Sublist.cons_cons _ (List.singleton_sublist.2 (by simp))).trans (List.sublist_append_right _ _)) (by simp; omega)
    (es' := [.derive .duplicatedSubcommand]) (by rfl) (by simp) (by decide) (by decide)

/-- A struct variant with a bad field. -/
example {before after : List (SrcVariant Val)}
    (hp : expandSubcommand srcCx srcEnv { data := .enum (before ++ { ident := lit "Add", fields := .named [badName] } :: after) } ≠ .panic) :
    ∃ es, expandSubcommand srcCx srcEnv { data := .enum (before ++ { ident := lit "Add", fields := .named [badName] } :: after) } = .errors es
      ∧ .derive .longName ∈ es :=
  C93_variants (input := { data := .structOther }) (vs' := [{ ident := lit "Add", fields := .named [badName] }])
    (List.singleton_sublist.2 (by simp)) (es' := [.derive .longName]) (by rfl) (by simp) (by decide) hp

/-- A variant with an unknown attribute and a bad field: both are reported. -/
def badVariant : SrcVariant Val :=
  { ident := lit "Add", attrs := [.command (some [⟨lit "colour", .bare⟩])], fields := .named [badName] }

example : reported (expandSubcommand srcCx srcEnv { data := .enum [badVariant] }) = [.unknownAttr, .derive .longName] := by
  decide +kernel

example {before after : List (SrcVariant Val)}
    (hp : expandSubcommand srcCx srcEnv { data := .enum (before ++ badVariant :: after) } ≠ .panic) :
    ∃ es, expandSubcommand srcCx srcEnv { data := .enum (before ++ badVariant :: after) } = .errors es ∧ .unknownAttr ∈ es :=
  C93_variant_attributes (input := { data := .structOther }) (v := badVariant) (by simp) (es' := [.unknownAttr]) (by rfl) (by simp) hp

/-- Two variants named `fast`, and one with a tab in its name. -/
def fast1 : EnumVariant Val := { ident := lit "Fast", value := lit "Fast" }
def fast2 : EnumVariant Val := { ident := lit "Quick", value := lit "Quick", attrs := [.value (some [⟨lit "name", .eq (some (.str (lit "fast"))) none⟩])] }
def tabbed : EnumVariant Val := { ident := lit "Odd", value := lit "Odd", attrs := [.value (some [⟨lit "name", .eq (some (.str (lit "o\td"))) none⟩])] }
/-- Not a unit variant. -/
def custom : EnumVariant Val := { ident := lit "Custom", value := lit "Custom", unit := false }

-- All three mistakes are reported.
example : reported (expandValueEnum srcCx [] (some [fast1, tabbed, custom, fast2]))
    = [.nonUnitVariant, .derive .valueControl, .derive .duplicatedValue] := by decide +kernel

/-- Two variants of the same name stay a mistake, whatever is around them. -/
example {before between after : List (EnumVariant Val)} :
    ∃ es, expandValueEnum srcCx [] (some (before ++ fast1 :: (between ++ fast2 :: after))) = .errors es ∧ .derive .duplicatedValue ∈ es :=
  C93_value_enum (vs' := [fast1, fast2])
    ((List.Sublist.cons_cons _ (List.singleton_sublist.2 (by simp))).trans (List.sublist_append_right _ _))
    (es' := [.derive .duplicatedValue]) (by rfl) (by simp)

/-- `output` flattened, a list `files` and an exclusive `file`. -/
def flat : SrcField Val := { ident := lit "output", ty := named "OutputArgs", attrs := [.command (some [bare "flatten"])] }
def many : SrcField Val := { ident := lit "files", ty := vecOf (named "String") }
def alone : SrcField Val := { ident := lit "file", ty := optionOf (named "String"), attrs := [.arg (some [tru "exclusive"])] }

end Sample

/-- The exceptions are needed: the combination of `output` and the exclusive `file` is not reported if `file` follows a list, which is
reported instead; a reference may be to a field that is added; with more than 254 fields nothing else is reported. -/
theorem C93_unnoticed :
    Sample.reported (expandArgs Sample.srcCx Sample.srcEnv { data := .structNamed [Sample.flat, Sample.alone] }) = [.derive .exclusiveFlatten]
    ∧ Sample.reported (expandArgs Sample.srcCx Sample.srcEnv { data := .structNamed [Sample.flat, Sample.many, Sample.alone] })
      = [.derive .positionalAfterVarArg]
    ∧ Sample.reported (expandArgs Sample.srcCx Sample.srcEnv { data := .structNamed (List.replicate 255 Sample.badName) })
      = [.derive .tooManyFields] := by
  decide +kernel

end Palc
