import Verif.Lemmas.SourceCommand
/-!
# Attributes (C51, C52, C53)

C51: the attributes of a field are accepted exactly if each of them is documented, its value has the
documented form, no setting is made twice and `command(..)` is not mixed with `arg(..)`.

C52: accepted attributes have the meaning given by the table in `Verif/SpecSource.lean`, however they are
grouped and ordered.

C53: the same for the attributes of structs and enum variants, and for `command(subcommand)` and
`command(flatten)` on fields.
-/

namespace Palc

open Spec

variable {V E : Type} {isIdent : Str → Bool} {attrs attrs' : List (Attr (DefaultOut V × Str))}

namespace Sample

abbrev A := Attr (DefaultOut Str × Str)
abbrev I := Item (DefaultOut Str × Str)

/-- Identifiers for the examples. -/
def ident (s : Str) : Bool := !s.isEmpty && s.all (fun c => c.isAlphanum || c = '_')

def bare (p : String) : I := ⟨lit p, .bare⟩
def str (p v : String) : I := ⟨lit p, .eq (some (.str (lit v))) (some (.one (lit v), lit v))⟩
def chr (p : String) (c : Char) : I := ⟨lit p, .eq (some (.char c)) none⟩
def tru (p : String) : I := ⟨lit p, .eq (some (.bool true)) (some (.bool true, lit "true"))⟩

/-- `#[doc = " Size"] #[arg(short, long = "size", value_delimiter = ',')] #[arg(alias = "sz", alias = "s", required = true)]`. -/
def sizeAttrs : List A :=
  [.doc (some (lit " Size")), .arg (some [bare "short", str "long" "size", chr "value_delimiter" ',']), .other,
   .arg (some [str "alias" "sz", str "alias" "s", tru "required"])]

end Sample

/-! ## C51 -/

theorem C51_accepted_iff : (parseFieldAttrs (V := V) isIdent attrs).2 = [] ↔ AttrsOk isIdent attrs :=
  parseFieldAttrs_ok

theorem nodup_split {α : Type} {xs ys zs : List α} {a : α} : ¬ (xs ++ a :: ys ++ a :: zs).Nodup := by
  intro h
  rw [List.append_assoc, List.nodup_append] at h
  have := h.2.1
  rw [List.cons_append, List.nodup_cons] at this
  exact this.1 (by simp)

/-- The same setting twice, in one `#[arg(..)]` or in two. -/
theorem C51_duplicate {xs ys zs : List (Item (DefaultOut V × Str))} {a b : Item (DefaultOut V × Str)} {k k' s : Key}
    (hi : argItems attrs = xs ++ a :: ys ++ b :: zs) (ha : keyOf a.path = some k) (hb : keyOf b.path = some k')
    (hk : k.setting = some s) (hk' : k'.setting = some s) : (parseFieldAttrs (V := V) isIdent attrs).2 ≠ [] := by
  intro h
  have := (C51_accepted_iff.mp h).once
  rw [hi] at this
  simp only [settings, List.filterMap_append, List.filterMap_cons, ha, hb, Option.bind_some, hk, hk'] at this
  exact nodup_split this

/-- An attribute palc does not know. -/
theorem C51_unknown {it : Item (DefaultOut V × Str)} (hit : it ∈ argItems attrs) (h : ∀ e ∈ attrTable, it.path ≠ lit e.1) :
    (parseFieldAttrs (V := V) isIdent attrs).2 ≠ [] := by
  intro hc
  obtain ⟨k, hk, _⟩ := (C51_accepted_iff.mp hc).items it hit
  rw [keyOf_ne h] at hk
  cases hk

/-- A switch can only be turned on. -/
theorem C51_false {it : Item (DefaultOut V × Str)} {e : Option (DefaultOut V × Str)} (hit : it ∈ argItems attrs)
    (hp : it.path ∈ ([("require_equals" : String), "global", "allow_hyphen_values", "allow_negative_numbers", "trailing_var_arg",
      "last", "use_value_delimiter", "ignore_case", "hide", "required", "exclusive"]).map lit)
    (hv : it.val = .eq (some (.bool false)) e) :
    (parseFieldAttrs (V := V) isIdent attrs).2 ≠ [] := by
  intro hc
  obtain ⟨k, hk, hf⟩ := (C51_accepted_iff.mp hc).items it hit
  have key : ∀ p ∈ ([("require_equals" : String), "global", "allow_hyphen_values", "allow_negative_numbers", "trailing_var_arg",
      "last", "use_value_delimiter", "ignore_case", "hide", "required", "exclusive"]).map lit,
      keyOf p ∈ [some Key.requireEquals, some .global, some .allowHyphenValues, some .allowNegativeNumbers,
        some .trailingVarArg, some .last, some .useDelimiter, some .ignoreCase, some .hide, some .required,
        some .exclusive] := by decide +kernel
  have := key _ hp
  rw [hk] at this
  rw [hv] at hf
  simp only [List.mem_cons, Option.some.injEq, List.not_mem_nil, or_false] at this
  rcases this with rfl | rfl | rfl | rfl | rfl | rfl | rfl | rfl | rfl | rfl | rfl <;>
    · obtain ⟨_, h⟩ := hf
      cases h

/-- Aliases, references to other fields and undocumented attributes outside `#[arg(..)]` never clash. -/
theorem C51_repeatable {i : List (Item (DefaultOut V × Str))} (hattrs : AttrsOk isIdent attrs) (hc : commands attrs = [])
    (hi : ∀ it ∈ i, ∃ k, keyOf it.path = some k ∧ k.setting = none ∧ Form isIdent k it.val) :
    (parseFieldAttrs (V := V) isIdent (attrs ++ [.arg (some i)])).2 = [] := by
  rw [C51_accepted_iff]
  have e1 : argItems (attrs ++ [.arg (some i)]) = argItems attrs ++ i := by rw [argItems_append]; simp [argItems]
  have e2 : commands (attrs ++ [.arg (some i)]) = commands attrs := by rw [commands_append]; simp [commands]
  refine ⟨?_, ?_, ?_, by rw [e2]; exact hattrs.one, by rw [e2]; exact Or.inl hc⟩
  · intro b hb
    rcases List.mem_append.mp hb with hb | hb
    · exact hattrs.forms b hb
    · simp only [List.mem_singleton] at hb; subst hb; simp [AttrForm]
  · rw [e1]
    intro it h
    rcases List.mem_append.mp h with h | h
    · exact hattrs.items it h
    · obtain ⟨k, h1, _, h3⟩ := hi it h; exact ⟨k, h1, h3⟩
  · rw [e1, settings_append]
    have : settings i = [] := by
      unfold settings
      rw [List.filterMap_eq_nil_iff]
      intro it h
      obtain ⟨k, h1, h2, _⟩ := hi it h
      rw [h1]; exact h2
    rw [this, List.append_nil]
    exact hattrs.once

namespace Sample

example : (parseFieldAttrs ident sizeAttrs).2 = [] := by decide +kernel
example : AttrsOk ident sizeAttrs := C51_accepted_iff.mp (by decide +kernel)
-- `value_delimiter = ','` and `use_value_delimiter = true` are the same setting.
example : (parseFieldAttrs ident (sizeAttrs ++ [.arg (some [tru "use_value_delimiter"])])).2 ≠ [] :=
  C51_duplicate (xs := [bare "short", str "long" "size"]) (a := chr "value_delimiter" ',')
    (ys := [str "alias" "sz", str "alias" "s", tru "required"]) (b := tru "use_value_delimiter") (zs := [])
    rfl rfl rfl rfl rfl
example : (parseFieldAttrs ident [.arg (some [str "longg" "size"] : Option (List I))]).2 ≠ [] :=
  C51_unknown (it := str "longg" "size") (by simp [argItems]) (by decide +kernel)
example : (parseFieldAttrs ident [.arg (some [⟨lit "global", .eq (some (.bool false)) none⟩] : Option (List I))]).2 ≠ [] :=
  C51_false (it := ⟨lit "global", .eq (some (.bool false)) none⟩) (by simp [argItems]) (by decide +kernel) rfl
example : (parseFieldAttrs ident (sizeAttrs ++ [.arg (some [str "alias" "sz"])])).2 = [] :=
  C51_repeatable (C51_accepted_iff.mp (by decide +kernel)) (by decide +kernel) (by
    intro it h
    simp only [List.mem_singleton] at h
    subst h
    exact ⟨.alias, by decide +kernel, rfl, Or.inl ⟨lit "sz", _, rfl⟩⟩)

end Sample

/-! ## C52 -/

/-- An accepted field without `command(..)` is an argument with the settings of the table. -/
theorem C52_meaning (h : (parseFieldAttrs (V := V) isIdent attrs).2 = []) (hc : commands attrs = []) :
    parseFieldAttrs isIdent attrs = (.arg (metaOf (docOf (docLines attrs)) (argItems attrs)), []) := by
  have := parseFieldAttrs_fst (C51_accepted_iff.mp h)
  rw [hc] at this
  exact Prod.ext this h

/-- Splitting an `#[arg(..)]` into two, or joining two, changes nothing. -/
theorem C52_grouping {pre post : List (Attr (DefaultOut V × Str))} {i j : List (Item (DefaultOut V × Str))} :
    (parseFieldAttrs (V := V) isIdent (pre ++ .arg (some (i ++ j)) :: post)).2 = []
      ↔ (parseFieldAttrs (V := V) isIdent (pre ++ .arg (some i) :: .arg (some j) :: post)).2 = [] := by
  rw [C51_accepted_iff, C51_accepted_iff]
  have e1 : argItems (pre ++ .arg (some (i ++ j)) :: post) = argItems (pre ++ .arg (some i) :: .arg (some j) :: post) := by
    simp [argItems]
  have e2 : commands (pre ++ .arg (some (i ++ j)) :: post) = commands (pre ++ .arg (some i) :: .arg (some j) :: post) := by
    simp [commands]
  have e3 : hasArg (pre ++ .arg (some (i ++ j)) :: post) = hasArg (pre ++ .arg (some i) :: .arg (some j) :: post) := by
    simp [hasArg]
  have e4 : (∀ a ∈ pre ++ .arg (some (i ++ j)) :: post, AttrForm a)
      ↔ ∀ a ∈ pre ++ .arg (some i) :: .arg (some j) :: post, AttrForm a := by
    simp [or_imp, forall_and, AttrForm]
  constructor
  · intro h
    exact ⟨e4.mp h.forms, e1 ▸ h.items, e1 ▸ h.once, e2 ▸ h.one, e2 ▸ e3 ▸ h.excl⟩
  · intro h
    exact ⟨e4.mpr h.forms, e1 ▸ h.items, e1 ▸ h.once, e2 ▸ h.one, e2 ▸ e3 ▸ h.excl⟩

/-- … nor does it change the meaning: only the sequence of items and of documentation lines matters. -/
theorem C52_grouping_meaning (h : (parseFieldAttrs (V := V) isIdent attrs).2 = [])
    (h' : (parseFieldAttrs (V := V) isIdent attrs').2 = []) (hi : argItems attrs = argItems attrs')
    (hd : docLines attrs = docLines attrs') (hc : commands attrs = []) (hc' : commands attrs' = []) :
    parseFieldAttrs isIdent attrs = parseFieldAttrs isIdent attrs' := by
  rw [C52_meaning h hc, C52_meaning h' hc', hi, hd]

/-- Equal settings; those that are lists up to their order. -/
structure SameMeta (m m' : ArgMeta V) : Prop where
  scalars : { m with alias := [], shortAlias := [], requires := [], conflictsWith := [] }
    = { m' with alias := [], shortAlias := [], requires := [], conflictsWith := [] }
  alias : m.alias.Perm m'.alias
  shortAlias : m.shortAlias.Perm m'.shortAlias
  requires : m.requires.Perm m'.requires
  conflictsWith : m.conflictsWith.Perm m'.conflictsWith

theorem settings_perm {xs ys : List (Item E)} (h : xs.Perm ys) : (settings xs).Perm (settings ys) :=
  h.filterMap _

theorem has_perm {xs ys : List (Item E)} (h : xs.Perm ys) (k : Key) : has k xs = has k ys := by
  rw [Bool.eq_iff_iff, has_iff, has_iff]
  exact ⟨fun ⟨it, h1, h2⟩ => ⟨it, h.mem_iff.mp h1, h2⟩, fun ⟨it, h1, h2⟩ => ⟨it, h.mem_iff.mpr h1, h2⟩⟩

theorem valueOf_mem {xs : List (Item E)} {k s : Key} (hk : k.setting = some s) (hn : (settings xs).Nodup) {it : Item E}
    (h : it ∈ xs) (hp : keyOf it.path = some k) : valueOf k xs = some it.val := by
  obtain ⟨l, r, rfl⟩ := List.append_of_mem h
  rw [settings_append, List.nodup_append] at hn
  have hs : s ∉ settings l := by
    intro hm
    refine hn.2.2 s hm s ?_ rfl
    exact settings_mem.mpr ⟨it, by simp, k, hp, hk⟩
  rw [valueOf_append, not_valueOf hk hs, Option.none_or]
  unfold valueOf
  simp [hp]

theorem valueOf_perm {xs ys : List (Item E)} (h : xs.Perm ys) {k s : Key} (hk : k.setting = some s)
    (hn : (settings xs).Nodup) : valueOf k xs = valueOf k ys := by
  cases hx : valueOf k xs with
  | some v =>
    obtain ⟨it, h1, h2, rfl⟩ := valueOf_some hx
    exact (valueOf_mem hk ((settings_perm h).nodup_iff.mp hn) (h.mem_iff.mp h1) h2).symm
  | none =>
    cases hy : valueOf k ys with
    | none => rfl
    | some v =>
      obtain ⟨it, h1, h2, rfl⟩ := valueOf_some hy
      rw [valueOf_mem hk hn (h.mem_iff.mpr h1) h2] at hx
      cases hx

theorem metaOf_perm {xs ys : List (Item (DefaultOut V × Str))} (h : xs.Perm ys) (hn : (settings xs).Nodup) (doc : Str) :
    SameMeta (metaOf doc xs) (metaOf doc ys) where
  scalars := by
    have hh := has_perm h
    have hv : ∀ {k s : Key}, k.setting = some s → valueOf k xs = valueOf k ys := fun hk => valueOf_perm h hk hn
    unfold metaOf
    dsimp only
    rw [hv (k := .long) rfl, hv (k := .short) rfl, hv (k := .valueName) rfl, hv (k := .defaultValue) rfl,
      hv (k := .defaultValueT) rfl, hv (k := .delimiter) rfl, hv (k := .help) rfl, hv (k := .longHelp) rfl]
    simp only [hh]
  alias := ((h.filter _).map _).flatMap_right _
  shortAlias := ((h.filter _).map _).flatMap_right _
  requires := ((h.filter _).map _).flatMap_right _
  conflictsWith := ((h.filter _).map _).flatMap_right _

/-- Reordering the items: acceptance and meaning stay the same. -/
theorem C52_order (hi : (argItems attrs).Perm (argItems attrs')) (hd : docLines attrs = docLines attrs')
    (hf : ∀ a ∈ attrs', AttrForm a) (hc : commands attrs = []) (hc' : commands attrs' = [])
    (h : (parseFieldAttrs (V := V) isIdent attrs).2 = []) :
    ∃ m m', parseFieldAttrs isIdent attrs = (.arg m, []) ∧ parseFieldAttrs isIdent attrs' = (.arg m', []) ∧ SameMeta m m' := by
  have ho := C51_accepted_iff.mp h
  have h' : (parseFieldAttrs (V := V) isIdent attrs').2 = [] := by
    rw [C51_accepted_iff]
    exact ⟨hf, fun it hit => ho.items it (hi.mem_iff.mpr hit), (settings_perm hi).nodup_iff.mp ho.once,
      by rw [hc']; simp, Or.inl hc'⟩
  refine ⟨_, _, C52_meaning h hc, C52_meaning h' hc', ?_⟩
  rw [← hd]
  exact metaOf_perm hi ho.once _

/-- `help`, `long_help` and `value_enum` are accepted and change neither what is accepted nor what is generated
(`src`, the record of what was written, is not part of the generated code). -/
theorem C52_ignored (cx : Cx V) (ident : Str) (ty : Ty V) (m : ArgMeta V) (help longHelp : Option Str) (ve : Bool) :
    argField cx ident ty { m with help := help, longHelp := longHelp, valueEnum := ve }
      = ((argField cx ident ty m).1,
         { (argField cx ident ty m).2 with src := { m with help := help, longHelp := longHelp, valueEnum := ve } }) := by
  unfold argField
  cases hm : m.isNamed with
  | true =>
    have : ArgMeta.isNamed { m with help := help, longHelp := longHelp, valueEnum := ve } = true := hm
    simp only [this, if_true]
    rfl
  | false =>
    have : ArgMeta.isNamed { m with help := help, longHelp := longHelp, valueEnum := ve } = false := hm
    simp only [this, Bool.false_eq_true, if_false]
    rfl

namespace Sample

example : parseFieldAttrs ident sizeAttrs = (.arg
    { doc := lit "Size", short := some .inherit, long := some (.explicit (lit "size")), valueDelimiter := some ',',
      alias := [lit "sz", lit "s"], required := true }, []) := by
  rw [C52_meaning (by decide +kernel) (by decide +kernel)]
  rfl

example : ∃ m m', parseFieldAttrs ident sizeAttrs = (.arg m, [])
    ∧ parseFieldAttrs ident [.arg (some [tru "required", str "alias" "s", str "alias" "sz", chr "value_delimiter" ',',
        str "long" "size"]), .doc (some (lit " Size")), .arg (some [bare "short"])] = (.arg m', []) ∧ SameMeta m m' := by
  refine C52_order ?_ rfl ?_ (by decide +kernel) (by decide +kernel) (by decide +kernel)
  · exact (List.reverse_perm (argItems sizeAttrs)).symm
  · simp [AttrForm]

end Sample

/-! ## C53 -/

/-- An accepted field with `command(..)` is a subcommand or a flattened struct. -/
theorem C53_field_command {c : ArgsCommand} (h : (parseFieldAttrs (V := V) isIdent attrs).2 = [])
    (hc : c ∈ commands attrs) : parseFieldAttrs isIdent attrs = (.command c, []) := by
  have ho := C51_accepted_iff.mp h
  have := parseFieldAttrs_fst ho
  have h1 := ho.one
  cases hcs : commands attrs with
  | nil => rw [hcs] at hc; cases hc
  | cons c' cs =>
    rw [hcs] at hc h1 this
    cases cs with
    | nil =>
      simp only [List.mem_singleton] at hc
      subst hc
      exact Prod.ext this h
    | cons _ _ => simp at h1

/-- `command(..)` together with `arg(..)`, in any order. -/
theorem C53_conflict {i : Option (List (Item (DefaultOut V × Str)))} {c : ArgsCommand} (hi : .arg i ∈ attrs)
    (hc : c ∈ commands attrs) : (parseFieldAttrs (V := V) isIdent attrs).2 ≠ [] := by
  intro h
  rcases (C51_accepted_iff.mp h).excl with h | h
  · rw [h] at hc; cases hc
  · unfold hasArg at h
    rw [List.any_eq_false] at h
    exact h _ hi rfl

/-- Two `command(..)`. -/
theorem C53_two_commands (h2 : 2 ≤ (commands attrs).length) : (parseFieldAttrs (V := V) isIdent attrs).2 ≠ [] := by
  intro h
  have := (C51_accepted_iff.mp h).one
  omega

/-- A `command(..)` of any other form. -/
theorem C53_malformed {i : Option (List (Item (DefaultOut V × Str)))} (hi : .command i ∈ attrs)
    (h1 : i ≠ some [⟨lit "subcommand", .bare⟩]) (h2 : i ≠ some [⟨lit "flatten", .bare⟩]) :
    (parseFieldAttrs (V := V) isIdent attrs).2 ≠ [] := by
  intro h
  rcases (C51_accepted_iff.mp h).forms _ hi with h | h
  · exact h1 h
  · exact h2 h

/-- Attributes of structs and enum variants: what is accepted. -/
theorem C53_container_iff {pkg : Str} {attrs : List (Attr Str)} : (parseCommandAttrs pkg attrs).2 = [] ↔ CmdAttrsOk attrs :=
  parseCommandAttrs_ok

/-- … and what it means. -/
theorem C53_container_meaning {pkg : Str} {attrs : List (Attr Str)} (h : (parseCommandAttrs pkg attrs).2 = []) :
    (parseCommandAttrs pkg attrs).1 =
      if hasCmd attrs = false ∧ docOf (docLines attrs) = [] then none
      else some (cmdMetaOf pkg (docOf (docLines attrs)) (cmdItems attrs)) :=
  parseCommandAttrs_fst (C53_container_iff.mp h)

/-- Every attribute other than the four supported ones is an error, also those clap has. -/
theorem C53_unsupported {pkg : Str} {attrs : List (Attr Str)} {it : Item Str} (hit : it ∈ cmdItems attrs)
    (hp : it.path ∉ ([("name" : String), "version", "long_about", "after_long_help"]).map lit) :
    (parseCommandAttrs pkg attrs).2 ≠ [] := by
  intro h
  have := (C53_container_iff.mp h).items it hit
  simp only [List.map_cons, List.map_nil, List.mem_cons, List.not_mem_nil, or_false, not_or] at hp
  rcases this with ⟨h, _⟩ | ⟨h, _⟩ | ⟨h, _⟩ | ⟨h, _⟩
  · exact hp.1 h
  · exact hp.2.1 h
  · exact hp.2.2.1 h
  · exact hp.2.2.2 h

/-- `after_long_about`, which `src/lib.rs` 144 documents, is an error whatever its value: the attribute is called `after_long_help`
(finding 20). -/
theorem C53_after_long_about {pkg : Str} {attrs : List (Attr Str)} {v : MetaVal Str} (h : ⟨lit "after_long_about", v⟩ ∈ cmdItems attrs) :
    (parseCommandAttrs pkg attrs).2 ≠ [] :=
  C53_unsupported h (show lit "after_long_about" ∉ _ by decide +kernel)

/-- `#[arg(..)]` has no place on structs and variants. -/
theorem C53_arg_not_allowed {pkg : Str} {attrs : List (Attr Str)} {i : Option (List (Item Str))} (hi : .arg i ∈ attrs) :
    (parseCommandAttrs pkg attrs).2 ≠ [] := fun h => (C53_container_iff.mp h).forms _ hi

/-- The same attribute twice. -/
theorem C53_container_duplicate {pkg : Str} {attrs : List (Attr Str)} {xs ys zs : List (Item Str)} {a b : Item Str}
    (hi : cmdItems attrs = xs ++ a :: ys ++ b :: zs) (h : a.path = b.path) : (parseCommandAttrs pkg attrs).2 ≠ [] := by
  intro hc
  have := (C53_container_iff.mp hc).once
  rw [hi] at this
  simp only [List.map_append, List.map_cons, h] at this
  exact nodup_split this

namespace Sample

example : parseFieldAttrs ident [.doc (some (lit "x")), .command (some [bare "flatten"])]
    = (.command (.flatten), ([] : List SrcError)) :=
  C53_field_command (by decide +kernel) (by decide +kernel)
example : (parseFieldAttrs ident [.command (some [bare "flatten"]), .arg (some [bare "long"])]).2 ≠ [] :=
  C53_conflict (i := some [bare "long"]) (c := .flatten) (by simp) (by decide +kernel)
example : (parseFieldAttrs ident [.command (some [bare "flatten"]), .command (some [bare "subcommand"])]).2 ≠ [] :=
  C53_two_commands (by decide +kernel)
example : (parseFieldAttrs ident [.command (some [bare "flatten", bare "flatten"])]).2 ≠ [] :=
  C53_malformed (i := some [bare "flatten", bare "flatten"]) (by simp) (by simp) (by simp)

/-- `#[doc = "Tool."] #[command(version, long_about)] #[command(name = "t")]`. -/
def toolAttrs : List (Attr Str) :=
  [.doc (some (lit "Tool.")), .command (some [⟨lit "version", .bare⟩, ⟨lit "long_about", .bare⟩]),
   .command (some [⟨lit "name", .eq (some (.str (lit "t"))) none⟩])]

example : parseCommandAttrs (lit "pkg") toolAttrs
    = (some { doc := lit "Tool.", name := some (lit "t"), version := some .inherit, longAbout := some (lit "pkg") }, []) := by
  have h : (parseCommandAttrs (lit "pkg") toolAttrs).2 = [] := by decide +kernel
  refine Prod.ext ?_ h
  rw [C53_container_meaning h]
  rfl
example : CmdAttrsOk toolAttrs := C53_container_iff (pkg := []).mp (by decide +kernel)
example : (parseCommandAttrs [] [.command (some [⟨lit "about", .bare⟩])]).2 ≠ [] :=
  C53_unsupported (it := ⟨lit "about", .bare⟩) (by simp [cmdItems]) (by decide +kernel)
example : (parseCommandAttrs [] [.command (some [⟨lit "after_long_about", .eq (some (.str (lit "See also"))) none⟩])]).2 ≠ [] :=
  C53_after_long_about (v := .eq (some (.str (lit "See also"))) none) (by simp [cmdItems])
example : (parseCommandAttrs [] [.command (some [⟨lit "after_long_help", .eq (some (.str (lit "See also"))) (some (lit "See also"))⟩])]).2 = [] := by
  decide +kernel
example : (parseCommandAttrs [] [.arg (some [])]).2 ≠ [] := C53_arg_not_allowed (i := some []) (by simp)
example : (parseCommandAttrs [] (toolAttrs ++ [.command (some [⟨lit "version", .bare⟩])])).2 ≠ [] :=
  C53_container_duplicate (xs := []) (a := ⟨lit "version", .bare⟩)
    (ys := [⟨lit "long_about", .bare⟩, ⟨lit "name", .eq (some (.str (lit "t"))) none⟩]) (b := ⟨lit "version", .bare⟩) (zs := [])
    rfl rfl

end Sample

end Palc
