import Verif.Lemmas.DeriveWF
import Verif.Lemmas.Levels
/-! From the declarations of a struct to the fields of the accepted definition. -/

namespace Palc

open Spec

variable {V : Type} {cx : Cx V} {cmeta : Option CommandMeta} {ds : List (FieldDecl V)} {d : ArgsDef V}

/-- Identifier, kind, attributes and value parser of an argument declaration. -/
def declArg (cx : Cx V) : FieldDecl V → Option (Str × MagicKind × ArgMeta V × Option (ValueParser V))
  | .arg i ty m => some (i, (classify ty).1, m, fieldParser cx (classify ty).1 (classify ty).2)
  | .subcommand _ _ _ => none
  | .flatten _ _ => none

/-- All names of a field. -/
def fieldNames (cx : Cx V) (f : FieldInfo V) : List Name :=
  if isOption f then (longNames cx f).map .long ++ (shortNames f).map .short else []

theorem mem_fieldNames {f : FieldInfo V} {n : Name} : n ∈ fieldNames cx f ↔ declares cx f n = true := by
  unfold fieldNames
  cases n with
  | long s => by_cases h : isOption f = true <;> simp [declares, h]
  | short c => by_cases h : isOption f = true <;> simp [declares, h]

theorem encodeName_inj {n m : Name} (h : encodeName n = encodeName m) : n = m := by
  cases n <;> cases m <;> simp [encodeName] at h <;> simp [h]

theorem encNames_eq {f : FieldInfo V} (h : FieldPre cx f) : f.encNames = (fieldNames cx f).map encodeName := by
  rw [h.names]
  unfold fieldNames
  split <;> simp [Function.comp_def]

theorem accepted_fields (h : deriveArgs cx cmeta ds = .ok d) :
    ∃ (L D : List (FieldInfo V)), L.Perm (declFields cx ds) ∧ (coreOf d).fields = L.zipIdx.map (finField D) := by
  obtain ⟨core, flats, sub⟩ := d
  obtain ⟨D, hD⟩ := (deriveArgs_ok h).fields
  exact ⟨_, D, split4 _, hD⟩

theorem accepted_wf (h : deriveArgs cx cmeta ds = .ok d) : CoreWF cx (coreOf d) := by
  obtain ⟨core, flats, sub⟩ := d
  exact (deriveArgs_ok h).wf

/-- Anything not touched by indexing is permuted only. -/
theorem fields_perm {β : Type} (h : deriveArgs cx cmeta ds = .ok d) (g : FieldInfo V → β)
    (hg : ∀ D x, g (finField D x) = g x.1) : ((coreOf d).fields.map g).Perm ((declFields cx ds).map g) := by
  obtain ⟨L, D, hp, hf⟩ := accepted_fields h
  rw [hf, List.map_map]
  have : (L.zipIdx.map (g ∘ finField D)) = L.map g := by
    conv => rhs; rw [← List.zipIdx_map_fst 0 L, List.map_map]
    apply List.map_congr_left
    intro x _
    exact hg D x
  rw [this]
  exact hp.map g

theorem argField_parser {i : Str} {ty : Ty V} {m : ArgMeta V} (h : (argField cx i ty m).1 = []) :
    fieldParser cx (classify ty).1 (classify ty).2 = some (argField cx i ty m).2.parser := by
  have hc : commonErrors cx i (classify ty).1 (classify ty).2 m = [] := by
    unfold argField at h
    split at h <;> simp only [List.append_eq_nil_iff] at h
    · exact h.1.1.1
    · exact h.1.1.1
  have hne : (fieldParser cx (classify ty).1 (classify ty).2).isNone = false := by
    unfold commonErrors at hc
    simp only [List.append_eq_nil_iff] at hc
    have := hc.2
    apply Classical.byContradiction
    intro hn
    rw [if_pos (by simpa using hn)] at this
    cases this
  cases hp : fieldParser cx (classify ty).1 (classify ty).2 with
  | none => rw [hp] at hne; simp at hne
  | some p =>
    unfold argField
    split <;> simp [hp]

theorem filterMap_congr' {α β : Type} {f g : α → Option β} {l : List α} (h : ∀ x ∈ l, f x = g x) : l.filterMap f = l.filterMap g := by
  induction l with
  | nil => rfl
  | cons x xs ih =>
    rw [List.filterMap_cons, List.filterMap_cons, h x (by simp), ih (fun y hy => h y (by simp [hy]))]

/-- Every declared argument is a field, with its identifier, type and attributes; nothing else is. -/
theorem args_perm (h : deriveArgs cx cmeta ds = .ok d) :
    ((coreOf d).fields.map (fun f => (f.ident, f.kind, f.src, some f.parser))).Perm (ds.filterMap (declArg cx)) := by
  refine (fields_perm h (fun f => (f.ident, f.kind, f.src, some f.parser)) (fun _ _ => rfl)).trans ?_
  have : ((declFields cx ds).map (fun f => (f.ident, f.kind, f.src, some f.parser))) = ds.filterMap (declArg cx) := by
    unfold declFields
    rw [List.map_filterMap]
    apply filterMap_congr'
    intro x hx
    cases x with
    | arg i ty m =>
      have he : (argField cx i ty m).1 = [] := by
        obtain ⟨core, flats, sub⟩ := d
        exact (deriveArgs_ok h).errs i ty m hx
      obtain ⟨h1, h2, h3⟩ := argField_src cx i ty m
      simp [declField, declArg, h1, h2, h3, argField_parser he]
    | subcommand => rfl
    | flatten => rfl
  rw [this]

theorem declared_field (h : deriveArgs cx cmeta ds = .ok d) {i : Str} {ty : Ty V} {m : ArgMeta V} (hm : FieldDecl.arg i ty m ∈ ds) :
    ∃ (k : Nat) (f : FieldInfo V), (coreOf d).fields[k]? = some f ∧ f.ident = i ∧ f.kind = (classify ty).1 ∧ f.src = m := by
  have : (i, (classify ty).1, m, fieldParser cx (classify ty).1 (classify ty).2) ∈ ds.filterMap (declArg cx) :=
    List.mem_filterMap.2 ⟨_, hm, rfl⟩
  rw [← (args_perm h).mem_iff, List.mem_map] at this
  obtain ⟨f, hf, he⟩ := this
  obtain ⟨k, hk⟩ := List.getElem?_of_mem hf
  simp only [Prod.mk.injEq] at he
  exact ⟨k, f, hk, he.1, he.2.1, he.2.2.1⟩

theorem field_declared (h : deriveArgs cx cmeta ds = .ok d) {f : FieldInfo V} (hf : f ∈ (coreOf d).fields) :
    ∃ ty, FieldDecl.arg f.ident ty f.src ∈ ds ∧ f.kind = (classify ty).1
      ∧ fieldParser cx (classify ty).1 (classify ty).2 = some f.parser := by
  have : (f.ident, f.kind, f.src, some f.parser) ∈ ds.filterMap (declArg cx) := by
    rw [← (args_perm h).mem_iff]; exact List.mem_map_of_mem hf
  rw [List.mem_filterMap] at this
  obtain ⟨x, hx, he⟩ := this
  cases x with
  | arg i ty m =>
    simp only [declArg, Option.some.injEq, Prod.mk.injEq] at he
    obtain ⟨rfl, h1, rfl, h2⟩ := he
    exact ⟨ty, hx, h1.symm, h2⟩
  | subcommand => cases he
  | flatten => cases he

theorem field_default (h : deriveArgs cx cmeta ds = .ok d) {f : FieldInfo V} (hf : f ∈ (coreOf d).fields) :
    ∃ ty, FieldDecl.arg f.ident ty f.src ∈ ds ∧ f.kind = (classify ty).1
      ∧ fieldParser cx (classify ty).1 (classify ty).2 = some f.parser
      ∧ (fieldDefault cx (classify ty).1 (classify ty).2 f.src) = ([], f.defaultValue) := by
  have hp := fields_perm h (fun f => (f.ident, f.kind, f.src, f.parser, f.defaultValue)) (fun _ _ => rfl)
  have : (f.ident, f.kind, f.src, f.parser, f.defaultValue) ∈ (coreOf d).fields.map (fun f => (f.ident, f.kind, f.src, f.parser, f.defaultValue)) :=
    List.mem_map_of_mem hf
  rw [hp.mem_iff, List.mem_map] at this
  obtain ⟨g, hg, he⟩ := this
  unfold declFields at hg
  rw [List.mem_filterMap] at hg
  obtain ⟨x, hx, hxg⟩ := hg
  cases x with
  | arg i ty m =>
    cases hxg
    have hnil : (argField cx i ty m).1 = [] := by
      obtain ⟨core, flats, sub⟩ := d
      exact (deriveArgs_ok h).errs i ty m hx
    obtain ⟨h1, h2, h3⟩ := argField_src cx i ty m
    have hd : (argField cx i ty m).2.defaultValue = (fieldDefault cx (classify ty).1 (classify ty).2 m).2 := by
      unfold argField; split <;> rfl
    have he0 : (fieldDefault cx (classify ty).1 (classify ty).2 m).1 = [] := by
      unfold argField at hnil
      split at hnil <;> simp only [List.append_eq_nil_iff, commonErrors] at hnil <;> grind
    simp only [Prod.mk.injEq] at he
    obtain ⟨e1, e2, e3, e4, e5⟩ := he
    refine ⟨ty, ?_, ?_, ?_, ?_⟩
    · rw [← e1, ← e3, h1, h2]; exact hx
    · rw [← e2, h3]
    · rw [argField_parser hnil, e4]
    · rw [← e3, h1, ← e5, hd, ← he0]
  | subcommand => cases hxg
  | flatten => cases hxg

theorem names_nodup (h : deriveArgs cx cmeta ds = .ok d) : ((coreOf d).fields.flatMap (fieldNames cx)).Nodup := by
  have wf := accepted_wf h
  have : (coreOf d).fields.flatMap (·.encNames) = ((coreOf d).fields.flatMap (fieldNames cx)).map encodeName := by
    rw [List.map_flatMap, List.flatMap_def, List.flatMap_def]
    congr 1
    apply List.map_congr_left
    intro f hf
    obtain ⟨k, hk⟩ := List.getElem?_of_mem hf
    exact encNames_eq (wf.fields k f hk).toFieldPre
  have hn := wf.nodup
  rw [this] at hn
  exact List.Pairwise.of_map _ (fun a b hab e => hab (by rw [e])) hn

theorem variants_lengths : (vs : Variants V) → vs.names.length = vs.helps.length
  | .nil => by rw [Variants.names, Variants.helps]; rfl
  | .cons v rest => by rw [Variants.names, Variants.helps, List.length_cons, List.length_cons, variants_lengths rest]

end Palc
