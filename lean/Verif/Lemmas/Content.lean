import Verif.Lemmas.Output
/-! What acceptable occurrences look like. -/

namespace Palc

open Spec

variable {V : Type}

theorem allValues_map {os : List (Option Bytes)} {bs : List Bytes} (h : allValues os = some bs) : os = bs.map some := by
  induction os generalizing bs with
  | nil => simp [allValues] at h; subst h; rfl
  | cons o os ih =>
    cases o with
    | none => simp [allValues] at h
    | some b =>
      simp only [allValues, Option.map_eq_some_iff] at h
      obtain ⟨bs', h1, rfl⟩ := h
      rw [ih h1]; rfl

theorem parsed_some {f : FieldInfo V} {b : Bytes} {v : V} : parsed f b = some v ↔ f.parser.parse b = .ok v := by
  unfold parsed
  split <;> simp_all

theorem parsedAll_map {f : FieldInfo V} {bs : List Bytes} {vs : List V} :
    parsedAll f bs = some vs ↔ bs.map f.parser.parse = vs.map .ok := by
  induction bs generalizing vs with
  | nil => simp [parsedAll, eq_comm]
  | cons b bs ih =>
    simp only [parsedAll, List.map_cons]
    constructor
    · intro h
      split at h
      · rename_i v vs' h1 h2
        cases h
        rw [parsed_some] at h1
        rw [h1, ih.1 h2]; rfl
      · simp at h
    · intro h
      cases vs with
      | nil => simp at h
      | cons v vs =>
        simp only [List.map_cons, List.cons.injEq] at h
        rw [parsed_some.2 h.1, ih.2 h.2]

/-- At most one occurrence unless `Vec`-like. -/
theorem given_single {f : FieldInfo V} {os : List (Option Bytes)} (h : given f os ≠ none) (hm : isMulti f = false) :
    os.length ≤ 1 := by
  match os with
  | [] => simp
  | [_] => simp
  | o :: p :: r =>
    exfalso
    apply h
    simp only [given, List.map_cons, content]
    cases hk : f.kind <;> simp [isMulti, hk] at hm ⊢

theorem allValues_normalise (g : Bytes → Bytes) (os : List (Option Bytes)) :
    allValues (os.map (Option.map g)) = (allValues os).map (List.map g) := by
  induction os with
  | nil => rfl
  | cons o os ih =>
    cases o with
    | none => rfl
    | some b =>
      simp only [List.map_cons, Option.map_some, allValues, ih, Option.map_map]
      rfl

theorem multi_value {f : FieldInfo V} {o : Option Bytes} {r : List (Option Bytes)} {v : Value V}
    (h : (match allValues (Option.map (normalise f) o :: r.map (Option.map (normalise f))) with
      | some bs => (parsedAll f (bs.flatMap (pieces f))).map Value.many
      | none => none) = some v) : ∃ (bs : List Bytes) (vs : List V), o :: r = bs.map some
        ∧ (bs.flatMap (fun b => pieces f (normalise f b))).map f.parser.parse = vs.map .ok ∧ v = .many vs := by
  rw [show Option.map (normalise f) o :: r.map (Option.map (normalise f)) = (o :: r).map (Option.map (normalise f)) from rfl,
    allValues_normalise] at h
  cases hv : allValues (o :: r) with
  | none => rw [hv] at h; simp at h
  | some bs =>
    rw [hv] at h
    simp only [Option.map_some, Option.map_eq_some_iff] at h
    obtain ⟨vs, h2, rfl⟩ := h
    refine ⟨bs, vs, allValues_map hv, ?_, rfl⟩
    rw [parsedAll_map] at h2
    rw [← h2, List.flatMap_map]

/-- The content of a single-valued field that occurred. -/
theorem given_value {f : FieldInfo V} {os : List (Option Bytes)} {v : Value V} (h : given f os = some v) (hne : os ≠ []) :
    (f.kind = .bool ∧ os = [none] ∧ v = .flag true)
    ∨ ((f.kind = .value ∨ f.kind = .option) ∧ ∃ (b : Bytes) (x : V), os = [some b] ∧ f.parser.parse (normalise f b) = .ok x ∧ v = .one x)
    ∨ (f.kind = .optionOption ∧ ((os = [none] ∧ v = .optional none)
        ∨ ∃ (b : Bytes) (x : V), os = [some b] ∧ f.parser.parse (normalise f b) = .ok x ∧ v = .optional (some x)))
    ∨ (isMulti f = true ∧ ∃ (bs : List Bytes) (vs : List V), os = bs.map some
        ∧ (bs.flatMap (fun b => pieces f (normalise f b))).map f.parser.parse = vs.map .ok ∧ v = .many vs) := by
  obtain ⟨o, r, rfl⟩ := List.exists_cons_of_ne_nil hne
  unfold given at h
  simp only [List.map_cons, content] at h
  have hopt : ∀ {o : Option Bytes}, Option.map (normalise f) o = none → o = none := by
    intro o ho; cases o <;> simp at ho ⊢
  cases hk : f.kind with
  | bool =>
    rw [hk] at h
    simp only at h
    split at h
    · rename_i hc
      simp only [List.cons.injEq, List.map_eq_nil_iff] at hc
      obtain ⟨h1, rfl⟩ := hc
      cases hopt h1
      simp only [Option.some.injEq] at h
      exact .inl ⟨rfl, rfl, h.symm⟩
    · simp at h
  | value =>
    rw [hk] at h
    simp only at h
    split at h
    · rename_i b hc
      simp only [List.cons.injEq, List.map_eq_nil_iff] at hc
      obtain ⟨h1, rfl⟩ := hc
      cases o with
      | none => simp at h1
      | some b0 =>
        simp only [Option.map_some, Option.some.injEq] at h1
        simp only [Option.map_eq_some_iff] at h
        obtain ⟨x, h2, rfl⟩ := h
        rw [parsed_some, ← h1] at h2
        exact .inr (.inl ⟨.inl rfl, b0, x, rfl, h2, rfl⟩)
    · simp at h
  | option =>
    rw [hk] at h
    simp only at h
    split at h
    · rename_i b hc
      simp only [List.cons.injEq, List.map_eq_nil_iff] at hc
      obtain ⟨h1, rfl⟩ := hc
      cases o with
      | none => simp at h1
      | some b0 =>
        simp only [Option.map_some, Option.some.injEq] at h1
        simp only [Option.map_eq_some_iff] at h
        obtain ⟨x, h2, rfl⟩ := h
        rw [parsed_some, ← h1] at h2
        exact .inr (.inl ⟨.inr rfl, b0, x, rfl, h2, rfl⟩)
    · simp at h
  | optionOption =>
    rw [hk] at h
    simp only at h
    split at h
    · rename_i hc
      simp only [List.cons.injEq, List.map_eq_nil_iff] at hc
      obtain ⟨h1, rfl⟩ := hc
      cases hopt h1
      simp only [Option.some.injEq] at h
      exact .inr (.inr (.inl ⟨rfl, .inl ⟨rfl, h.symm⟩⟩))
    · rename_i b hc
      simp only [List.cons.injEq, List.map_eq_nil_iff] at hc
      obtain ⟨h1, rfl⟩ := hc
      cases o with
      | none => simp at h1
      | some b0 =>
        simp only [Option.map_some, Option.some.injEq] at h1
        simp only [Option.map_eq_some_iff] at h
        obtain ⟨x, h2, rfl⟩ := h
        rw [parsed_some, ← h1] at h2
        exact .inr (.inr (.inl ⟨rfl, .inr ⟨b0, x, rfl, h2, rfl⟩⟩))
    · simp at h
  | vec =>
    rw [hk] at h
    obtain ⟨bs0, vs, h1, h2, h3⟩ := multi_value h
    exact .inr (.inr (.inr ⟨by simp [isMulti, hk], bs0, vs, h1, h2, h3⟩))
  | optionVec =>
    rw [hk] at h
    obtain ⟨bs0, vs, h1, h2, h3⟩ := multi_value h
    exact .inr (.inr (.inr ⟨by simp [isMulti, hk], bs0, vs, h1, h2, h3⟩))

end Palc
