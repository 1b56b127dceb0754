import Verif.Lemmas.Reading
/-! The visible fields and their order. -/

namespace Palc

open Spec

variable {V : Type} {cx : Cx V}

/-- Order of precedence between fields: the inner command first, then the struct itself before its flattened structs
(these in declaration order), then declaration order. -/
def Addr.precedes (a b : Spec.Addr) : Prop :=
  b.level < a.level ∨ (a.level = b.level ∧ (a.struct < b.struct ∨ (a.struct = b.struct ∧ a.field < b.field)))

theorem Addr.precedes_asymm {a b : Spec.Addr} (h : Addr.precedes a b) : ¬ Addr.precedes b a := by
  unfold Addr.precedes at *; omega

theorem fieldsFrom_mem_iff {level s0 : Nat} {cs : List (Core V)} {a : Addr} {f : FieldInfo V} :
    (a, f) ∈ fieldsFrom level s0 cs ↔ a.level = level ∧ s0 ≤ a.struct ∧ ∃ c, cs[a.struct - s0]? = some c ∧ c.fields[a.field]? = some f := by
  unfold fieldsFrom
  simp only [List.mem_flatMap, List.mem_map, Prod.exists, List.mem_zipIdx_iff_le_and_getElem?_sub]
  constructor
  · rintro ⟨c, s, ⟨h1, h2⟩, f', i, ⟨_, h3⟩, h4⟩
    cases h4
    exact ⟨rfl, h1, c, h2, by simpa using h3⟩
  · rintro ⟨rfl, h1, c, h2, h3⟩
    exact ⟨c, a.struct, ⟨h1, h2⟩, f, a.field, ⟨by simp, by simpa using h3⟩, rfl⟩

theorem fieldsAt_mem_iff {level : Nat} {d : ArgsDef V} {a : Addr} {f : FieldInfo V} :
    (a, f) ∈ fieldsAt level d ↔ a.level = level ∧ ∃ c, (structs d)[a.struct]? = some c ∧ c.fields[a.field]? = some f := by
  rw [fieldsAt_eq, fieldsFrom_mem_iff]
  simp

theorem fieldsAt_cons_iff {i : CmdId} {d : ArgsDef V} {outer : List (Entry V)} {a : Addr} {f : FieldInfo V} :
    (a, f) ∈ fieldsAt outer.length d ↔ a.level = outer.length ∧ fieldAt ((i, d) :: outer) a = some f := by
  rw [fieldsAt_mem_iff]
  constructor
  · rintro ⟨h, c, h1, h2⟩
    exact ⟨h, by simp [fieldAt, h, h1, h2]⟩
  · rintro ⟨h, h1⟩
    refine ⟨h, ?_⟩
    simp only [fieldAt, h, if_true] at h1
    split at h1
    · rename_i c hc; exact ⟨c, hc, h1⟩
    · cases h1

theorem globals_mem_iff {st : List (Entry V)} {a : Addr} {f : FieldInfo V} :
    (a, f) ∈ globals st ↔ fieldAt st a = some f ∧ f.src.global = true := by
  induction st with
  | nil => simp [globals, fieldAt]
  | cons x outer ih =>
    obtain ⟨i, d⟩ := x
    simp only [globals, List.mem_append, List.mem_filter, ih, fieldsAt_cons_iff (i := i)]
    constructor
    · rintro (⟨⟨_, h⟩, hg⟩ | ⟨h, hg⟩)
      · exact ⟨h, hg⟩
      · exact ⟨fieldAt_ext_some (ext := [(i, d)]) h, hg⟩
    · rintro ⟨h, hg⟩
      by_cases hl : a.level = outer.length
      · exact .inl ⟨⟨hl, h⟩, hg⟩
      · right
        refine ⟨?_, hg⟩
        simpa [fieldAt, hl] using h

theorem fieldAt_lt {st : List (Entry V)} {a : Addr} {f : FieldInfo V} (h : fieldAt st a = some f) : a.level < st.length := by
  induction st with
  | nil => simp [fieldAt] at h
  | cons x outer ih =>
    obtain ⟨i, d⟩ := x
    by_cases hl : a.level = outer.length
    · simp [hl]
    · have := ih (by simpa [fieldAt, hl] using h)
      simp; omega

theorem visible_mem_iff {st : List (Entry V)} {a : Addr} {f : FieldInfo V} :
    (a, f) ∈ visible st ↔ fieldAt st a = some f ∧ (a.level + 1 = st.length ∨ f.src.global = true) := by
  cases st with
  | nil => simp [visible, fieldAt]
  | cons x outer =>
    obtain ⟨i, d⟩ := x
    simp only [visible, List.mem_append, fieldsAt_cons_iff (i := i), globals_mem_iff]
    constructor
    · rintro (⟨h1, h⟩ | ⟨h, hg⟩)
      · exact ⟨h, .inl (by simp [h1])⟩
      · exact ⟨fieldAt_ext_some (ext := [(i, d)]) h, .inr hg⟩
    · rintro ⟨h, hg⟩
      by_cases hl : a.level = outer.length
      · exact .inl ⟨hl, h⟩
      · right
        rcases hg with hg | hg
        · simp at hg; exact absurd hg hl
        · exact ⟨by simpa [fieldAt, hl] using h, hg⟩

theorem fieldsFrom_sorted (level s0 : Nat) (cs : List (Core V)) :
    (fieldsFrom level s0 cs).Pairwise (fun x y => Addr.precedes x.1 y.1) := by
  induction cs generalizing s0 with
  | nil => simp [fieldsFrom]
  | cons c cs ih =>
    have hF : fieldsFrom level s0 (c :: cs) = c.fields.zipIdx.map (fun (x : FieldInfo V × Nat) => ((⟨level, s0, x.2⟩ : Addr), x.1))
        ++ fieldsFrom level (s0 + 1) cs := by
      simp [fieldsFrom, List.zipIdx_cons]
    rw [hF, List.pairwise_append]
    refine ⟨?_, ih _, ?_⟩
    · rw [List.pairwise_map]
      have : ∀ (k : Nat) (l : List (FieldInfo V)), (l.zipIdx k).Pairwise (fun x y => x.2 < y.2) := by
        intro k l
        induction l generalizing k with
        | nil => simp
        | cons y l ih =>
          rw [List.zipIdx_cons, List.pairwise_cons]
          refine ⟨fun z hz => ?_, ih _⟩
          have := List.le_snd_of_mem_zipIdx hz
          exact Nat.lt_of_lt_of_le (Nat.lt_succ_self _) this
      exact (this 0 _).imp (fun h => .inr ⟨rfl, .inr ⟨rfl, h⟩⟩)
    · intro x hx y hy
      rw [List.mem_map] at hx
      obtain ⟨z, _, rfl⟩ := hx
      obtain ⟨h1, h2, _⟩ := (fieldsFrom_mem_iff (a := y.1) (f := y.2)).1 hy
      exact .inr ⟨h1.symm, .inl (by simp; omega)⟩

theorem globals_sorted (st : List (Entry V)) : (globals st).Pairwise (fun x y => Addr.precedes x.1 y.1) := by
  induction st with
  | nil => simp [globals]
  | cons x outer ih =>
    obtain ⟨i, d⟩ := x
    simp only [globals]
    rw [List.pairwise_append]
    refine ⟨?_, ih, ?_⟩
    · rw [fieldsAt_eq]; exact (fieldsFrom_sorted _ _ _).filter _
    · intro x hx y hy
      have h1 := (fieldsAt_mem_iff (a := x.1) (f := x.2)).1 (List.mem_filter.1 hx).1
      have h2 := fieldAt_lt ((globals_mem_iff (a := y.1) (f := y.2)).1 hy).1
      exact .inl (by omega)

theorem visible_sorted (st : List (Entry V)) : (visible st).Pairwise (fun x y => Addr.precedes x.1 y.1) := by
  cases st with
  | nil => simp [visible]
  | cons x outer =>
    obtain ⟨i, d⟩ := x
    simp only [visible]
    rw [List.pairwise_append]
    refine ⟨?_, globals_sorted _, ?_⟩
    · rw [fieldsAt_eq]; exact fieldsFrom_sorted _ _ _
    · intro x hx y hy
      have h1 := (fieldsAt_mem_iff (a := x.1) (f := x.2)).1 hx
      have h2 := fieldAt_lt ((globals_mem_iff (a := y.1) (f := y.2)).1 hy).1
      exact .inl (by omega)

/-- The first element of a sorted list with some property is the least one. -/
theorem find_sorted {α : Type} {r : α → α → Prop} (hr : ∀ a b, r a b → ¬ r b a) {l : List α} (hs : l.Pairwise r) {p : α → Bool} {x : α} :
    l.find? p = some x ↔ x ∈ l ∧ p x = true ∧ ∀ y ∈ l, p y = true → x = y ∨ r x y := by
  induction hs with
  | nil => simp
  | @cons z l hz hl ih =>
    rw [List.find?_cons]
    cases hp : p z with
    | true =>
      simp only [Option.some.injEq]
      constructor
      · rintro rfl
        refine ⟨by simp, hp, fun y hy _ => ?_⟩
        rcases List.mem_cons.1 hy with rfl | hy
        · exact .inl rfl
        · exact .inr (hz y hy)
      · rintro ⟨hx, hpx, hall⟩
        rcases hall z (by simp) hp with rfl | hrz
        · rfl
        · rcases List.mem_cons.1 hx with rfl | hx
          · rfl
          · exact absurd hrz (hr _ _ (hz x hx))
    | false =>
      simp only [ih]
      constructor
      · rintro ⟨hx, hpx, hall⟩
        refine ⟨by simp [hx], hpx, fun y hy hpy => ?_⟩
        rcases List.mem_cons.1 hy with rfl | hy
        · rw [hp] at hpy; cases hpy
        · exact hall y hy hpy
      · rintro ⟨hx, hpx, hall⟩
        refine ⟨?_, hpx, fun y hy hpy => hall y (by simp [hy]) hpy⟩
        rcases List.mem_cons.1 hx with rfl | hx
        · rw [hp] at hpx; cases hpx
        · exact hx

/-- Name resolution in terms of addresses. -/
theorem resolves_iff {st : List (Entry V)} {n : Name} {a : Addr} {f : FieldInfo V} :
    Resolves cx st n a f ↔ fieldAt st a = some f ∧ (a.level + 1 = st.length ∨ f.src.global = true) ∧ declares cx f n = true
      ∧ ∀ b g, fieldAt st b = some g → (b.level + 1 = st.length ∨ g.src.global = true) → declares cx g n = true →
        a = b ∨ Addr.precedes a b := by
  unfold Resolves
  rw [find_sorted (r := fun x y => Addr.precedes x.1 y.1) (fun _ _ => Addr.precedes_asymm) (visible_sorted st), visible_mem_iff]
  constructor
  · rintro ⟨⟨h1, h2⟩, h3, h4⟩
    refine ⟨h1, h2, h3, fun b g hb hv hd => ?_⟩
    rcases h4 (b, g) (visible_mem_iff.2 ⟨hb, hv⟩) hd with h | h
    · cases h; exact .inl rfl
    · exact .inr h
  · rintro ⟨h1, h2, h3, h4⟩
    refine ⟨⟨h1, h2⟩, h3, ?_⟩
    rintro ⟨b, g⟩ hb hd
    obtain ⟨hb, hv⟩ := visible_mem_iff.1 hb
    rcases h4 b g hb hv hd with rfl | h
    · rw [h1] at hb; cases hb; exact .inl rfl
    · exact .inr h

theorem unknown_iff {st : List (Entry V)} {n : Name} :
    Unknown cx st n ↔ ∀ b g, fieldAt st b = some g → (b.level + 1 = st.length ∨ g.src.global = true) → declares cx g n = false := by
  unfold Unknown
  constructor
  · intro h b g hb hv; exact h (b, g) (visible_mem_iff.2 ⟨hb, hv⟩)
  · rintro h ⟨b, g⟩ hb
    obtain ⟨h1, h2⟩ := visible_mem_iff.1 hb
    exact h b g h1 h2

end Palc
