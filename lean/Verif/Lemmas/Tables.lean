import Verif.Refl
import Verif.Lemmas.Utf8
/-! Splitting functions and NUL-packed tables. -/

namespace Palc

theorem splitOnceC_append {c : Char} {x r : Str} (h : c ∉ x) :
    splitOnceC c (x ++ c :: r) = some (x, r) := by
  induction x with
  | nil => simp [splitOnceC]
  | cons y ys ih =>
    simp only [List.mem_cons, not_or] at h
    simp [splitOnceC, Ne.symm h.1, ih h.2]

theorem splitOnceC_none {c : Char} {x : Str} (h : c ∉ x) : splitOnceC c x = none := by
  induction x with
  | nil => rfl
  | cons y ys ih =>
    simp only [List.mem_cons, not_or] at h
    simp [splitOnceC, Ne.symm h.1, ih h.2]

theorem splitOnceC_some {c : Char} {s l r : Str} (h : splitOnceC c s = some (l, r)) :
    s = l ++ c :: r ∧ c ∉ l := by
  induction s generalizing l with
  | nil => simp [splitOnceC] at h
  | cons y ys ih =>
    simp only [splitOnceC] at h
    split at h
    · rename_i hy; cases h; exact ⟨by simp [hy], by simp⟩
    · rename_i hy
      split at h
      · rename_i l' r' heq
        cases h
        obtain ⟨h1, h2⟩ := ih heq
        exact ⟨by simp [h1], by simp [h2, Ne.symm hy]⟩
      · cases h

theorem packNul_cons (x : Str) (xs : List Str) : packNul (x :: xs) = x ++ nul :: packNul xs := by
  simp [packNul]

theorem packNul_length (xs : List Str) : xs.length ≤ (packNul xs).length := by
  induction xs with
  | nil => simp
  | cons x xs ih => rw [packNul_cons]; simp; omega

theorem splitTermGo_packNul (xs : List Str) (h : ∀ x ∈ xs, nul ∉ x) (fuel : Nat)
    (hf : xs.length < fuel) : splitTermGo nul fuel (packNul xs) = xs := by
  induction xs generalizing fuel with
  | nil =>
    cases fuel with
    | zero => rfl
    | succ n => simp [splitTermGo, packNul, splitOnceC]
  | cons x xs ih =>
    cases fuel with
    | zero => simp at hf
    | succ n =>
      rw [packNul_cons, splitTermGo, splitOnceC_append (h x (by simp))]
      simp only [List.cons.injEq, true_and]
      exact ih (fun y hy => h y (by simp [hy])) n (by simp at hf; omega)

/-- Packed name lists decode to the list of names. -/
theorem splitTerminator_packNul (xs : List Str) (h : ∀ x ∈ xs, nul ∉ x) :
    splitTerminator nul (packNul xs) = xs :=
  splitTermGo_packNul xs h _ (by have := packNul_length xs; omega)

theorem getDescGo_packNul (xs : List Str) (h : ∀ x ∈ xs, nul ∉ x) (fuel : Nat)
    (hf : xs.length < fuel) (i : Nat) : ArgsInfo.getDescGo fuel (packNul xs) i = xs[i]? := by
  induction xs generalizing fuel i with
  | nil =>
    cases fuel with
    | zero => simp [ArgsInfo.getDescGo]
    | succ n => simp [ArgsInfo.getDescGo, packNul, splitOnceC]
  | cons x xs ih =>
    cases fuel with
    | zero => simp at hf
    | succ n =>
      rw [packNul_cons, ArgsInfo.getDescGo, splitOnceC_append (h x (by simp))]
      simp only
      cases i with
      | zero => simp
      | succ i =>
        simp only [Nat.add_one_ne_zero, if_false, Nat.add_sub_cancel, List.getElem?_cons_succ]
        exact ih (fun y hy => h y (by simp [hy])) n (by simp at hf; omega) i

/-- Packed descriptions are found at their index. -/
theorem getDescription_packNul (info : ArgsInfo) (xs : List Str) (hd : info.descriptions = packNul xs)
    (h : ∀ x ∈ xs, nul ∉ x) (i : Nat) : info.getDescription i = xs[i]? := by
  unfold ArgsInfo.getDescription
  rw [hd]
  exact getDescGo_packNul xs h _ (by have := packNul_length xs; omega) i

theorem constConcatLen_eq (strs : List Bytes) : constConcatLen strs = strs.flatten.length := by
  unfold constConcatLen
  have : ∀ (l : List Bytes) n, l.foldl (fun ret s => ret + s.length) n = n + l.flatten.length := by
    intro l
    induction l with
    | nil => intro n; simp
    | cons x xs ih => intro n; rw [List.foldl_cons, ih]; simp; omega
  simpa using this strs 0

theorem constConcatGo_eq (strs : List Bytes) (done out : Bytes)
    (h : out.length = strs.flatten.length) :
    constConcatGo done out strs = some (done ++ strs.flatten) := by
  induction strs generalizing done out with
  | nil =>
    have : out = [] := List.eq_nil_of_length_eq_zero (by simpa using h)
    simp [constConcatGo, this]
  | cons s ss ih =>
    simp only [List.flatten_cons, List.length_append] at h
    have hl : s.length ≤ out.length := by omega
    rw [constConcatGo, if_pos hl, ih _ _ (by rw [List.length_drop]; omega)]
    simp

theorem enc_flatten (strs : List Str) : (strs.map enc).flatten = enc strs.flatten := by
  induction strs with
  | nil => rfl
  | cons s ss ih => simp [ih, enc_append]

/-- `__const_concat!` concatenates. -/
theorem constConcat_eq (strs : List Str) : constConcat strs = some strs.flatten := by
  unfold constConcat constConcatImpl
  simp only
  rw [constConcatLen_eq, constConcatGo_eq _ _ _ (by simp)]
  simp only [List.nil_append]
  rw [enc_flatten, fromUtf8_enc]

/-! ### `=` splitting and prefixes -/

theorem splitOnceEq_append {n v : Bytes} (h : eqSign ∉ n) :
    splitOnceEq (n ++ eqSign :: v) = some (n, v) := by
  induction n with
  | nil => simp [splitOnceEq]
  | cons y ys ih =>
    simp only [List.mem_cons, not_or] at h
    simp [splitOnceEq, Ne.symm h.1, ih h.2]

theorem splitOnceEq_none {n : Bytes} : splitOnceEq n = none ↔ eqSign ∉ n := by
  induction n with
  | nil => simp [splitOnceEq]
  | cons y ys ih =>
    simp only [splitOnceEq]
    by_cases hy : y = eqSign
    · simp [hy]
    · rw [if_neg hy]
      cases hs : splitOnceEq ys with
      | none => simp only [List.mem_cons, not_or]; exact ⟨fun _ => ⟨Ne.symm hy, ih.mp hs⟩, fun _ => trivial⟩
      | some p =>
        simp only [reduceCtorEq, List.mem_cons, not_or, false_iff, not_and]
        intro _ h
        rw [ih.mpr h] at hs; cases hs

theorem splitOnceEq_some {s l r : Bytes} (h : splitOnceEq s = some (l, r)) :
    s = l ++ eqSign :: r ∧ eqSign ∉ l := by
  induction s generalizing l with
  | nil => simp [splitOnceEq] at h
  | cons y ys ih =>
    simp only [splitOnceEq] at h
    split at h
    · rename_i hy; cases h; exact ⟨by simp [hy], by simp⟩
    · rename_i hy
      split at h
      · rename_i l' r' heq
        cases h
        obtain ⟨h1, h2⟩ := ih heq
        exact ⟨by simp [h1], by simp [h2, Ne.symm hy]⟩
      · cases h

theorem stripPrefix_some {p s r : Bytes} : stripPrefix p s = some r ↔ s = p ++ r := by
  induction p generalizing s with
  | nil => simp [stripPrefix, eq_comm]
  | cons x xs ih =>
    cases s with
    | nil => simp [stripPrefix]
    | cons y ys =>
      simp only [stripPrefix, List.cons_append, List.cons.injEq]
      split
      · rename_i h; rw [ih]; simp [h]
      · rename_i h; simp [Ne.symm h]

theorem startsWith_iff {s p : Bytes} : startsWith s p = true ↔ ∃ r, s = p ++ r := by
  unfold startsWith
  rw [Option.isSome_iff_exists]
  simp [stripPrefix_some]

end Palc
