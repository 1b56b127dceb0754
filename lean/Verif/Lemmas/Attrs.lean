import Verif.ArgAttrs
/-! Lemmas about packed attributes. -/

namespace Palc.ArgAttrs

theorem getLsbD_one_shl (k i : Nat) (hk : k < 32) :
    (1#32 <<< k).getLsbD i = decide (i = k) := by
  rw [BitVec.getLsbD_shiftLeft]
  by_cases h : i = k
  · subst h; simp [hk]
  · by_cases h2 : i < k
    · simp [h2, h]
    · have : i - k ≠ 0 := by omega
      simp [h, BitVec.getLsbD_one]
      omega

/-- Testing a single-bit flag is reading that bit. -/
theorem contains_shl (a : ArgAttrs) (k : Nat) (hk : k < 32) :
    contains a (1#32 <<< k) = a.getLsbD k := by
  unfold contains
  rw [Bool.eq_iff_iff]
  constructor
  · intro h
    have h := eq_of_beq h
    have := congrArg (fun x => x.getLsbD k) h
    simp only [BitVec.getLsbD_and, getLsbD_one_shl k k hk] at this
    simpa using this
  · intro h
    rw [beq_iff_eq]
    apply BitVec.eq_of_getLsbD_eq
    intro i hi
    rw [BitVec.getLsbD_and, getLsbD_one_shl k i hk]
    by_cases hik : i = k
    · subst hik; simp [h]
    · simp [hik]

theorem getLsbD_set (a o : ArgAttrs) (v : Bool) (i : Nat) :
    (set a o v).getLsbD i = (a.getLsbD i || (v && o.getLsbD i)) := by
  unfold set
  cases v <;> simp

theorem getLsbD_index (n i : Nat) (h : 8 ≤ i) : (index n).getLsbD i = false := by
  unfold index
  rw [BitVec.getLsbD_ofNat]
  have : n % 256 < 2 ^ i := Nat.lt_of_lt_of_le (Nat.mod_lt _ (by decide))
    (by calc 256 = 2 ^ 8 := by decide
         _ ≤ 2 ^ i := Nat.pow_le_pow_right (by decide) h)
  rw [Nat.testBit_lt_two_pow this]; simp

theorem getIndex_eq_of_bits (a b : ArgAttrs) (h : ∀ i, i < 8 → a.getLsbD i = b.getLsbD i) :
    getIndex a = getIndex b := by
  unfold getIndex
  apply Nat.eq_of_testBit_eq
  intro i
  have e : (256 : Nat) = 2 ^ 8 := by decide
  rw [e, Nat.testBit_mod_two_pow, Nat.testBit_mod_two_pow]
  by_cases hi : i < 8
  · have := h i hi
    rw [BitVec.getLsbD, BitVec.getLsbD] at this
    simp [hi, this]
  · simp [hi]

theorem getIndex_index (n : Nat) (h : n < 256) : getIndex (index n) = n := by
  unfold getIndex index
  simp only [BitVec.toNat_ofNat]
  omega

/-- Adding the index to a word whose low eight bits are clear. -/
theorem getIndex_set_index (a : ArgAttrs) (n : Nat) (hn : n < 256)
    (h : ∀ i, i < 8 → a.getLsbD i = false) : getIndex (set a (index n) true) = n := by
  rw [getIndex_eq_of_bits _ (index n), getIndex_index n hn]
  intro i hi
  rw [getLsbD_set, h i hi]; simp

end Palc.ArgAttrs
