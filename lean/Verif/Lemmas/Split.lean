import Verif.Lemmas.Tables
/-! Splitting a byte string at a delimiter character. -/

namespace Palc

theorem intercalate_cons_cons {α : Type} (s p q : List α) (ps : List (List α)) :
    List.intercalate s (p :: q :: ps) = p ++ s ++ List.intercalate s (q :: ps) := by
  simp [List.intercalate, List.intersperse]

theorem intercalate_single {α : Type} (s p : List α) : List.intercalate s [p] = p := by
  simp [List.intercalate, List.intersperse]

theorem splitGo_ne_nil (pat cur : Bytes) (k : Nat) (s : Bytes) : splitGo pat cur k s ≠ [] := by
  induction s generalizing cur k with
  | nil => simp [splitGo]
  | cons b bs ih =>
    cases k with
    | succ k => rw [splitGo]; exact ih _ _
    | zero => rw [splitGo]; split; · simp
              exact ih _ _

theorem splitGo_drop (pat cur : Bytes) (k : Nat) (s : Bytes) (h : k ≤ s.length) :
    splitGo pat cur k s = splitGo pat cur 0 (s.drop k) := by
  induction k generalizing s with
  | zero => simp
  | succ k ih =>
    cases s with
    | nil => simp at h
    | cons b bs => rw [splitGo, List.drop_succ_cons]; exact ih _ (by simpa using h)

/-- One step of the splitting loop: a fragment without a delimiter, then a delimiter. -/
theorem splitGo_delim {pat : Bytes} (hp : pat ≠ []) (cur r : Bytes) :
    splitGo pat cur 0 (pat ++ r) = cur.reverse :: splitGo pat [] 0 r := by
  cases pat with
  | nil => exact absurd rfl hp
  | cons b p =>
    rw [List.cons_append, splitGo, if_pos (startsWith_iff.2 ⟨r, by simp⟩)]
    rw [splitGo_drop _ _ _ _ (by simp)]
    simp

theorem splitGo_join {pat : Bytes} (hp : pat ≠ []) (n : Nat) (cur s : Bytes) (hn : s.length ≤ n) :
    List.intercalate pat (splitGo pat cur 0 s) = cur.reverse ++ s := by
  induction n generalizing cur s with
  | zero =>
    have : s = [] := List.eq_nil_of_length_eq_zero (by omega)
    subst this
    simp [splitGo]
  | succ n ih =>
    cases s with
    | nil => simp [splitGo]
    | cons b bs =>
      by_cases hst : startsWith (b :: bs) pat = true
      · obtain ⟨r, hr⟩ := startsWith_iff.1 hst
        rw [hr, splitGo_delim hp]
        have hlen : r.length ≤ n := by
          have h1 := congrArg List.length hr
          have h2 : 0 < pat.length := List.length_pos_iff.2 hp
          simp at h1 hn; omega
        have ihr := ih [] r hlen
        cases hs : splitGo pat [] 0 r with
        | nil => exact absurd hs (splitGo_ne_nil _ _ _ _)
        | cons q ps =>
          rw [intercalate_cons_cons, ← hs, ihr]; simp
      · rw [splitGo, if_neg hst, ih _ _ (by simpa using hn)]
        simp

/-- A delimiter found in a fragment would have been recognised by the loop. -/
theorem splitGo_free {pat : Bytes} (hp : pat ≠ []) (n : Nat) (cur s : Bytes) (hn : s.length ≤ n)
    (hcur : ∀ a b, cur.reverse ++ s = a ++ pat ++ b → cur.length ≤ a.length) :
    ∀ p ∈ splitGo pat cur 0 s, ¬ pat <:+: p := by
  have hlast : ∀ cur s : Bytes, (∀ a b, cur.reverse ++ s = a ++ pat ++ b → cur.length ≤ a.length) →
      ¬ pat <:+: cur.reverse := by
    rintro cur s hcur ⟨a, b, hab⟩
    have := hcur a (b ++ s) (by rw [← hab]; simp)
    have h1 := congrArg List.length hab
    have h2 : 0 < pat.length := List.length_pos_iff.2 hp
    simp at h1; omega
  induction n generalizing cur s with
  | zero =>
    have : s = [] := List.eq_nil_of_length_eq_zero (by omega)
    subst this
    intro p hpm
    simp [splitGo] at hpm
    subst hpm
    exact hlast _ _ hcur
  | succ n ih =>
    cases s with
    | nil =>
      intro p hpm
      simp [splitGo] at hpm
      subst hpm
      exact hlast _ _ hcur
    | cons b bs =>
      by_cases hst : startsWith (b :: bs) pat = true
      · obtain ⟨r, hr⟩ := startsWith_iff.1 hst
        rw [hr, splitGo_delim hp]
        have hlen : r.length ≤ n := by
          have h1 := congrArg List.length hr
          have h2 : 0 < pat.length := List.length_pos_iff.2 hp
          simp at h1 hn; omega
        intro p hpm
        rcases List.mem_cons.1 hpm with rfl | hpm
        · exact hlast _ _ hcur
        · exact ih [] r hlen (by simp) p hpm
      · rw [splitGo, if_neg hst]
        refine ih _ _ (by simpa using hn) ?_
        intro a c hac
        have h1 := hcur a c (by simpa using hac)
        have hne : cur.length ≠ a.length := by
          intro heq
          apply hst
          rw [startsWith_iff]
          refine ⟨c, ?_⟩
          have h2 : cur.reverse ++ (b :: bs) = a ++ (pat ++ c) := by simpa using hac
          exact (List.append_inj h2 (by simpa using heq)).2
        simp; omega

/-- The bytes of a character after the first one are continuation bytes, the first one is not. -/
theorem encChar_bytes (c : Char) : ∃ b bs, encChar c = b :: bs ∧ (b.toNat < 128 ∨ 192 ≤ b.toNat)
    ∧ ∀ x ∈ bs, 128 ≤ x.toNat ∧ x.toNat < 192 := by
  rw [encChar_def]
  split
  · refine ⟨_, [], rfl, .inl ?_, by simp⟩
    rw [toNat_ofNat8 (by omega)]; omega
  · split
    · refine ⟨_, _, rfl, .inr ?_, ?_⟩
      · rw [toNat_ofNat8 (by omega)]; omega
      · intro x hx
        simp only [List.mem_cons, List.not_mem_nil, or_false] at hx
        subst hx
        rw [toNat_ofNat8 (by omega)]; omega
    · split
      · refine ⟨_, _, rfl, .inr ?_, ?_⟩
        · rw [toNat_ofNat8 (by omega)]; omega
        · intro x hx
          simp only [List.mem_cons, List.not_mem_nil, or_false] at hx
          rcases hx with rfl | rfl <;> rw [toNat_ofNat8 (by omega)] <;> omega
      · refine ⟨_, _, rfl, .inr ?_, ?_⟩
        · rw [toNat_ofNat8 (by omega)]; omega
        · intro x hx
          simp only [List.mem_cons, List.not_mem_nil, or_false] at hx
          rcases hx with rfl | rfl | rfl <;> rw [toNat_ofNat8 (by omega)] <;> omega

/-- An encoded character does not overlap with itself. -/
theorem encChar_no_overlap {c : Char} {r s t : Bytes} (h : encChar c = r ++ s) (hr : r ≠ []) (hs : s ≠ [])
    (h2 : encChar c = s ++ t) : False := by
  obtain ⟨b, bs, hb, h0, h1⟩ := encChar_bytes c
  cases r with
  | nil => exact hr rfl
  | cons x r =>
    cases s with
    | nil => exact hs rfl
    | cons y s =>
      rw [hb] at h h2
      simp only [List.cons_append, List.cons.injEq] at h h2
      have := h1 y (by rw [h.2]; simp)
      rw [← h2.1] at this
      omega

/-- A value has at most one decomposition into delimiter-free pieces. -/
theorem pieces_unique (c : Char) (ps qs : List Bytes) (hp : ps ≠ []) (hq : qs ≠ [])
    (hps : ∀ p ∈ ps, ¬ encChar c <:+: p) (hqs : ∀ q ∈ qs, ¬ encChar c <:+: q)
    (h : List.intercalate (encChar c) ps = List.intercalate (encChar c) qs) : ps = qs := by
  -- the first piece cannot be shorter in one of the decompositions
  have key : ∀ (p q : Bytes) (P Q : Bytes), ¬ encChar c <:+: q → p ++ encChar c ++ P = q ++ encChar c ++ Q →
      q.length ≤ p.length := by
    intro p q P Q hfree he
    apply Classical.byContradiction
    intro hlt
    have hlt : p.length < q.length := by omega
    have he' : p ++ (encChar c ++ P) = q ++ (encChar c ++ Q) := by simpa using he
    obtain ⟨r, rfl, hr⟩ : ∃ r, q = p ++ r ∧ encChar c ++ P = r ++ (encChar c ++ Q) := by
      rw [List.append_eq_append_iff] at he'
      rcases he' with ⟨r, h1, h2⟩ | ⟨r, h1, h2⟩
      · exact ⟨r, h1, h2⟩
      · have := congrArg List.length h1; simp at this; omega
    have hrne : r ≠ [] := by rintro rfl; simp at hlt
    rw [List.append_eq_append_iff] at hr
    rcases hr with ⟨t, h1, h2⟩ | ⟨t, h1, h2⟩
    · exact hfree ⟨p, t, by rw [h1]; simp⟩
    · by_cases ht : t = []
      · subst ht
        exact hfree ⟨p, [], by rw [h1]; simp⟩
      · -- `t` is a proper suffix and a prefix of the delimiter
        rw [List.append_eq_append_iff] at h2
        rcases h2 with ⟨u, h3, h4⟩ | ⟨u, h3, h4⟩
        · have l1 := congrArg List.length h1
          have l3 := congrArg List.length h3
          simp at l1 l3
          exact hrne (List.eq_nil_of_length_eq_zero (by omega))
        · exact encChar_no_overlap h1 hrne ht h3
  have keyEnd : ∀ (p q : Bytes) (Q : Bytes), ¬ encChar c <:+: p → p ≠ q ++ encChar c ++ Q := by
    rintro p q Q hfree rfl
    exact hfree ⟨q, Q, rfl⟩
  induction ps generalizing qs with
  | nil => exact absurd rfl hp
  | cons p ps ih =>
    cases qs with
    | nil => exact absurd rfl hq
    | cons q qs =>
      cases ps with
      | nil =>
        cases qs with
        | nil => simpa [intercalate_single] using h
        | cons q' qs =>
          rw [intercalate_single, intercalate_cons_cons] at h
          exact absurd h (keyEnd _ _ _ (hps p (by simp)))
      | cons p' ps =>
        cases qs with
        | nil =>
          rw [intercalate_single, intercalate_cons_cons] at h
          exact absurd h.symm (keyEnd _ _ _ (hqs q (by simp)))
        | cons q' qs =>
          rw [intercalate_cons_cons, intercalate_cons_cons] at h
          have l1 := key _ _ _ _ (hqs q (by simp)) h
          have l2 := key _ _ _ _ (hps p (by simp)) h.symm
          have h' : p ++ (encChar c ++ List.intercalate (encChar c) (p' :: ps))
              = q ++ (encChar c ++ List.intercalate (encChar c) (q' :: qs)) := by simpa using h
          obtain ⟨e1, e2⟩ := List.append_inj h' (by omega)
          have e3 := List.append_cancel_left e2
          rw [e1, ih (q' :: qs) (by simp) (by simp) (fun x hx => hps x (by simp [hx]))
            (fun x hx => hqs x (by simp [hx])) e3]

theorem splitOn_join (c : Char) (v : Bytes) : List.intercalate (encChar c) (splitOn c v) = v := by
  simpa [splitOn] using splitGo_join (encChar_ne_nil c) v.length [] v (Nat.le_refl _)

theorem splitOn_free (c : Char) (v : Bytes) : ∀ p ∈ splitOn c v, ¬ encChar c <:+: p :=
  splitGo_free (encChar_ne_nil c) v.length [] v (Nat.le_refl _) (by simp)

theorem splitOn_ne_nil (c : Char) (v : Bytes) : splitOn c v ≠ [] := splitGo_ne_nil _ _ _ _

theorem intercalate_map {α β : Type} (g : α → β) (s : List α) (ps : List (List α)) :
    (List.intercalate s ps).map g = List.intercalate (s.map g) (ps.map (List.map g)) := by
  induction ps with
  | nil => rfl
  | cons p ps ih =>
    cases ps with
    | nil => simp
    | cons q ps =>
      rw [intercalate_cons_cons, List.map_cons, List.map_cons, intercalate_cons_cons]
      simp [ih]

/-- A byte that is no ASCII letter. -/
def NoLetter (b : UInt8) : Prop := ¬ (65 ≤ b.toNat ∧ b.toNat ≤ 90) ∧ ¬ (97 ≤ b.toNat ∧ b.toNat ≤ 122)

theorem lowerByte_noLetter {b : UInt8} : NoLetter (lowerByte b) → lowerByte b = b := by
  unfold NoLetter lowerByte
  split
  · rename_i h
    intro h2
    exfalso
    have : (b + 32).toNat = b.toNat + 32 := by
      rw [UInt8.toNat_add]; simp; omega
    omega
  · intros; trivial

theorem lowerByte_of_noLetter {b : UInt8} (h : NoLetter b) : lowerByte b = b := by
  unfold NoLetter at h
  unfold lowerByte
  rw [if_neg h.1]

theorem map_lower_noLetter {l p : Bytes} (hp : ∀ b ∈ p, NoLetter b) (h : l.map lowerByte = p) : l = p := by
  induction l generalizing p with
  | nil => simpa using h
  | cons x l ih =>
    cases p with
    | nil => simp at h
    | cons y p =>
      simp only [List.map_cons, List.cons.injEq] at h
      have h1 := lowerByte_noLetter (b := x) (h.1 ▸ hp y (by simp))
      rw [ih (fun b hb => hp b (by simp [hb])) h.2, ← h.1, h1]

/-- A character that is no ASCII letter has no letter among its bytes. -/
theorem encChar_noLetter {c : Char} (h : ¬ (65 ≤ c.toNat ∧ c.toNat ≤ 90) ∧ ¬ (97 ≤ c.toNat ∧ c.toNat ≤ 122)) :
    ∀ b ∈ encChar c, NoLetter b := by
  intro b hb
  by_cases ha : c.toNat < 128
  · rw [encChar_ascii ha, List.mem_singleton] at hb
    subst hb
    unfold NoLetter
    rw [toNat_ofNat8 (by omega)]
    exact h
  · rw [encChar_def, if_neg (by omega)] at hb
    unfold NoLetter
    split at hb
    · simp only [List.mem_cons, List.not_mem_nil, or_false] at hb
      rcases hb with rfl | rfl <;> rw [toNat_ofNat8 (by omega)] <;> omega
    · split at hb
      · simp only [List.mem_cons, List.not_mem_nil, or_false] at hb
        rcases hb with rfl | rfl | rfl <;> rw [toNat_ofNat8 (by omega)] <;> omega
      · simp only [List.mem_cons, List.not_mem_nil, or_false] at hb
        rcases hb with rfl | rfl | rfl | rfl <;> rw [toNat_ofNat8 (by omega)] <;> omega

/-- Lower-casing commutes with splitting if the delimiter is no ASCII letter. -/
theorem splitOn_lower {c : Char} (h : ¬ (65 ≤ c.toNat ∧ c.toNat ≤ 90) ∧ ¬ (97 ≤ c.toNat ∧ c.toNat ≤ 122)) (v : Bytes) :
    splitOn c (asciiLower v) = (splitOn c v).map asciiLower := by
  have hpat : (encChar c).map lowerByte = encChar c := by
    conv => rhs; rw [← List.map_id (encChar c)]
    exact List.map_congr_left (fun b hb => lowerByte_of_noLetter (encChar_noLetter h b hb))
  apply pieces_unique c _ _ (splitOn_ne_nil _ _) (by simpa using splitOn_ne_nil c v) (splitOn_free _ _)
  · intro q hq
    obtain ⟨p, hp, rfl⟩ := List.mem_map.1 hq
    rintro ⟨a, b, hab⟩
    apply splitOn_free c v p hp
    unfold asciiLower at hab
    rw [eq_comm, List.map_eq_append_iff] at hab
    obtain ⟨l1, l2, rfl, h1, h2⟩ := hab
    rw [List.map_eq_append_iff] at h1
    obtain ⟨l3, l4, rfl, h3, h4⟩ := h1
    rw [map_lower_noLetter (encChar_noLetter h) h4]
    exact ⟨l3, l2, rfl⟩
  · rw [splitOn_join]
    have := intercalate_map lowerByte (encChar c) (splitOn c v)
    rw [splitOn_join, hpat] at this
    exact this

end Palc
