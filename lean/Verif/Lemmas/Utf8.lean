import Verif.Bytes
/-! Correctness of the UTF-8 model: `utf8Chunk` inverts `enc`. -/

namespace Palc

theorem char_valid (c : Char) :
    c.toNat < 0xd800 ∨ (0xdfff < c.toNat ∧ c.toNat < 0x110000) := by
  exact c.valid

theorem char_ofNat_toNat (c : Char) : Char.ofNat c.toNat = c := by simp

theorem char_ofNat_eq {n : Nat} {c : Char} (h : n = c.toNat) : Char.ofNat n = c := by
  subst h; simp

theorem toNat_ofNat_valid {n : Nat} (h : n < 0xd800 ∨ (0xdfff < n ∧ n < 0x110000)) :
    (Char.ofNat n).toNat = n := by
  have : n.isValidChar := by simpa [Nat.isValidChar] using h
  simp [Char.ofNat, this, Char.toNat, Char.ofNatAux]

theorem encChar_def (c : Char) : encChar c =
    if c.toNat ≤ 0x7f then [UInt8.ofNat c.toNat]
    else if c.toNat ≤ 0x7ff then
      [UInt8.ofNat (c.toNat / 64 % 32 + 192), UInt8.ofNat (c.toNat % 64 + 128)]
    else if c.toNat ≤ 0xffff then
      [UInt8.ofNat (c.toNat / 4096 % 16 + 224), UInt8.ofNat (c.toNat / 64 % 64 + 128),
        UInt8.ofNat (c.toNat % 64 + 128)]
    else
      [UInt8.ofNat (c.toNat / 262144 % 8 + 240), UInt8.ofNat (c.toNat / 4096 % 64 + 128),
        UInt8.ofNat (c.toNat / 64 % 64 + 128), UInt8.ofNat (c.toNat % 64 + 128)] := rfl

theorem toNat_ofNat8 {n : Nat} (h : n < 256) : (UInt8.ofNat n).toNat = n := by
  simp [UInt8.toNat_ofNat']; omega

theorem u8_eq_ofNat {b : UInt8} {n : Nat} (h : b.toNat = n) : b = UInt8.ofNat n := by
  subst h; simp

/-- Reading one encoded character. -/
theorem utf8Chunk_encChar (c : Char) (rest : Bytes) :
    utf8Chunk (encChar c ++ rest) = (c :: (utf8Chunk rest).1, (utf8Chunk rest).2) := by
  have hv := char_valid c
  rw [encChar_def]
  split
  · rename_i h1
    have e0 : (UInt8.ofNat c.toNat).toNat = c.toNat := toNat_ofNat8 (by omega)
    simp only [List.cons_append, List.nil_append]
    rw [utf8Chunk.eq_def]
    simp only [e0]
    have : c.toNat < 128 := by omega
    simp [this]
  · split
    · rename_i h1 h2
      have e0 : (UInt8.ofNat (c.toNat / 64 % 32 + 192)).toNat = c.toNat / 64 % 32 + 192 :=
        toNat_ofNat8 (by omega)
      have e1 : (UInt8.ofNat (c.toNat % 64 + 128)).toNat = c.toNat % 64 + 128 :=
        toNat_ofNat8 (by omega)
      simp only [List.cons_append, List.nil_append]
      rw [utf8Chunk.eq_def]
      have g1 : ¬ (c.toNat / 64 % 32 + 192 < 128) := by omega
      have g2 : 0xC2 ≤ c.toNat / 64 % 32 + 192 ∧ c.toNat / 64 % 32 + 192 ≤ 0xDF := by omega
      have g3 : isCont (UInt8.ofNat (c.toNat % 64 + 128)) = true := by
        simp only [isCont, e1]; rw [decide_eq_true_iff]; omega
      have g4 : val2 (UInt8.ofNat (c.toNat / 64 % 32 + 192)) (UInt8.ofNat (c.toNat % 64 + 128)) = c := by
        simp only [val2, e0, e1]; apply char_ofNat_eq; omega
      simp only [e0, g1, g2, g3, g4, if_true, if_false, and_self]
    · split
      · rename_i h1 h2 h3
        have e0 : (UInt8.ofNat (c.toNat / 4096 % 16 + 224)).toNat = c.toNat / 4096 % 16 + 224 :=
          toNat_ofNat8 (by omega)
        have e1 : (UInt8.ofNat (c.toNat / 64 % 64 + 128)).toNat = c.toNat / 64 % 64 + 128 :=
          toNat_ofNat8 (by omega)
        have e2 : (UInt8.ofNat (c.toNat % 64 + 128)).toNat = c.toNat % 64 + 128 :=
          toNat_ofNat8 (by omega)
        simp only [List.cons_append, List.nil_append]
        rw [utf8Chunk.eq_def]
        have g1 : ¬ (c.toNat / 4096 % 16 + 224 < 128) := by omega
        have g2 : ¬ (0xC2 ≤ c.toNat / 4096 % 16 + 224 ∧ c.toNat / 4096 % 16 + 224 ≤ 0xDF) := by omega
        have g3 : 0xE0 ≤ c.toNat / 4096 % 16 + 224 ∧ c.toNat / 4096 % 16 + 224 ≤ 0xEF := by omega
        have g4 : isCont (UInt8.ofNat (c.toNat % 64 + 128)) = true := by
          simp only [isCont, e2]; rw [decide_eq_true_iff]; omega
        have g5 : second3 (UInt8.ofNat (c.toNat / 4096 % 16 + 224))
            (UInt8.ofNat (c.toNat / 64 % 64 + 128)) = true := by
          simp only [second3, e0, e1]; rw [decide_eq_true_iff]; omega
        have g6 : val3 (UInt8.ofNat (c.toNat / 4096 % 16 + 224))
            (UInt8.ofNat (c.toNat / 64 % 64 + 128)) (UInt8.ofNat (c.toNat % 64 + 128)) = c := by
          simp only [val3, e0, e1, e2]; apply char_ofNat_eq; omega
        simp only [e0, g1, g2, g3, g4, g5, g6, if_true, if_false, and_self, Bool.and_self]
      · rename_i h1 h2 h3
        have e0 : (UInt8.ofNat (c.toNat / 262144 % 8 + 240)).toNat = c.toNat / 262144 % 8 + 240 :=
          toNat_ofNat8 (by omega)
        have e1 : (UInt8.ofNat (c.toNat / 4096 % 64 + 128)).toNat = c.toNat / 4096 % 64 + 128 :=
          toNat_ofNat8 (by omega)
        have e2 : (UInt8.ofNat (c.toNat / 64 % 64 + 128)).toNat = c.toNat / 64 % 64 + 128 :=
          toNat_ofNat8 (by omega)
        have e3 : (UInt8.ofNat (c.toNat % 64 + 128)).toNat = c.toNat % 64 + 128 :=
          toNat_ofNat8 (by omega)
        simp only [List.cons_append, List.nil_append]
        rw [utf8Chunk.eq_def]
        have g1 : ¬ (c.toNat / 262144 % 8 + 240 < 128) := by omega
        have g2 : ¬ (0xC2 ≤ c.toNat / 262144 % 8 + 240 ∧ c.toNat / 262144 % 8 + 240 ≤ 0xDF) := by omega
        have g3 : ¬ (0xE0 ≤ c.toNat / 262144 % 8 + 240 ∧ c.toNat / 262144 % 8 + 240 ≤ 0xEF) := by omega
        have g3' : 0xF0 ≤ c.toNat / 262144 % 8 + 240 ∧ c.toNat / 262144 % 8 + 240 ≤ 0xF4 := by omega
        have g4 : isCont (UInt8.ofNat (c.toNat % 64 + 128)) = true := by
          simp only [isCont, e3]; rw [decide_eq_true_iff]; omega
        have g4' : isCont (UInt8.ofNat (c.toNat / 64 % 64 + 128)) = true := by
          simp only [isCont, e2]; rw [decide_eq_true_iff]; omega
        have g5 : second4 (UInt8.ofNat (c.toNat / 262144 % 8 + 240))
            (UInt8.ofNat (c.toNat / 4096 % 64 + 128)) = true := by
          simp only [second4, e0, e1]; rw [decide_eq_true_iff]; omega
        have g6 : val4 (UInt8.ofNat (c.toNat / 262144 % 8 + 240))
            (UInt8.ofNat (c.toNat / 4096 % 64 + 128)) (UInt8.ofNat (c.toNat / 64 % 64 + 128))
            (UInt8.ofNat (c.toNat % 64 + 128)) = c := by
          simp only [val4, e0, e1, e2, e3]; apply char_ofNat_eq; omega
        simp only [e0, g1, g2, g3, g3', g4, g4', g5, g6, if_true, if_false, and_self, Bool.and_self]

theorem enc_nil : enc [] = [] := rfl
theorem enc_cons (c : Char) (s : Str) : enc (c :: s) = encChar c ++ enc s := rfl
theorem enc_append (s t : Str) : enc (s ++ t) = enc s ++ enc t := by
  simp [enc]

theorem utf8Chunk_enc_append (s : Str) (rest : Bytes) :
    utf8Chunk (enc s ++ rest) = (s ++ (utf8Chunk rest).1, (utf8Chunk rest).2) := by
  induction s with
  | nil => simp [enc_nil]
  | cons c s ih => rw [enc_cons, List.append_assoc, utf8Chunk_encChar, ih]; rfl

theorem utf8Chunk_nil : utf8Chunk [] = ([], []) := rfl

theorem utf8Chunk_enc (s : Str) : utf8Chunk (enc s) = (s, []) := by
  have := utf8Chunk_enc_append s []
  simpa [utf8Chunk_nil] using this

theorem fromUtf8_enc (s : Str) : fromUtf8 (enc s) = some s := by
  simp [fromUtf8, utf8Chunk_enc]

theorem enc_injective {s t : Str} (h : enc s = enc t) : s = t := by
  have := congrArg fromUtf8 h
  simpa [fromUtf8_enc] using this

theorem encChar_length_pos (c : Char) : 0 < (encChar c).length := by
  rw [encChar_def]; split
  · simp
  · split
    · simp
    · split <;> simp

theorem encChar_ne_nil (c : Char) : encChar c ≠ [] := by
  intro h
  have := encChar_length_pos c
  simp [h] at this

theorem encChar_injective {c d : Char} (h : encChar c = encChar d) : c = d := by
  have : enc [c] = enc [d] := by simp [enc, h]
  simpa using enc_injective this

theorem encChar_append_inj {c d : Char} {r s : Bytes} (h : encChar c ++ r = encChar d ++ s) :
    c = d ∧ r = s := by
  have h1 := utf8Chunk_encChar c r
  rw [h, utf8Chunk_encChar] at h1
  have : d = c := by
    have := congrArg Prod.fst h1
    simp only [List.cons.injEq] at this
    exact this.1
  subst this
  exact ⟨rfl, List.append_cancel_left h⟩

theorem enc_eq_nil {s : Str} : enc s = [] ↔ s = [] := by
  constructor
  · intro h; exact enc_injective (by simpa [enc_nil] using h)
  · rintro rfl; rfl

/-- The two parts of the chunk make up the input. -/
theorem utf8Chunk_join (bs : Bytes) : enc (utf8Chunk bs).1 ++ (utf8Chunk bs).2 = bs := by
  fun_induction utf8Chunk bs with
  | case1 => rfl
  | case2 b0 r0 h cs rest heq ih =>
    rw [heq] at ih
    simp only at ih ⊢
    rw [enc_cons, List.append_assoc, ih]
    have e : (Char.ofNat b0.toNat).toNat = b0.toNat := toNat_ofNat_valid (by omega)
    rw [encChar_def, e, if_pos (by omega)]
    simp
  | case3 b0 h1 h2 b1 r1 hc cs rest heq ih =>
    rw [heq] at ih
    simp only at ih ⊢
    rw [enc_cons, List.append_assoc, ih]
    simp only [isCont, decide_eq_true_eq] at hc
    have e : (val2 b0 b1).toNat = b0.toNat % 32 * 64 + b1.toNat % 64 := toNat_ofNat_valid (by omega)
    rw [encChar_def, e, if_neg (by omega), if_pos (by omega)]
    rw [← u8_eq_ofNat (b := b0) (by omega), ← u8_eq_ofNat (b := b1) (by omega)]
    rfl
  | case4 => simp [enc_nil]
  | case5 => simp [enc_nil]
  | case6 b0 h1 h2 h3 b1 b2 r2 hc cs rest heq ih =>
    rw [heq] at ih
    simp only at ih ⊢
    rw [enc_cons, List.append_assoc, ih]
    simp only [isCont, second3, Bool.and_eq_true, decide_eq_true_eq] at hc
    have e : (val3 b0 b1 b2).toNat = b0.toNat % 16 * 4096 + b1.toNat % 64 * 64 + b2.toNat % 64 :=
      toNat_ofNat_valid (by omega)
    rw [encChar_def, e, if_neg (by omega), if_neg (by omega), if_pos (by omega)]
    rw [← u8_eq_ofNat (b := b0) (by omega), ← u8_eq_ofNat (b := b1) (by omega),
      ← u8_eq_ofNat (b := b2) (by omega)]
    rfl
  | case7 => simp [enc_nil]
  | case8 => simp [enc_nil]
  | case9 b0 h1 h2 h3 h4 b1 b2 b3 r3 hc cs rest heq ih =>
    rw [heq] at ih
    simp only at ih ⊢
    rw [enc_cons, List.append_assoc, ih]
    simp only [isCont, second4, Bool.and_eq_true, decide_eq_true_eq] at hc
    have e : (val4 b0 b1 b2 b3).toNat = b0.toNat % 8 * 262144 + b1.toNat % 64 * 4096
        + b2.toNat % 64 * 64 + b3.toNat % 64 := toNat_ofNat_valid (by omega)
    rw [encChar_def, e, if_neg (by omega), if_neg (by omega), if_neg (by omega)]
    rw [← u8_eq_ofNat (b := b0) (by omega), ← u8_eq_ofNat (b := b1) (by omega),
      ← u8_eq_ofNat (b := b2) (by omega), ← u8_eq_ofNat (b := b3) (by omega)]
    rfl
  | case10 => simp [enc_nil]
  | case11 => simp [enc_nil]
  | case12 => simp [enc_nil]

theorem fromUtf8_eq_some {bs : Bytes} {s : Str} : fromUtf8 bs = some s ↔ bs = enc s := by
  constructor
  · intro h
    have j := utf8Chunk_join bs
    unfold fromUtf8 at h
    split at h
    · rename_i cs heq
      rw [heq] at j
      cases h
      simpa using j.symm
    · cases h
  · rintro rfl; exact fromUtf8_enc s

/-- What follows the valid part does not start with a complete character. -/
theorem utf8Chunk_rest_not_char (bs : Bytes) (c : Char) (r : Bytes) :
    (utf8Chunk bs).2 ≠ encChar c ++ r := by
  intro h
  have j := utf8Chunk_join bs
  have h2 := utf8Chunk_enc_append (utf8Chunk bs).1 (utf8Chunk bs).2
  rw [j] at h2
  have h3 := congrArg Prod.fst h2
  simp only at h3
  rw [h, utf8Chunk_encChar] at h3
  have := congrArg List.length h3
  simp at this

/-- ASCII characters are encoded by one byte. -/
theorem encChar_ascii {c : Char} (h : c.toNat < 128) : encChar c = [UInt8.ofNat c.toNat] := by
  rw [encChar_def, if_pos (by omega)]

/-- A byte below 128 occurs in an encoded character only as the character itself. -/
theorem mem_encChar_ascii {c : Char} {b : UInt8} (hb : b.toNat < 128) (h : b ∈ encChar c) :
    encChar c = [b] := by
  have hv := char_valid c
  rw [encChar_def] at h ⊢
  split at h
  · rename_i h1
    simp only [List.mem_singleton] at h
    rw [if_pos h1, h]
  · exfalso
    split at h
    · simp only [List.mem_cons, List.not_mem_nil, or_false] at h
      rcases h with h | h <;> · rw [h, toNat_ofNat8 (by omega)] at hb; omega
    · split at h
      · simp only [List.mem_cons, List.not_mem_nil, or_false] at h
        rcases h with h | h | h <;> · rw [h, toNat_ofNat8 (by omega)] at hb; omega
      · simp only [List.mem_cons, List.not_mem_nil, or_false] at h
        rcases h with h | h | h | h <;> · rw [h, toNat_ofNat8 (by omega)] at hb; omega

theorem encChar_dash : encChar '-' = [dash] := by decide
theorem encChar_eq : encChar '=' = [eqSign] := by decide

theorem mem_enc_ascii {s : Str} {c : Char} (hc : c.toNat < 128) :
    UInt8.ofNat c.toNat ∈ enc s ↔ c ∈ s := by
  constructor
  · intro h
    simp only [enc, List.mem_flatMap] at h
    obtain ⟨d, hd, hb⟩ := h
    have := mem_encChar_ascii (by rw [toNat_ofNat8 (by omega)]; omega) hb
    rw [← encChar_ascii hc] at this
    have := encChar_injective this
    rwa [← this]
  · intro h
    simp only [enc, List.mem_flatMap]
    exact ⟨c, h, by rw [encChar_ascii hc]; simp⟩

theorem eqSign_mem_enc {s : Str} : eqSign ∈ enc s ↔ '=' ∈ s :=
  mem_enc_ascii (s := s) (c := '=') (by decide)

/-- First byte of an encoded character versus an ASCII character. -/
theorem encChar_head_ascii {c d : Char} {r : Bytes} (hd : d.toNat < 128)
    (h : encChar c = UInt8.ofNat d.toNat :: r) : c = d := by
  have := mem_encChar_ascii (c := c) (b := UInt8.ofNat d.toNat)
    (by rw [toNat_ofNat8 (by omega)]; omega) (by rw [h]; simp)
  rw [← encChar_ascii hd] at this
  exact encChar_injective this

/-! ## Boundaries -/

theorem encChar_len (c : Char) : 1 ≤ (encChar c).length ∧ (encChar c).length ≤ 4 := by
  have h1 := String.length_utf8EncodeChar c
  have h2 := Char.utf8Size_pos c
  have h3 := Char.utf8Size_le_four c
  unfold encChar
  omega

/-- Immediately after a character is a boundary. -/
theorem isBoundary_after (done : Bytes) (c : Char) (rest : Bytes) :
    isBoundary (done ++ (encChar c ++ rest)) (done.length + (encChar c).length) = true := by
  obtain ⟨h1, h4⟩ := encChar_len c
  unfold isBoundary
  cases rest with
  | nil => simp
  | cons b rest =>
    have ht : (done ++ (encChar c ++ b :: rest)).take (done.length + (encChar c).length) = done ++ encChar c := by
      rw [← List.append_assoc, ← List.length_append, List.take_left]
    have hf : fromUtf8 (((done ++ (encChar c ++ b :: rest)).take (done.length + (encChar c).length)).drop
        (done.length + (encChar c).length - (encChar c).length)) = some [c] := by
      rw [ht, Nat.add_sub_cancel, List.drop_left]
      have := utf8Chunk_enc [c]
      rw [show enc [c] = encChar c by simp [enc]] at this
      rw [fromUtf8, this]
    have hany : [1, 2, 3, 4].any (fun k => decide (k ≤ done.length + (encChar c).length) &&
        (fromUtf8 (((done ++ (encChar c ++ b :: rest)).take (done.length + (encChar c).length)).drop
          (done.length + (encChar c).length - k))).isSome) = true := by
      rw [List.any_eq_true]
      refine ⟨(encChar c).length, ?_, ?_⟩
      · simp only [List.mem_cons, List.not_mem_nil, or_false]; omega
      · rw [hf]; simp
    rw [hany]
    simp

/-- The end of the valid prefix is a boundary. -/
theorem osIndex_chunk (b : Bytes) :
    osIndex b (enc (utf8Chunk b).1).length = some (b.drop (enc (utf8Chunk b).1).length) := by
  rw [osIndex, if_pos]
  have hj := utf8Chunk_join b
  generalize (utf8Chunk b).1 = s, (utf8Chunk b).2 = r at hj
  subst hj
  rcases List.eq_nil_or_concat s with rfl | ⟨s', c, rfl⟩
  · simp [enc, isBoundary]
  · have he : enc (s' ++ [c]) = enc s' ++ encChar c := by simp [enc]
    rw [List.concat_eq_append, he, List.append_assoc, List.length_append]
    exact isBoundary_after _ c r

end Palc
