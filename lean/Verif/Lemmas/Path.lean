import Verif.SpecPath
import Verif.Lemmas.Utf8
/-!
# Lemmas about the program name
-/

namespace Palc

open Spec

theorem splitSlash_ne (p : Bytes) : splitSlash p ≠ [] := by
  cases p with
  | nil => simp [splitSlash]
  | cons b p =>
    simp only [splitSlash]
    split
    · simp
    · split <;> simp

theorem splitSlash_append (a b : Bytes) : splitSlash (a ++ 47 :: b) = splitSlash a ++ splitSlash b := by
  induction a with
  | nil => simp [splitSlash]
  | cons x a ih =>
    simp only [List.cons_append, splitSlash]
    split
    · simp [ih]
    · rw [ih]
      cases h : splitSlash a with
      | nil => exact absurd h (splitSlash_ne a)
      | cons y ys => simp

theorem splitSlash_free {n : Bytes} (h : (47 : UInt8) ∉ n) : splitSlash n = [n] := by
  induction n with
  | nil => rfl
  | cons b n ih =>
    simp only [List.mem_cons, not_or] at h
    rw [splitSlash, if_neg (fun hb => h.1 hb.symm), ih h.2]

theorem splitSlash_trailing {t : Bytes} (h : Trailing t) : ∀ {n : Bytes}, (47 : UInt8) ∉ n →
    ∃ ss, splitSlash (n ++ t) = n :: ss ∧ ∀ s ∈ ss, s = [] ∨ s = [46] := by
  induction h with
  | nil => exact fun hn => ⟨[], by simpa using splitSlash_free hn, by simp⟩
  | slash h ih =>
    intro n hn
    obtain ⟨ss, h1, h2⟩ := ih (n := []) (by simp)
    refine ⟨[] :: ss, by rw [splitSlash_append, splitSlash_free hn]; simpa using h1, ?_⟩
    intro s hs
    rcases List.mem_cons.1 hs with rfl | hs
    · exact .inl rfl
    · exact h2 s hs
  | dot h ih =>
    intro n hn
    obtain ⟨ss, h1, h2⟩ := ih (n := [46]) (by decide)
    refine ⟨[46] :: ss, by rw [splitSlash_append, splitSlash_free hn]; simpa using h1, ?_⟩
    intro s hs
    rcases List.mem_cons.1 hs with rfl | hs
    · exact .inr rfl
    · exact h2 s hs

theorem filter_trailing {ss : List Bytes} (h : ∀ s ∈ ss, s = [] ∨ s = [46]) :
    ss.filter (fun s => s ≠ [] ∧ s ≠ [46]) = [] := by
  rw [List.filter_eq_nil_iff]
  intro s hs
  rcases h s hs with rfl | rfl <;> simp

theorem fileName_final {p n : Bytes} (h : Final p n) : fileName p = if n = [46, 46] then none else some n := by
  obtain ⟨dir, t, rfl, hdir, h47, h1, h2, ht⟩ := h
  obtain ⟨ss, hss, hall⟩ := splitSlash_trailing ht h47
  have : ∃ pre, splitSlash (dir ++ n ++ t) = pre ++ n :: ss := by
    rcases hdir with rfl | ⟨dir', rfl⟩
    · exact ⟨[], by simpa using hss⟩
    · refine ⟨splitSlash dir', ?_⟩
      rw [← hss, ← splitSlash_append]
      simp
  obtain ⟨pre, hpre⟩ := this
  have hn : ([n] : List Bytes).filter (fun s => s ≠ [] ∧ s ≠ [46]) = [n] := by simp [h1, h2]
  rw [fileName, hpre, List.filter_append, show n :: ss = [n] ++ ss from rfl, List.filter_append, filter_trailing hall, hn]
  simp

theorem fileName_none {p : Bytes} (h : Trailing p ∨ ∃ t, Trailing t ∧ p = 46 :: t) : fileName p = none := by
  have : ∃ ss, splitSlash p = ss ∧ ∀ s ∈ ss, s = [] ∨ s = [46] := by
    refine ⟨_, rfl, ?_⟩
    rcases h with h | ⟨t, h, rfl⟩
    · obtain ⟨ss, h1, h2⟩ := splitSlash_trailing h (n := []) (by simp)
      rw [List.nil_append] at h1
      rw [h1]
      intro s hs
      rcases List.mem_cons.1 hs with rfl | hs
      · exact .inl rfl
      · exact h2 s hs
    · obtain ⟨ss, h1, h2⟩ := splitSlash_trailing h (n := [46]) (by decide)
      rw [show 46 :: t = [46] ++ t from rfl, h1]
      intro s hs
      rcases List.mem_cons.1 hs with rfl | hs
      · exact .inr rfl
      · exact h2 s hs
  obtain ⟨ss, h1, h2⟩ := this
  rw [fileName, h1, filter_trailing h2]
  rfl

/-- The program name is the file name, or all of `argv[0]`. -/
theorem nameOf_eq {p n : Bytes} (h : FileNameOf p n) : (fileName p).getD p = n := by
  rcases h with ⟨h, hn⟩ | ⟨rfl, h | h⟩
  · rw [fileName_final h, if_neg hn]; rfl
  · rw [fileName_final h, if_pos rfl]; rfl
  · rw [fileName_none h]; rfl

theorem final_or (p : Bytes) : (Trailing p ∨ ∃ t, Trailing t ∧ p = 46 :: t) ∨ ∃ n, Final p n := by
  induction p with
  | nil => exact .inl (.inl .nil)
  | cons b p ih =>
    rcases ih with (h | ⟨t, h, rfl⟩) | ⟨n, dir, t, rfl, hdir, h47, h1, h2, ht⟩
    · by_cases hb : b = 47
      · subst hb; exact .inl (.inl (.slash h))
      · by_cases hb' : b = 46
        · subst hb'; exact .inl (.inr ⟨p, h, rfl⟩)
        · exact .inr ⟨[b], [], p, rfl, .inl rfl, by simpa using fun h => hb h.symm, by simp, by simpa using hb', h⟩
    · by_cases hb : b = 47
      · subst hb; exact .inl (.inl (.dot h))
      · refine .inr ⟨[b, 46], [], t, rfl, .inl rfl, ?_, by simp, by simp, h⟩
        simp only [List.mem_cons, List.not_mem_nil, or_false, not_or]
        exact ⟨fun h => hb h.symm, by decide⟩
    · rcases hdir with rfl | ⟨dir', rfl⟩
      · by_cases hb : b = 47
        · subst hb; exact .inr ⟨n, [47], t, rfl, .inr ⟨[], rfl⟩, h47, h1, h2, ht⟩
        · refine .inr ⟨b :: n, [], t, rfl, .inl rfl, ?_, by simp, ?_, ht⟩
          · simp only [List.mem_cons, not_or]; exact ⟨fun h => hb h.symm, h47⟩
          · intro h; cases h; exact h1 rfl
      · exact .inr ⟨n, b :: dir' ++ [47], t, by simp, .inr ⟨b :: dir', rfl⟩, h47, h1, h2, ht⟩

theorem nameOf_exists (p : Bytes) : ∃ n, FileNameOf p n := by
  rcases final_or p with h | ⟨n, h⟩
  · exact ⟨p, .inr ⟨rfl, .inr h⟩⟩
  · by_cases hn : n = [46, 46]
    · subst hn; exact ⟨p, .inr ⟨rfl, .inl h⟩⟩
    · exact ⟨n, .inl ⟨h, hn⟩⟩

/-! ## Lossy decoding -/

theorem encChar_val3 {b0 b1 b2 : UInt8} (h3 : 0xE0 ≤ b0.toNat ∧ b0.toNat ≤ 0xEF) (h : second3 b0 b1 = true) (hc : isCont b2 = true) :
    encChar (val3 b0 b1 b2) = [b0, b1, b2] := by
  simp only [isCont, second3, decide_eq_true_eq] at h hc
  have e : (val3 b0 b1 b2).toNat = b0.toNat % 16 * 4096 + b1.toNat % 64 * 64 + b2.toNat % 64 :=
    toNat_ofNat_valid (by omega)
  rw [encChar_def, e, if_neg (by omega), if_neg (by omega), if_pos (by omega)]
  rw [← u8_eq_ofNat (b := b0) (by omega), ← u8_eq_ofNat (b := b1) (by omega),
    ← u8_eq_ofNat (b := b2) (by omega)]

theorem encChar_val4 {b0 b1 b2 b3 : UInt8} (h4 : 0xF0 ≤ b0.toNat ∧ b0.toNat ≤ 0xF4) (h : second4 b0 b1 = true)
    (h2 : isCont b2 = true) (hc : isCont b3 = true) : encChar (val4 b0 b1 b2 b3) = [b0, b1, b2, b3] := by
  simp only [isCont, second4, decide_eq_true_eq] at h h2 hc
  have e : (val4 b0 b1 b2 b3).toNat = b0.toNat % 8 * 262144 + b1.toNat % 64 * 4096
      + b2.toNat % 64 * 64 + b3.toNat % 64 := toNat_ofNat_valid (by omega)
  rw [encChar_def, e, if_neg (by omega), if_neg (by omega), if_neg (by omega)]
  rw [← u8_eq_ofNat (b := b0) (by omega), ← u8_eq_ofNat (b := b1) (by omega),
    ← u8_eq_ofNat (b := b2) (by omega), ← u8_eq_ofNat (b := b3) (by omega)]

theorem begins3 {b0 b1 : UInt8} (h3 : 0xE0 ≤ b0.toNat ∧ b0.toNat ≤ 0xEF) (h : second3 b0 b1 = true) : Begins [b0, b1] :=
  ⟨by simp, val3 b0 b1 0x80, [0x80], encChar_val3 h3 h (by decide), by simp⟩

theorem begins4 {b0 b1 : UInt8} (h4 : 0xF0 ≤ b0.toNat ∧ b0.toNat ≤ 0xF4) (h : second4 b0 b1 = true) : Begins [b0, b1] :=
  ⟨by simp, val4 b0 b1 0x80 0x80, [0x80, 0x80], encChar_val4 h4 h (by decide) (by decide), by simp⟩

theorem begins4' {b0 b1 b2 : UInt8} (h4 : 0xF0 ≤ b0.toNat ∧ b0.toNat ≤ 0xF4) (h : second4 b0 b1 = true) (h2 : isCont b2 = true) :
    Begins [b0, b1, b2] :=
  ⟨by simp, val4 b0 b1 b2 0x80, [0x80], encChar_val4 h4 h h2 (by decide), by simp⟩

/-- What is dropped is one byte or the beginning of a character. -/
theorem invalidLen_begins (bs : Bytes) : invalidLen bs = 1 ∨ (Begins (bs.take (invalidLen bs)) ∧ invalidLen bs ≤ bs.length) := by
  unfold invalidLen
  split
  · split
    · split
      · exact .inr ⟨begins3 ‹_› ‹_›, by simp⟩
      · exact .inl rfl
    · split
      · split
        · split
          · exact .inr ⟨begins4' ‹_› ‹_› ‹_›, by simp⟩
          · exact .inr ⟨begins4 ‹_› ‹_›, by simp⟩
        · exact .inl rfl
      · exact .inl rfl
  · split
    · split
      · exact .inr ⟨begins3 ‹_› ‹_›, by simp⟩
      · exact .inl rfl
    · split
      · split
        · exact .inr ⟨begins4 ‹_› ‹_›, by simp⟩
        · exact .inl rfl
      · exact .inl rfl
  · exact .inl rfl

/-- The shape of the proper beginnings of characters. -/
theorem begins_shape {m : Bytes} (h : Begins m) : m.length = 1
    ∨ (∃ b0 b1, m = [b0, b1] ∧ ((0xE0 ≤ b0.toNat ∧ b0.toNat ≤ 0xEF ∧ second3 b0 b1 = true)
        ∨ (0xF0 ≤ b0.toNat ∧ b0.toNat ≤ 0xF4 ∧ second4 b0 b1 = true)))
    ∨ (∃ b0 b1 b2, m = [b0, b1, b2] ∧ 0xF0 ≤ b0.toNat ∧ b0.toNat ≤ 0xF4 ∧ second4 b0 b1 = true ∧ isCont b2 = true) := by
  obtain ⟨hm, c, q, h, hq⟩ := h
  have hv := char_valid c
  have e0 : ∀ n, n < 256 → (UInt8.ofNat n).toNat = n := fun n => toNat_ofNat8
  rw [encChar_def] at h
  split at h
  · match m, hm, q, hq with
    | [_], _, _ :: _, _ => simp at h
    | _ :: _ :: _, _, _, _ => simp at h
  · split at h
    · match m, hm, q, hq with
      | [_], _, _, _ => exact .inl rfl
      | [_, _], _, _ :: _, _ => simp at h
      | _ :: _ :: _ :: _, _, _, _ => simp at h
    · split at h
      · match m, hm, q, hq with
        | [_], _, _, _ => exact .inl rfl
        | [b0, b1], _, _, _ =>
          simp only [List.cons_append, List.cons.injEq] at h
          refine .inr (.inl ⟨b0, b1, rfl, .inl ?_⟩)
          rw [← h.1, ← h.2.1]
          simp only [second3, decide_eq_true_eq]
          rw [e0 _ (by omega), e0 _ (by omega)]
          omega
        | [_, _, _], _, _ :: _, _ => simp at h
        | _ :: _ :: _ :: _ :: _, _, _, _ => simp at h
      · match m, hm, q, hq with
        | [_], _, _, _ => exact .inl rfl
        | [b0, b1], _, _, _ =>
          simp only [List.cons_append, List.cons.injEq] at h
          refine .inr (.inl ⟨b0, b1, rfl, .inr ?_⟩)
          rw [← h.1, ← h.2.1]
          simp only [second4, decide_eq_true_eq]
          rw [e0 _ (by omega), e0 _ (by omega)]
          omega
        | [b0, b1, b2], _, _, _ =>
          simp only [List.cons_append, List.cons.injEq] at h
          refine .inr (.inr ⟨b0, b1, b2, rfl, ?_⟩)
          rw [← h.1, ← h.2.1, ← h.2.2.1]
          simp only [second4, isCont, decide_eq_true_eq]
          rw [e0 _ (by omega), e0 _ (by omega), e0 _ (by omega)]
          omega
        | [_, _, _, _], _, _ :: _, _ => simp at h
        | _ :: _ :: _ :: _ :: _ :: _, _, _, _ => simp at h

theorem invalidLen_pos (bs : Bytes) : 1 ≤ invalidLen bs := by
  unfold invalidLen
  repeat' split
  all_goals omega

/-- No longer beginning of a character is there. -/
theorem invalidLen_max {bs m : Bytes} (hm : m <+: bs) (hb : Begins m) : m.length ≤ invalidLen bs := by
  obtain ⟨r, rfl⟩ := hm
  rcases begins_shape hb with h | ⟨b0, b1, rfl, h⟩ | ⟨b0, b1, b2, rfl, h1, h2, h3, h4⟩
  · rw [h]; exact invalidLen_pos _
  · cases r with
    | nil =>
      rcases h with ⟨h1, h2, h3⟩ | ⟨h1, h2, h3⟩
      · simp [invalidLen, h1, h2, h3]
      · simp only [List.append_nil, invalidLen]
        rw [if_neg (by omega), if_pos ⟨h1, h2⟩, if_pos h3]
        simp
    | cons x r =>
      rcases h with ⟨h1, h2, h3⟩ | ⟨h1, h2, h3⟩
      · simp [invalidLen, h1, h2, h3]
      · simp only [List.cons_append, List.nil_append, invalidLen]
        rw [if_neg (by omega), if_pos ⟨h1, h2⟩, if_pos h3]
        split <;> simp
  · simp only [List.cons_append, List.nil_append, invalidLen]
    rw [if_neg (by omega), if_pos ⟨h1, h2⟩, if_pos h3, if_pos h4]
    simp

theorem utf8Chunk_none {bs : Bytes} (h : ∀ c r, bs ≠ encChar c ++ r) : utf8Chunk bs = ([], bs) := by
  have j := utf8Chunk_join bs
  cases hu : utf8Chunk bs with
  | mk cs rest =>
    rw [hu] at j
    cases cs with
    | nil => simp only [enc_nil, List.nil_append] at j; rw [j]
    | cons c cs =>
      rw [enc_cons, List.append_assoc] at j
      exact absurd j.symm (h c _)

theorem lossyGo_char (fuel : Nat) (c : Char) (bs : Bytes) :
    lossyGo (fuel + 1) (encChar c ++ bs) = c :: lossyGo (fuel + 1) bs := by
  simp only [lossyGo]
  rw [utf8Chunk_encChar]
  cases utf8Chunk bs with
  | mk cs rest => cases rest <;> simp

theorem lossyGo_bad (fuel : Nat) {bs : Bytes} (hne : bs ≠ []) (h : ∀ c r, bs ≠ encChar c ++ r) :
    lossyGo (fuel + 1) bs = Char.ofNat 0xFFFD :: lossyGo fuel (bs.drop (invalidLen bs)) := by
  simp only [lossyGo]
  rw [utf8Chunk_none h]
  cases bs with
  | nil => exact absurd rfl hne
  | cons b bs => rfl

theorem decoded_go {bs : Bytes} {s : Str} (h : Decoded bs s) : ∀ {fuel}, bs.length < fuel → lossyGo fuel bs = s := by
  induction h with
  | nil =>
    intro fuel hf
    cases fuel with
    | zero => simp at hf
    | succ fuel => rfl
  | char c h ih =>
    intro fuel hf
    cases fuel with
    | zero => simp at hf
    | succ fuel =>
      rw [lossyGo_char, ih]
      rw [List.length_append] at hf
      omega
  | @bad bad bs s hc hb hm h ih =>
    intro fuel hf
    have hne : bad ≠ [] := by
      rcases hb with hb | hb
      · rintro rfl; cases hb
      · exact hb.1
    have hlen : invalidLen (bad ++ bs) = bad.length := by
      apply Nat.le_antisymm
      · rcases invalidLen_begins (bad ++ bs) with h | ⟨h, hl⟩
        · rw [h]; exact List.length_pos_iff.2 hne
        · have := hm _ (List.take_prefix _ _) h
          rw [List.length_take] at this
          omega
      · rcases hb with hb | hb
        · rw [hb]; exact invalidLen_pos _
        · exact invalidLen_max (List.prefix_append _ _) hb
    cases fuel with
    | zero => simp at hf
    | succ fuel =>
      rw [lossyGo_bad fuel (by simp [hne]) hc, hlen, List.drop_left, ih]
      rw [List.length_append] at hf
      have := List.length_pos_iff.2 hne
      omega

/-- The specification of decoding determines the text. -/
theorem decoded_eq {bs : Bytes} {s : Str} (h : Decoded bs s) : lossy bs = s := decoded_go h (Nat.lt_succ_self _)

theorem decoded_exists (bs : Bytes) : ∃ s, Decoded bs s := by
  generalize hl : bs.length = l
  induction l using Nat.strongRecOn generalizing bs with
  | _ l ih =>
    by_cases hc : ∃ c r, bs = encChar c ++ r
    · obtain ⟨c, r, rfl⟩ := hc
      have := encChar_length_pos c
      rw [List.length_append] at hl
      obtain ⟨s, hs⟩ := ih r.length (by omega) r rfl
      exact ⟨_, .char c hs⟩
    · cases bs with
      | nil => exact ⟨[], .nil⟩
      | cons b bs =>
        have hle : invalidLen (b :: bs) ≤ (b :: bs).length := by
          rcases invalidLen_begins (b :: bs) with h | h
          · rw [h]; simp
          · exact h.2
        have hpos := invalidLen_pos (b :: bs)
        obtain ⟨s, hs⟩ := ih ((b :: bs).drop (invalidLen (b :: bs))).length (by rw [List.length_drop]; omega) _ rfl
        have hd : (b :: bs).take (invalidLen (b :: bs)) ++ (b :: bs).drop (invalidLen (b :: bs)) = b :: bs := List.take_append_drop _ _
        have ht : ((b :: bs).take (invalidLen (b :: bs))).length = invalidLen (b :: bs) := by
          rw [List.length_take]; omega
        have := Decoded.bad (bad := (b :: bs).take (invalidLen (b :: bs))) (s := s)
          (bs := (b :: bs).drop (invalidLen (b :: bs)))
          (by rw [hd]; exact fun c r h => hc ⟨c, r, h⟩)
          (by rcases invalidLen_begins (b :: bs) with h | h
              · exact .inl (by rw [ht, h])
              · exact .inr h.1)
          (by rw [hd, ht]; exact fun m => invalidLen_max) hs
        rw [hd] at this
        exact ⟨_, this⟩

end Palc
