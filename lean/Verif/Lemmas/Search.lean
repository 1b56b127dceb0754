import Verif.Defs
import Verif.Lemmas.Utf8
/-! Byte-string order, sorting and binary search. -/

namespace Palc

theorem cmpBytes_refl (a : Bytes) : cmpBytes a a = .eq := by
  induction a with
  | nil => rfl
  | cons x xs ih => simp [cmpBytes, UInt8.lt_irrefl, ih]

theorem cmpBytes_eq {a b : Bytes} : cmpBytes a b = .eq ↔ a = b := by
  constructor
  · induction a generalizing b with
    | nil => cases b <;> simp [cmpBytes]
    | cons x xs ih =>
      cases b with
      | nil => simp [cmpBytes]
      | cons y ys =>
        simp only [cmpBytes]
        split
        · simp
        · split
          · simp
          · intro h
            rename_i h1 h2
            have : x = y := UInt8.le_antisymm (UInt8.not_lt.mp h2) (UInt8.not_lt.mp h1)
            rw [this, ih h]
  · rintro rfl; exact cmpBytes_refl a

theorem cmpBytes_gt {a b : Bytes} : cmpBytes a b = .gt ↔ cmpBytes b a = .lt := by
  induction a generalizing b with
  | nil => cases b <;> simp [cmpBytes]
  | cons x xs ih =>
    cases b with
    | nil => simp [cmpBytes]
    | cons y ys =>
      simp only [cmpBytes]
      by_cases h1 : x < y
      · have : ¬ y < x := UInt8.lt_asymm h1
        simp [h1, this]
      · by_cases h2 : y < x
        · simp [h1, h2]
        · simp [h1, h2, ih]

theorem cmpBytes_lt_trans {a b c : Bytes} (h1 : cmpBytes a b = .lt) (h2 : cmpBytes b c = .lt) :
    cmpBytes a c = .lt := by
  induction a generalizing b c with
  | nil =>
    cases b with
    | nil => simp [cmpBytes] at h1
    | cons y ys => cases c <;> simp [cmpBytes] at h2 ⊢
  | cons x xs ih =>
    cases b with
    | nil => simp [cmpBytes] at h1
    | cons y ys =>
      cases c with
      | nil => simp [cmpBytes] at h2
      | cons z zs =>
        simp only [cmpBytes] at h1 h2 ⊢
        by_cases hxy : x < y
        · by_cases hyz : y < z
          · simp [UInt8.lt_trans hxy hyz]
          · rw [if_neg hyz] at h2
            by_cases hzy : z < y
            · simp [hzy] at h2
            · have : y = z := UInt8.le_antisymm (UInt8.not_lt.mp hzy) (UInt8.not_lt.mp hyz)
              subst this; simp [hxy]
        · rw [if_neg hxy] at h1
          by_cases hyx : y < x
          · simp [hyx] at h1
          · rw [if_neg hyx] at h1
            have : x = y := UInt8.le_antisymm (UInt8.not_lt.mp hyx) (UInt8.not_lt.mp hxy)
            subst this
            by_cases hyz : x < z
            · simp [hyz]
            · rw [if_neg hyz] at h2 ⊢
              by_cases hzy : z < x
              · simp [hzy] at h2
              · rw [if_neg hzy] at h2 ⊢
                exact ih h1 h2

/-- `≤` on byte strings. -/
def leBytes (a b : Bytes) : Prop := cmpBytes a b ≠ .gt

theorem leBytes_trans {a b c : Bytes} (h1 : leBytes a b) (h2 : leBytes b c) : leBytes a c := by
  unfold leBytes at *
  cases e1 : cmpBytes a b with
  | eq => rw [cmpBytes_eq] at e1; subst e1; exact h2
  | gt => exact absurd e1 h1
  | lt =>
    cases e2 : cmpBytes b c with
    | eq => rw [cmpBytes_eq] at e2; subst e2; rw [e1]; simp
    | gt => exact absurd e2 h2
    | lt => rw [cmpBytes_lt_trans e1 e2]; simp

theorem leBytes_total (a b : Bytes) : leBytes a b ∨ leBytes b a := by
  unfold leBytes
  by_cases h : cmpBytes a b = .gt
  · right; rw [cmpBytes_gt] at h; intro h2; rw [h] at h2; cases h2
  · left; exact h

variable {α : Type}

theorem insertByKey_perm (key : α → Bytes) (x : α) (xs : List α) :
    (insertByKey key x xs).Perm (x :: xs) := by
  induction xs with
  | nil => exact .refl _
  | cons y ys ih =>
    simp only [insertByKey]
    split
    · exact .refl _
    · exact (ih.cons y).trans (.swap x y ys)

theorem foldl_insert_perm (key : α → Bytes) (xs acc : List α) :
    (xs.foldl (fun acc x => insertByKey key x acc) acc).Perm (acc ++ xs) := by
  induction xs generalizing acc with
  | nil => simp
  | cons x xs ih =>
    simp only [List.foldl_cons]
    refine (ih _).trans ?_
    refine ((insertByKey_perm key x acc).append_right xs).trans ?_
    simp only [List.cons_append]
    exact List.perm_middle.symm

theorem sortByKey_perm (key : α → Bytes) (xs : List α) : (sortByKey key xs).Perm xs := by
  unfold sortByKey; simpa using foldl_insert_perm key xs []

theorem insertByKey_sorted (key : α → Bytes) (x : α) (xs : List α)
    (h : xs.Pairwise (fun a b => leBytes (key a) (key b))) :
    (insertByKey key x xs).Pairwise (fun a b => leBytes (key a) (key b)) := by
  induction xs with
  | nil => simp [insertByKey]
  | cons y ys ih =>
    rw [List.pairwise_cons] at h
    simp only [insertByKey]
    split
    · rename_i hlt
      have hxy : leBytes (key x) (key y) := by unfold leBytes; rw [hlt]; simp
      rw [List.pairwise_cons, List.pairwise_cons]
      refine ⟨?_, h⟩
      intro z hz
      rcases List.mem_cons.mp hz with rfl | hz
      · exact hxy
      · exact leBytes_trans hxy (h.1 z hz)
    · rename_i hnlt
      rw [List.pairwise_cons]
      refine ⟨?_, ih h.2⟩
      intro z hz
      rcases List.mem_cons.mp ((insertByKey_perm key x ys).mem_iff.mp hz) with rfl | hz
      · unfold leBytes; intro h; rw [cmpBytes_gt] at h; exact hnlt h
      · exact h.1 z hz

theorem sortByKey_sorted (key : α → Bytes) (xs : List α) :
    (sortByKey key xs).Pairwise (fun a b => leBytes (key a) (key b)) := by
  unfold sortByKey
  have : ∀ (xs acc : List α), acc.Pairwise (fun a b => leBytes (key a) (key b)) →
      (xs.foldl (fun acc x => insertByKey key x acc) acc).Pairwise
        (fun a b => leBytes (key a) (key b)) := by
    intro xs
    induction xs with
    | nil => intro acc h; exact h
    | cons x xs ih => intro acc h; exact ih _ (insertByKey_sorted key x acc h)
  exact this xs [] .nil

/-! ### Binary search -/

/-- Loop invariant of the search. -/
theorem bsLoop_spec (f : Nat → Ordering) (n : Nat)
    (hgt : ∀ i j, i ≤ j → j < n → f i = .gt → f j = .gt) :
    ∀ fuel base size, size ≤ fuel + 1 → 1 ≤ size → base + size ≤ n →
      (base = 0 ∨ f base ≠ .gt) → (∀ j, base + size ≤ j → j < n → f j = .gt) →
      let r := bsLoop f fuel base size
      r < n ∧ (r = 0 ∨ f r ≠ .gt) ∧ (∀ j, r < j → j < n → f j = .gt) := by
  intro fuel
  induction fuel with
  | zero =>
    intro base size h1 h2 h3 h4 h5
    have : size = 1 := by omega
    subst this
    exact ⟨by simp [bsLoop]; omega, by simpa [bsLoop] using h4, fun j hj => h5 j (by simp [bsLoop] at hj; omega)⟩
  | succ fuel ih =>
    intro base size h1 h2 h3 h4 h5
    simp only [bsLoop]
    split
    · rename_i hs
      apply ih
      · omega
      · omega
      · split <;> omega
      · split
        · exact h4
        · right; assumption
      · intro j hj hjn
        split at hj
        · rename_i hg
          exact hgt _ j (by omega) hjn hg
        · exact h5 j (by omega) hjn
    · have : size = 1 := by omega
      subst this
      exact ⟨by omega, h4, fun j hj => h5 j (by omega)⟩

theorem binarySearch_some {keys : List Bytes} {k : Bytes} {i : Nat}
    (h : binarySearch keys k = some i) : keys[i]? = some k := by
  unfold binarySearch at h
  simp only at h
  split at h
  · cases h
  · split at h
    · rename_i h1 h2
      cases h
      generalize bsLoop _ _ _ _ = r at h2 ⊢
      unfold cmpAt at h2
      split at h2
      · rename_i key hkey
        rw [cmpBytes_eq] at h2
        rw [hkey, h2]
      · cases h2
    · cases h

theorem binarySearch_isSome {keys : List Bytes} {k : Bytes}
    (hs : keys.Pairwise leBytes) (hk : k ∈ keys) : (binarySearch keys k).isSome := by
  obtain ⟨i, hi, hik⟩ := List.getElem_of_mem hk
  have hn : keys.length ≠ 0 := by omega
  unfold binarySearch
  simp only [hn, if_false]
  have fval : ∀ j (hj : j < keys.length), cmpAt keys k j = cmpBytes keys[j] k := by
    intro j hj; simp [cmpAt, List.getElem?_eq_getElem hj]
  generalize cmpAt keys k = f at *
  have hle : ∀ a b (ha : a < b) (hb : b < keys.length), leBytes (keys[a]'(by omega)) keys[b] :=
    fun a b ha hb => (List.pairwise_iff_getElem.mp hs) a b (by omega) hb ha
  have hgt : ∀ a b, a ≤ b → b < keys.length → f a = .gt → f b = .gt := by
    intro a b hab hb ha
    rcases Nat.eq_or_lt_of_le hab with rfl | hlt
    · exact ha
    · rw [fval a (by omega)] at ha
      rw [fval b hb]
      apply Classical.byContradiction
      intro hc
      exact leBytes_trans (hle a b hlt hb) hc ha
  obtain ⟨hr, hr0, hra⟩ := bsLoop_spec f keys.length hgt keys.length 0 keys.length (by omega)
    (by omega) (by omega) (Or.inl rfl) (fun j h1 h2 => by omega)
  have fi : f i = .eq := by rw [fval i hi, hik, cmpBytes_refl]
  have hle' : i ≤ bsLoop f keys.length 0 keys.length := by
    apply Classical.byContradiction
    intro hc
    have := hra i (by omega) hi
    rw [fi] at this; cases this
  have : f (bsLoop f keys.length 0 keys.length) = .eq := by
    generalize bsLoop f keys.length 0 keys.length = r at *
    rcases Nat.eq_or_lt_of_le hle' with rfl | hlt
    · exact fi
    · have hng : f r ≠ .gt := by
        rcases hr0 with h0 | h0
        · omega
        · exact h0
      have := hle i r hlt hr
      rw [fval r hr] at hng ⊢
      rw [hik] at this
      rw [cmpBytes_eq]
      cases hc : cmpBytes keys[r] k with
      | eq => exact cmpBytes_eq.mp hc
      | gt => exact absurd hc hng
      | lt => rw [← cmpBytes_gt] at hc; exact absurd hc this
  simp [this]

/-- Search in a sorted table by key: the entry found has the key, and a key present is found. -/
theorem table_lookup {β : Type} (t : List (Str × β))
    (hs : t.Pairwise (fun a b => leBytes (enc a.1) (enc b.1))) (k : Bytes) :
    (∃ e ∈ t, enc e.1 = k ∧ (match binarySearch (t.map (fun e => enc e.1)) k with
        | some i => t[i]?
        | none => none) = some e)
    ∨ ((∀ e ∈ t, enc e.1 ≠ k) ∧ binarySearch (t.map (fun e => enc e.1)) k = none) := by
  have hs' : (t.map (fun e => enc e.1)).Pairwise leBytes := by
    rw [List.pairwise_map]; exact hs
  cases hb : binarySearch (t.map (fun e => enc e.1)) k with
  | none =>
    right
    refine ⟨?_, rfl⟩
    intro e he hk
    have := binarySearch_isSome hs' (k := k) (by rw [List.mem_map]; exact ⟨e, he, hk⟩)
    rw [hb] at this; cases this
  | some i =>
    left
    have := binarySearch_some hb
    rw [List.getElem?_map] at this
    simp only [Option.map_eq_some_iff] at this
    obtain ⟨e, he, hek⟩ := this
    exact ⟨e, List.mem_of_getElem? he, hek, he⟩

end Palc
