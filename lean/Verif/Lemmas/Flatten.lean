import Verif.Lemmas.Inline
import Verif.Lemmas.Declared
/-! A flattened struct written in place (C16). -/

namespace Palc

open Spec

variable {V : Type} {cx : Cx V}

/-! ## Definitions are the same as themselves -/

theorem sameCommand_refl (cx : Cx V) (d : ArgsDef V) : SameCommand cx d d id id where
  left := by
    constructor
    · intro p f h; exact ⟨f, h, rfl⟩
    · intro p f h; exact ⟨f, h, rfl⟩
    · intros; rfl
    · intros; rfl
    · intros; assumption
    · intros; rfl
    · rfl
  right := by
    constructor
    · intro p q f g _ _ h; exact h
    · intro p f _ _; exact ⟨fun q g _ h => h, .rfl⟩

/-! ## Moving the arguments of a flattened struct -/

/-- The struct of number `s` with `m` arguments is written in place, its arguments follow the first `n` arguments of the
command itself. -/
def inlined (n m s : Nat) (p : Pos) : Pos :=
  if p.1 = 0 then (if p.2 < n then (0, p.2) else (0, p.2 + m))
  else if p.1 = s then (0, n + p.2)
  else if p.1 < s then p
  else (p.1 - 1, p.2)

/-- And back. -/
def outlined (n m s : Nat) (p : Pos) : Pos :=
  if p.1 = 0 then (if p.2 < n then (0, p.2) else if p.2 < n + m then (s, p.2 - n) else (0, p.2 - m))
  else if p.1 < s then p
  else (p.1 + 1, p.2)

theorem inlined_own {n m s i : Nat} (h : i < n) : inlined n m s (0, i) = (0, i) := by simp [inlined, h]
theorem inlined_rest {n m s i : Nat} (h : n ≤ i) : inlined n m s (0, i) = (0, i + m) := by
  simp only [inlined, if_true]; rw [if_neg (by omega)]
theorem inlined_flat {n m s i : Nat} (h : s ≠ 0) : inlined n m s (s, i) = (0, n + i) := by simp [inlined, h]
theorem inlined_before {n m s t i : Nat} (h0 : t ≠ 0) (h : t < s) : inlined n m s (t, i) = (t, i) := by
  simp only [inlined]; rw [if_neg h0, if_neg (by omega), if_pos h]
theorem inlined_after {n m s t i : Nat} (h : s ≤ t) : inlined n m s (t + 1, i) = (t, i) := by
  simp only [inlined]; rw [if_neg (by omega), if_neg (by omega), if_neg (by omega)]; rfl

theorem outlined_own {n m s i : Nat} (h : i < n) : outlined n m s (0, i) = (0, i) := by simp [outlined, h]
theorem outlined_rest {n m s i : Nat} (h : n ≤ i) : outlined n m s (0, i + m) = (0, i) := by
  simp only [outlined, if_true]; rw [if_neg (by omega), if_neg (by omega)]; simp
theorem outlined_flat {n m s i : Nat} (h : i < m) : outlined n m s (0, n + i) = (s, i) := by
  simp only [outlined, if_true]; rw [if_neg (by omega), if_pos (by omega)]; simp
theorem outlined_before {n m s t i : Nat} (h0 : t ≠ 0) (h : t < s) : outlined n m s (t, i) = (t, i) := by
  simp only [outlined]; rw [if_neg h0, if_pos h]
theorem outlined_after {n m s t i : Nat} (h0 : s ≠ 0) (h : s ≤ t) : outlined n m s (t, i) = (t + 1, i) := by
  simp only [outlined]; rw [if_neg (by omega), if_neg (by omega)]

/-- The kinds of positions before. -/
inductive From (n s : Nat) : Pos → Prop
  | own {i} (h : i < n) : From n s (0, i)
  | rest {i} (h : n ≤ i) : From n s (0, i)
  | flat {i} : From n s (s, i)
  | before {t i} (h0 : t ≠ 0) (h : t < s) : From n s (t, i)
  | after {t i} (h : s ≤ t) : From n s (t + 1, i)

theorem From.all (n : Nat) {s : Nat} (hs : s ≠ 0) (p : Pos) : From n s p := by
  obtain ⟨t, i⟩ := p
  by_cases h0 : t = 0
  · subst h0
    by_cases h : i < n
    · exact .own h
    · exact .rest (by omega)
  · rcases Nat.lt_trichotomy t s with h | h | h
    · exact .before h0 h
    · subst h; exact .flat
    · obtain ⟨t, rfl⟩ : ∃ u, t = u + 1 := ⟨t - 1, by omega⟩
      exact .after (by omega)

/-- Where positions go. -/
inductive Moves (n m s : Nat) : Pos → Pos → Prop
  | own {i} (h : i < n) : Moves n m s (0, i) (0, i)
  | rest {i} (h : n ≤ i) : Moves n m s (0, i) (0, i + m)
  | flat {i} : Moves n m s (s, i) (0, n + i)
  | before {t i} (h0 : t ≠ 0) (h : t < s) : Moves n m s (t, i) (t, i)
  | after {t i} (h : s ≤ t) : Moves n m s (t + 1, i) (t, i)

theorem Moves.all (n m : Nat) {s : Nat} (hs : s ≠ 0) (p : Pos) : Moves n m s p (inlined n m s p) := by
  cases From.all n hs p with
  | own h => rw [inlined_own h]; exact .own h
  | rest h => rw [inlined_rest h]; exact .rest h
  | flat => rw [inlined_flat hs]; exact .flat
  | before h0 h => rw [inlined_before h0 h]; exact .before h0 h
  | after h => rw [inlined_after h]; exact .after h

/-- The kinds of positions after. -/
inductive To (n m s : Nat) : Pos → Prop
  | own {i} (h : i < n) : To n m s (0, i)
  | rest {i} (h : n ≤ i) : To n m s (0, i + m)
  | flat {i} (h : i < m) : To n m s (0, n + i)
  | before {t i} (h0 : t ≠ 0) (h : t < s) : To n m s (t, i)
  | after {t i} (h : s ≤ t) : To n m s (t, i)

theorem To.all (n m s : Nat) (p : Pos) : To n m s p := by
  obtain ⟨t, i⟩ := p
  by_cases h0 : t = 0
  · subst h0
    by_cases h : i < n
    · exact .own h
    · by_cases h' : i < n + m
      · obtain ⟨i, rfl⟩ : ∃ j, i = n + j := ⟨i - n, by omega⟩
        exact .flat (by omega)
      · obtain ⟨i, rfl⟩ : ∃ j, i = j + m := ⟨i - m, by omega⟩
        exact .rest (by omega)
  · by_cases h : t < s
    · exact .before h0 h
    · exact .after (by omega)

/-- Within a struct every option name is declared once. -/
theorem declares_index {c : Core V} (wf : CoreWF cx c) {i j : Nat} {f g : FieldInfo V} {n : Name} (hf : c.fields[i]? = some f)
    (hg : c.fields[j]? = some g) (h1 : declares cx f n = true) (h2 : declares cx g n = true) : i = j := by
  rw [← hasName_declares (wf.fields i f hf).toFieldPre] at h1
  rw [← hasName_declares (wf.fields j g hg).toFieldPre] at h2
  unfold hasName at h1 h2
  rw [List.any_eq_true] at h1 h2
  obtain ⟨x, hx, ex⟩ := h1
  obtain ⟨y, hy, ey⟩ := h2
  have : x = y := by
    apply enc_injective
    rw [decide_eq_true_eq] at ex ey
    rw [ex, ey]
  subst this
  exact (nodup_flatMap_unique wf.nodup hf hg hx hy)

structure Inlining (cx : Cx V) (d d' : ArgsDef V) (A B C : List (FieldInfo V)) (S1 S3 : List (Core V)) (c ce c' : Core V) : Prop where
  structs : structs d = c :: (S1 ++ ce :: S3)
  structs' : Spec.structs d' = c' :: (S1 ++ S3)
  own : c.fields.map withoutIndex = A ++ C
  flat : ce.fields.map withoutIndex = B
  own' : c'.fields.map withoutIndex = A ++ (B ++ C)
  optA : ∀ f ∈ A, isOption f = true
  optB : ∀ f ∈ B, isOption f = true

namespace Inlining

variable {d d' : ArgsDef V} {A B C : List (FieldInfo V)} {S1 S3 : List (Core V)} {c ce c' : Core V}

theorem own_at (h : Inlining cx d d' A B C S1 S3 c ce c') (i : Nat) : (argAt d (0, i)).map withoutIndex = (A ++ C)[i]? := by
  rw [argAt_eq (c := c) (by rw [h.structs]; rfl), ← h.own, List.getElem?_map]

theorem own_at' (h : Inlining cx d d' A B C S1 S3 c ce c') (i : Nat) : (argAt d' (0, i)).map withoutIndex = (A ++ (B ++ C))[i]? := by
  rw [argAt_eq (c := c') (by rw [h.structs']; rfl), ← h.own', List.getElem?_map]

theorem flat_at (h : Inlining cx d d' A B C S1 S3 c ce c') (i : Nat) : (argAt d (S1.length + 1, i)).map withoutIndex = B[i]? := by
  rw [argAt_eq (c := ce) (by rw [h.structs]; simp), ← h.flat, List.getElem?_map]

theorem before_at (h : Inlining cx d d' A B C S1 S3 c ce c') {s : Nat} (h1 : 0 < s) (h2 : s < S1.length + 1) (i : Nat) :
    argAt d (s, i) = argAt d' (s, i) := by
  unfold argAt
  rw [h.structs, h.structs']
  obtain ⟨s, rfl⟩ : ∃ t, s = t + 1 := ⟨s - 1, by omega⟩
  simp only [List.getElem?_cons_succ]
  rw [List.getElem?_append_left (by omega), List.getElem?_append_left (by omega)]

theorem after_at (h : Inlining cx d d' A B C S1 S3 c ce c') {s : Nat} (h1 : S1.length + 1 ≤ s) (i : Nat) :
    argAt d (s + 1, i) = argAt d' (s, i) := by
  unfold argAt
  rw [h.structs, h.structs']
  obtain ⟨s, rfl⟩ : ∃ t, s = t + 1 := ⟨s - 1, by omega⟩
  simp only [List.getElem?_cons_succ]
  rw [List.getElem?_append_right (by omega), List.getElem?_append_right (by omega),
    show s + 1 - S1.length = (s - S1.length) + 1 by omega, List.getElem?_cons_succ]

theorem flat_lt (h : Inlining cx d d' A B C S1 S3 c ce c') {i : Nat} {f : FieldInfo V} (hf : argAt d (S1.length + 1, i) = some f) : i < B.length := by
  have := h.flat_at i
  rw [hf] at this
  exact (List.getElem?_eq_some_iff.1 this.symm).1

theorem to_eq (h : Inlining cx d d' A B C S1 S3 c ce c') {p : Pos} {f : FieldInfo V} (hf : argAt d p = some f) :
    (argAt d' (inlined A.length B.length (S1.length + 1) p)).map withoutIndex = (argAt d p).map withoutIndex := by
  obtain ⟨s, i⟩ := p
  unfold inlined
  simp only
  split
  · rename_i h0
    subst h0
    rw [h.own_at]
    split
    · rename_i h1
      rw [h.own_at', List.getElem?_append_left h1, List.getElem?_append_left h1]
    · rename_i h1
      rw [h.own_at', List.getElem?_append_right (by omega), List.getElem?_append_right (by omega), List.getElem?_append_right (by omega)]
      congr 1
      omega
  · split
    · rename_i h0 h1
      subst h1
      have hlt := h.flat_lt hf
      rw [h.flat_at, h.own_at', List.getElem?_append_right (by omega), List.getElem?_append_left (by omega)]
      congr 1
      omega
    · split
      · rw [h.before_at (by omega) (by assumption)]
      · obtain ⟨t, rfl⟩ : ∃ t, s = t + 1 := ⟨s - 1, by omega⟩
        rw [h.after_at (by omega)]
        rfl

theorem back_eq (h : Inlining cx d d' A B C S1 S3 c ce c') (p : Pos) :
    (argAt d (outlined A.length B.length (S1.length + 1) p)).map withoutIndex = (argAt d' p).map withoutIndex := by
  obtain ⟨s, i⟩ := p
  unfold outlined
  simp only
  split
  · rename_i h0
    subst h0
    rw [h.own_at']
    split
    · rename_i h1
      rw [h.own_at, List.getElem?_append_left h1, List.getElem?_append_left h1]
    · split
      · rw [h.flat_at, List.getElem?_append_right (by omega), List.getElem?_append_left (by omega)]
      · rw [h.own_at, List.getElem?_append_right (by omega), List.getElem?_append_right (by omega), List.getElem?_append_right (by omega)]
        congr 1
        omega
  · split
    · rw [h.before_at (by omega) (by assumption)]
    · rw [h.after_at (by omega)]

theorem some_of_map {o o' : Option (FieldInfo V)} {f : FieldInfo V} (h : o'.map withoutIndex = o.map withoutIndex) (hf : o = some f) :
    ∃ f', o' = some f' ∧ withoutIndex f' = withoutIndex f := by
  subst hf
  cases o' with
  | none => simp at h
  | some f' => exact ⟨f', rfl, by simpa using h⟩

theorem sameArgs (h : Inlining cx d d' A B C S1 S3 c ce c') (wf' : CoreWF cx c')
    (hamb : ∀ x ∈ S1, ∀ g ∈ x.fields, ∀ f ∈ ce.fields, ∀ n, declares cx f n = true → declares cx g n = false) :
    SameArgs cx d d' (inlined A.length B.length (S1.length + 1)) (outlined A.length B.length (S1.length + 1)) where
  to p f hf := some_of_map (h.to_eq hf) hf
  back p f hf := some_of_map (h.back_eq p) hf
  left := by
    intro p f hf
    cases From.all A.length (s := S1.length + 1) (by omega) p with
    | own h => rw [inlined_own h, outlined_own h]
    | rest h => rw [inlined_rest h, outlined_rest h]
    | flat => rw [inlined_flat (by omega), outlined_flat (h.flat_lt hf)]
    | before h0 h => rw [inlined_before h0 h, outlined_before h0 h]
    | after h => rw [inlined_after h, outlined_after (by omega) h]
  right := by
    intro p f hf
    cases To.all A.length B.length (S1.length + 1) p with
    | own h => rw [outlined_own h, inlined_own h]
    | rest h => rw [outlined_rest h, inlined_rest h]
    | flat h => rw [outlined_flat h, inlined_flat (by omega)]
    | before h0 h => rw [outlined_before h0 h, inlined_before h0 h]
    | after h => rw [outlined_after (by omega) h, inlined_after h]
  order := by
    rintro ⟨s, i⟩ ⟨t, j⟩ f g n hp hq hf hg he
    obtain ⟨f', hf', ef⟩ := some_of_map (h.to_eq hp) hp
    obtain ⟨g', hg', eg⟩ := some_of_map (h.to_eq hq) hq
    have hb : s = S1.length + 1 → i < B.length := by rintro rfl; exact h.flat_lt hp
    have hb' : t = S1.length + 1 → j < B.length := by rintro rfl; exact h.flat_lt hq
    by_cases hflip : 0 < s ∧ s < S1.length + 1 ∧ t = S1.length + 1
    · obtain ⟨h1, h2, rfl⟩ := hflip
      exfalso
      obtain ⟨x, hx, hxf⟩ := argAt_core hp
      rw [h.structs] at hx
      obtain ⟨s, rfl⟩ : ∃ t, s = t + 1 := ⟨s - 1, by omega⟩
      simp only [List.getElem?_cons_succ] at hx
      rw [List.getElem?_append_left (by omega)] at hx
      rw [argAt_eq (c := ce) (by rw [h.structs]; simp)] at hq
      have := hamb x (List.mem_of_getElem? hx) f (List.mem_of_getElem? hxf) g (List.mem_of_getElem? hq) n hg
      rw [this] at hf
      cases hf
    · by_cases hown : s = 0 ∧ t = S1.length + 1
      · obtain ⟨rfl, rfl⟩ := hown
        exfalso
        have hj := hb' rfl
        rw [inlined_flat (by omega), argAt_eq (c := c') (by rw [h.structs']; rfl)] at hg'
        have hu : ∀ k, c'.fields[k]? = some f' → k = A.length + j := fun k hk =>
          declares_index wf' hk hg' (by rw [alike_declares ef]; exact hf) (by rw [alike_declares eg]; exact hg)
        by_cases hi : i < A.length
        · rw [inlined_own hi, argAt_eq (c := c') (by rw [h.structs']; rfl)] at hf'
          have := hu _ hf'
          omega
        · rw [inlined_rest (by omega), argAt_eq (c := c') (by rw [h.structs']; rfl)] at hf'
          have := hu _ hf'
          omega
      · have hsz : S1.length + 1 ≠ 0 := by omega
        have m1 := Moves.all A.length B.length hsz (s, i)
        have m2 := Moves.all A.length B.length hsz (t, j)
        clear hf' hg'
        generalize S1.length + 1 = z at *
        generalize inlined A.length B.length z (s, i) = p at *
        generalize inlined A.length B.length z (t, j) = q at *
        unfold Earlier at he ⊢
        cases m1 <;> cases m2 <;> dsimp only at he ⊢ <;> omega
  main := by
    intro x _
    unfold inlined
    simp only [if_true]
    split <;> rfl
  positionals := by
    have key : ∀ (D : ArgsDef V) (g : Nat → Nat), (Spec.positionals D).map (fun x => (withoutIndex x.1, g x.2))
        = ((((coreOf D).fields.map withoutIndex).zipIdx).filter (fun x => !isOption x.1)).map (fun x => (x.1, g x.2)) := by
      intro D g
      unfold Spec.positionals
      rw [List.zipIdx_map, List.filter_map, List.map_map]
      rfl
    have e1 : coreOf d = c := by
      have := h.structs
      rw [structs_eq] at this
      exact (List.cons.inj this).1
    have e2 : coreOf d' = c' := by
      have := h.structs'
      rw [structs_eq] at this
      exact (List.cons.inj this).1
    have nil : ∀ (l : List (FieldInfo V)) (k : Nat), (∀ f ∈ l, isOption f = true) → (l.zipIdx k).filter (fun x => !isOption x.1) = [] := by
      intro l k hl
      rw [List.filter_eq_nil_iff]
      intro x hx
      have := hl x.1 (List.fst_mem_of_mem_zipIdx hx)
      simp [this]
    refine (key d' id).trans ?_
    rw [key d (fun i => (inlined A.length B.length (S1.length + 1) (0, i)).2), e1, e2, h.own, h.own']
    rw [List.zipIdx_append, List.zipIdx_append, List.zipIdx_append, List.filter_append, List.filter_append, List.filter_append,
      nil A _ h.optA, nil B _ h.optB]
    simp only [List.nil_append]
    have shift : ∀ (l : List (FieldInfo V)) (k m : Nat), l.zipIdx (k + m) = (l.zipIdx k).map (fun x => (x.1, x.2 + m)) := by
      intro l k m
      induction l generalizing k with
      | nil => rfl
      | cons a l ih => rw [List.zipIdx_cons, List.zipIdx_cons, List.map_cons, ← ih (k + 1)]; congr 2; omega
    rw [shift, List.filter_map, List.map_map]
    refine List.map_congr_left fun x hx => ?_
    have hx' := List.le_snd_of_mem_zipIdx (List.mem_filter.1 hx).1
    simp only [Function.comp_apply, id_eq, inlined, if_true]
    rw [if_neg (by omega)]

theorem sameConstraints (_h : Inlining cx d d' A B C S1 S3 c ce c') (hx : ∀ f ∈ c.fields, f.src.exclusive = false)
    (hxe : ∀ f ∈ ce.fields, f.src.exclusive = false) : SameConstraints d (inlined A.length B.length (S1.length + 1)) where
  together := by
    intro p q f g _ _ he
    have hsz : S1.length + 1 ≠ 0 := by omega
    have m1 := Moves.all A.length B.length hsz p
    have m2 := Moves.all A.length B.length hsz q
    generalize S1.length + 1 = z at *
    generalize inlined A.length B.length z p = p' at *
    generalize inlined A.length B.length z q = q' at *
    cases m1 <;> cases m2 <;> simp only at he ⊢ <;> omega
  exclusive := by
    rintro ⟨s, i⟩ f hf he
    have h0 : s ≠ 0 := by
      rintro rfl
      rw [argAt_eq (c := c) (by rw [_h.structs]; rfl)] at hf
      rw [hx f (List.mem_of_getElem? hf)] at he
      cases he
    have h1 : s ≠ S1.length + 1 := by
      rintro rfl
      rw [argAt_eq (c := ce) (by rw [_h.structs]; simp)] at hf
      rw [hxe f (List.mem_of_getElem? hf)] at he
      cases he
    have hsz : S1.length + 1 ≠ 0 := by omega
    have m1 := Moves.all A.length B.length hsz (s, i)
    refine ⟨?_, ?_⟩
    · intro q g _ e
      have m2 := Moves.all A.length B.length hsz q
      generalize S1.length + 1 = z at *
      generalize inlined A.length B.length z (s, i) = p' at *
      generalize inlined A.length B.length z q = q' at *
      cases m1 <;> cases m2 <;> simp only at e ⊢ <;> omega
    · generalize S1.length + 1 = z at *
      generalize inlined A.length B.length z (s, i) = p' at *
      cases m1 <;> simp only <;> omega

end Inlining

/-! ## Declarations -/

theorem finField_withoutIndex (D : List (FieldInfo V)) (x : FieldInfo V × Nat) : withoutIndex (finField D x) = withoutIndex x.1 := rfl

theorem accepted_stripped {cmeta : Option CommandMeta} {ds : List (FieldDecl V)} {d : ArgsDef V} (h : deriveArgs cx cmeta ds = .ok d) :
    (coreOf d).fields.map withoutIndex = ((declFields cx ds).filter isOption ++ ((declFields cx ds).filter isSingle
    ++ (declFields cx ds).filter isVar ++ (declFields cx ds).filter isLastF)).map withoutIndex := by
  obtain ⟨core, flats, sub⟩ := d
  obtain ⟨D, hD⟩ := (deriveArgs_ok h).fields
  show core.fields.map _ = _
  rw [hD, List.map_map, ← List.append_assoc, ← List.append_assoc]
  generalize (declFields cx ds).filter isOption ++ _ ++ _ ++ _ = L
  conv => rhs; rw [← List.zipIdx_map_fst 0 L, List.map_map]
  rfl

theorem flatStructs_append (l l' : List (Str × ArgsDef V)) :
    flatStructs (Flats.ofList (l ++ l')) = flatStructs (Flats.ofList l) ++ flatStructs (Flats.ofList l') := by
  induction l with
  | nil => simp [Flats.ofList, flatStructs]
  | cons x l ih =>
    obtain ⟨i, d⟩ := x
    rw [List.cons_append, Flats.ofList, Flats.ofList, flatStructs, flatStructs, ih, List.append_assoc]

theorem accepted_structs {cmeta : Option CommandMeta} {ds : List (FieldDecl V)} {d : ArgsDef V} (h : deriveArgs cx cmeta ds = .ok d) :
    structs d = coreOf d :: flatStructs (Flats.ofList (ds.filterMap declFlat)) := by
  obtain ⟨core, flats, sub⟩ := d
  rw [structs, (deriveArgs_ok h).flatsEq]
  rfl

theorem accepted_sub {cmeta : Option CommandMeta} {ds : List (FieldDecl V)} {d : ArgsDef V} (h : deriveArgs cx cmeta ds = .ok d) :
    subToList (subOf d) = ds.filterMap declSub := by
  obtain ⟨core, flats, sub⟩ := d
  exact (deriveArgs_ok h).subEq

theorem subToList_inj {s s' : SubField V} (h : subToList s = subToList s') : s = s' := by
  cases s <;> cases s' <;> simp [subToList] at h ⊢
  exact h

section

variable {cm cm' cme : Option CommandMeta} {pre es post : List (FieldDecl V)} {i : Str} {d d' e : ArgsDef V}

theorem flattened_options (hd : deriveArgs cx cm (pre ++ .flatten i e :: post) = .ok d) (he : deriveArgs cx cme es = .ok e) :
    (∀ f ∈ declFields cx es, isOption f = true) ∧ es.filterMap declSub = [] := by
  obtain ⟨core, flats, sub⟩ := d
  obtain ⟨h1, h2⟩ := (deriveArgs_ok hd).flatOk (i, e) (by rw [List.filterMap_append, List.filterMap_cons]; simp [declFlat])
  have hwf := accepted_wf he
  constructor
  · intro f hf
    have hp : (coreOf e).positional = [] := by
      obtain ⟨c, fl, s⟩ := e
      rw [ArgsDef.info] at h1
      simpa [ArgsInfo.positionalLen, ArgsInfo.new, coreOf] using h1
    have hall : ∀ g ∈ (coreOf e).fields, isOption g = true := by
      intro g hg
      apply hwf.named
      have : (coreOf e).fields = (coreOf e).fields.take (coreOf e).namedCnt := by
        have h3 := List.take_append_drop (coreOf e).namedCnt (coreOf e).fields
        unfold Core.positional at hp
        rw [hp, List.append_nil] at h3
        exact h3.symm
      rw [← this]; exact hg
    have hm : withoutIndex f ∈ (declFields cx es).map withoutIndex := List.mem_map.2 ⟨f, hf, rfl⟩
    rw [← (fields_perm he withoutIndex (fun _ _ => rfl)).mem_iff, List.mem_map] at hm
    obtain ⟨g, hg, eg⟩ := hm
    rw [← alike_isOption eg]
    exact hall g hg
  · rw [← accepted_sub he]
    obtain ⟨c, fl, s⟩ := e
    cases s <;> simp [ArgsDef.hasSub] at h2
    rfl

theorem filter_none_of_option {l : List (FieldInfo V)} (h : ∀ f ∈ l, isOption f = true) :
    l.filter isSingle = [] ∧ l.filter isVar = [] ∧ l.filter isLastF = [] := by
  refine ⟨?_, ?_, ?_⟩ <;> rw [List.filter_eq_nil_iff] <;> intro f hf <;> simp [isSingle, isVar, isLastF, h f hf]

/-- Writing a flattened struct in place. -/
theorem inlining (hd : deriveArgs cx cm (pre ++ .flatten i e :: post) = .ok d) (he : deriveArgs cx cme es = .ok e)
    (hd' : deriveArgs cx cm' (pre ++ es ++ post) = .ok d') :
    ∃ C S3, Inlining cx d d' (((declFields cx pre).filter isOption).map withoutIndex) (((declFields cx es).filter isOption).map withoutIndex)
      C (flatStructs (Flats.ofList (pre.filterMap declFlat))) S3 (coreOf d) (coreOf e) (coreOf d') := by
  obtain ⟨hopt, _⟩ := flattened_options hd he
  obtain ⟨n1, n2, n3⟩ := filter_none_of_option hopt
  have hF : declFields cx (pre ++ .flatten i e :: post) = declFields cx pre ++ declFields cx post := by
    unfold declFields
    rw [List.filterMap_append, List.filterMap_cons]
    rfl
  have hF' : declFields cx (pre ++ es ++ post) = declFields cx pre ++ declFields cx es ++ declFields cx post := by
    unfold declFields
    rw [List.filterMap_append, List.filterMap_append]
  refine ⟨((declFields cx post).filter isOption ++ ((declFields cx (pre ++ .flatten i e :: post)).filter isSingle
    ++ (declFields cx (pre ++ .flatten i e :: post)).filter isVar ++ (declFields cx (pre ++ .flatten i e :: post)).filter isLastF)).map withoutIndex,
    flatStructs (Flats.ofList (es.filterMap declFlat)) ++ flatStructs (Flats.ofList (post.filterMap declFlat)), ?_, ?_, ?_, ?_, ?_, ?_, ?_⟩
  · rw [accepted_structs hd, List.filterMap_append, List.filterMap_cons]
    simp only [declFlat]
    rw [flatStructs_append, Flats.ofList, flatStructs, accepted_structs he, List.cons_append]
  · rw [accepted_structs hd', List.filterMap_append, List.filterMap_append, flatStructs_append, flatStructs_append, List.append_assoc]
  · rw [accepted_stripped hd, ← List.map_append, hF]
    simp only [List.filter_append, List.append_assoc]
  · rw [accepted_stripped he, n1, n2, n3]
    simp
  · rw [accepted_stripped hd', ← List.map_append, ← List.map_append, hF, hF']
    simp only [List.filter_append, n1, n2, n3, List.nil_append, List.append_assoc]
  · intro f hf
    obtain ⟨g, hg, rfl⟩ := List.mem_map.1 hf
    exact (List.mem_filter.1 hg).2
  · intro f hf
    obtain ⟨g, hg, rfl⟩ := List.mem_map.1 hf
    exact (List.mem_filter.1 hg).2

theorem inlining_sub (hd : deriveArgs cx cm (pre ++ .flatten i e :: post) = .ok d) (he : deriveArgs cx cme es = .ok e)
    (hd' : deriveArgs cx cm' (pre ++ es ++ post) = .ok d') : subOf d' = subOf d := by
  apply subToList_inj
  rw [accepted_sub hd, accepted_sub hd', List.filterMap_append, List.filterMap_append, (flattened_options hd he).2, List.filterMap_append,
    List.filterMap_cons]
  simp [declSub]

end

end Palc
