import Verif.Lemmas.Reading
/-! Which positional field an argument goes to. -/

namespace Palc

open Spec

variable {V : Type} {cx : Cx V}

/-- Is this an occurrence of a positional argument, other than an `arg(last)` one, of the command at level `ℓ`? -/
def isPositionalAt (st : List (Entry V)) (ℓ : Nat) (e : Event) : Bool :=
  decide (e.1.level = ℓ) && (match fieldAt st e.1 with
    | some f => !isOption f && !f.src.last
    | none => false)

theorem posTarget_multi {d : ArgsDef V} {k n : Nat} {x : FieldInfo V × Nat} (h : posTarget d k = some x)
    (hm : isMulti x.1 = true) (hk : k ≤ n) : posTarget d n = some x := by
  unfold posTarget at h ⊢
  cases hs : (singles d)[k]? with
  | some y =>
    rw [hs] at h
    cases h
    have := List.mem_of_getElem? hs
    simp [singles, hm] at this
  | none =>
    rw [hs] at h
    have : (singles d)[n]? = none := by
      rw [List.getElem?_eq_none_iff] at hs ⊢; omega
    rw [this]
    exact h

/-- What is known about positional arguments while reading; `S` is the final list of entered commands. -/
structure PosInv (S : List (Entry V)) (κ : Ctx V) (log : List Event) : Prop where
  suffix : ∃ ext, S = ext ++ κ.stack
  fields : ∀ e ∈ log, ∃ f, fieldAt κ.stack e.1 = some f
  filled : ∀ pre i d outer, κ.stack = pre ++ (i, d) :: outer → ∀ (j : Nat) (ev : Event),
    (log.filter (isPositionalAt S outer.length))[j]? = some ev → ∃ x, posTarget d j = some x ∧ ev.1 = ⟨outer.length, 0, x.2⟩
  count : ∀ i d st, κ.stack = (i, d) :: st → (∀ j, κ.mode ≠ .trailing j) →
    (log.filter (isPositionalAt S st.length)).length = κ.npos
  trail : ∀ i d st j, κ.stack = (i, d) :: st → κ.mode = .trailing j →
    ∃ x k, posTarget d k = some x ∧ x.2 = j ∧ k < (log.filter (isPositionalAt S st.length)).length
      ∧ ∃ v, (⟨st.length, 0, j⟩, v) ∈ log

theorem PosInv.quiet {S : List (Entry V)} {κ κ1 : Ctx V} {log evs : List Event} (h : PosInv S κ log)
    (hst : κ1.stack = κ.stack) (hnp : κ1.npos = κ.npos) (hm : κ1.mode = κ.mode ∨ (κ.mode = .opts ∧ κ1.mode = .dashed))
    (hev : ∀ e ∈ evs, ∃ f, fieldAt κ.stack e.1 = some f ∧ (isOption f = true ∨ f.src.last = true)) : PosInv S κ1 (log ++ evs) := by
  obtain ⟨ext, hext⟩ := h.suffix
  have hfil : ∀ ℓ, (log ++ evs).filter (isPositionalAt S ℓ) = log.filter (isPositionalAt S ℓ) := by
    intro ℓ
    rw [List.filter_append]
    have : evs.filter (isPositionalAt S ℓ) = [] := by
      rw [List.filter_eq_nil_iff]
      intro e he
      obtain ⟨f, h1, h2⟩ := hev e he
      rw [isPositionalAt, hext, fieldAt_ext_some h1]
      rcases h2 with h2 | h2 <;> simp [h2]
    rw [this, List.append_nil]
  refine ⟨⟨ext, by rw [hst]; exact hext⟩, ?_, ?_, ?_, ?_⟩
  · intro e he
    rw [hst]
    rcases List.mem_append.1 he with he | he
    · exact h.fields e he
    · obtain ⟨f, h1, _⟩ := hev e he; exact ⟨f, h1⟩
  · intro pre i d outer hs j ev hj
    rw [hfil] at hj
    exact h.filled pre i d outer (hst ▸ hs) j ev hj
  · intro i d st hs hmode
    rw [hfil, hnp]
    refine h.count i d st (hst ▸ hs) ?_
    intro j hj
    rcases hm with hm | ⟨hm, _⟩
    · exact hmode j (by rw [hm]; exact hj)
    · rw [hm] at hj; cases hj
  · intro i d st j hs hmode
    rw [hfil]
    rcases hm with hm | ⟨_, hm⟩
    · obtain ⟨x, k, h1, h2, h3, v, hv⟩ := h.trail i d st j (hst ▸ hs) (hm ▸ hmode)
      exact ⟨x, k, h1, h2, h3, v, List.mem_append_left _ hv⟩
    · rw [hm] at hmode; cases hmode

theorem PosInv.push {S : List (Entry V)} {i : CmdId} {d : ArgsDef V} {st : List (Entry V)} {k k' : Nat} {m m' : Mode}
    {log : List Event} (h : PosInv S ⟨(i, d) :: st, k, m⟩ log) {x : FieldInfo V × Nat} {tok : Bytes}
    (hx : posTarget d (log.filter (isPositionalAt S st.length)).length = some x)
    (hcount : (∀ j, m' ≠ .trailing j) → k' = (log.filter (isPositionalAt S st.length)).length + 1)
    (htrail : ∀ j, m' = .trailing j → j = x.2) :
    PosInv S ⟨(i, d) :: st, k', m'⟩ (log ++ [(⟨st.length, 0, x.2⟩, some tok)]) := by
  obtain ⟨ext, hext⟩ := h.suffix
  simp only at hext
  have hf : fieldAt ((i, d) :: st) ⟨st.length, 0, x.2⟩ = some x.1 := fieldAt_main (posTarget_field hx).2.2
  have hfil : ∀ ℓ, (log ++ [((⟨st.length, 0, x.2⟩ : Addr), some tok)]).filter (isPositionalAt S ℓ)
      = log.filter (isPositionalAt S ℓ) ++ (if st.length = ℓ then [(⟨st.length, 0, x.2⟩, some tok)] else []) := by
    intro ℓ
    rw [List.filter_append]
    congr 1
    by_cases hl : st.length = ℓ
    · simp [isPositionalAt, hl, hext, hl ▸ fieldAt_ext_some hf, (posTarget_field hx).1, (posTarget_field hx).2.1]
    · simp [isPositionalAt, hl]
  refine ⟨⟨ext, hext⟩, ?_, ?_, ?_, ?_⟩
  · intro e he
    rcases List.mem_append.1 he with he | he
    · exact h.fields e he
    · rw [List.mem_singleton] at he; subst he; exact ⟨_, hf⟩
  · intro pre i' d' outer hs j ev hj
    rw [hfil] at hj
    by_cases hl : st.length = outer.length
    · rw [if_pos hl] at hj
      have hpre : pre = [] := by
        have := congrArg List.length hs
        simp at this
        exact List.eq_nil_of_length_eq_zero (by omega)
      subst hpre
      cases hs
      by_cases hlt : j < (log.filter (isPositionalAt S st.length)).length
      · rw [List.getElem?_append_left hlt] at hj
        exact h.filled [] i d st rfl j ev hj
      · rw [List.getElem?_append_right (by omega)] at hj
        cases hj0 : j - (log.filter (isPositionalAt S st.length)).length with
        | zero =>
          rw [hj0] at hj
          simp at hj
          have : j = (log.filter (isPositionalAt S st.length)).length := by omega
          subst this
          exact ⟨x, hx, by rw [← hj]⟩
        | succ n => rw [hj0] at hj; simp at hj
    · rw [if_neg hl, List.append_nil] at hj
      exact h.filled pre i' d' outer hs j ev hj
  · intro i' d' st' hs hm
    cases hs
    rw [hfil, if_pos rfl, List.length_append]
    exact (hcount hm).symm
  · intro i' d' st' j hs hm
    cases hs
    have := htrail j hm
    subst this
    rw [hfil, if_pos rfl, List.length_append]
    exact ⟨x, _, hx, rfl, by simp, some tok, by simp⟩

/-- One step. -/
theorem PosInv.step {S : List (Entry V)} {κ κ1 : Ctx V} {toks rest : List Bytes} {log evs : List Event}
    (h : PosInv S κ log) (hs : Step cx κ toks evs κ1 rest) (hS : ∃ ext, S = ext ++ κ1.stack)
    (hone : ∀ a f, fieldAt S a = some f → isMulti f = false → (occs (log ++ evs) a).length ≤ 1) :
    PosInv S κ1 (log ++ evs) := by
  cases hs with
  | longEq hr | longBare hr | longSep hr =>
    refine h.quiet rfl rfl (.inl rfl) ?_
    intro e he; rw [List.mem_singleton] at he; subst he
    exact ⟨_, resolves_fieldAt hr, .inl (resolves_option hr)⟩
  | cluster hb hc | clusterSep hb hc =>
    refine h.quiet rfl rfl (.inl rfl) ?_
    intro e he
    obtain ⟨f, h1, h2⟩ := cluster_options hc e he
    exact ⟨f, h1, .inl h2⟩
  | dashdash => exact h.quiet rfl rfl (.inr ⟨rfl, rfl⟩) (by simp)
  | last hx =>
    refine h.quiet rfl rfl (.inl rfl) ?_
    intro e he; rw [List.mem_singleton] at he; subst he
    exact ⟨_, fieldAt_main (lastArg_field hx).2.2, .inr (lastArg_field hx).1⟩
  | positional hp hns hx =>
    have hc := h.count _ _ _ rfl (by simp)
    refine h.push (hc.symm ▸ hx) ?_ ?_
    · intro _; rw [hc]
    · intro j hj
      simp only [modeAfter] at hj
      split at hj <;> cases hj
      rfl
  | dashed hl hx =>
    have hc := h.count _ _ _ rfl (by simp)
    refine h.push (hc.symm ▸ hx) ?_ ?_
    · intro _; rw [hc]
    · intro j hj
      simp only [modeAfter] at hj
      split at hj <;> cases hj
      rfl
  | trailing =>
    obtain ⟨x, k, h1, h2, h3, v, hv⟩ := h.trail _ _ _ _ rfl rfl
    subst h2
    obtain ⟨ext, hext⟩ := h.suffix
    rename_i i d st _ _
    have hf : fieldAt S ⟨st.length, 0, x.2⟩ = some x.1 := by
      rw [hext]; exact fieldAt_ext_some (fieldAt_main (posTarget_field h1).2.2)
    have hm : isMulti x.1 = true := by
      cases hm : isMulti x.1 with
      | true => rfl
      | false =>
        have := hone _ _ hf hm
        rw [occs_at] at this
        have := List.length_pos_iff.2 (occs_ne_nil.2 ⟨v, hv⟩)
        simp only [List.length_append, List.length_cons] at *
        omega
    exact h.push (posTarget_multi h1 hm (Nat.le_of_lt h3)) (fun hj => absurd rfl (hj _)) (by simp)
  | sub hv hp =>
    rw [List.append_nil]
    refine ⟨hS, ?_, ?_, ?_, by simp⟩
    · intro e he
      obtain ⟨f, hf⟩ := h.fields e he
      exact ⟨f, fieldAt_ext_some (ext := [_]) hf⟩
    · intro pre i d outer hs j ev hj
      cases pre with
      | cons y pre =>
        simp only [List.cons_append, List.cons.injEq] at hs
        exact h.filled pre i d outer hs.2 j ev hj
      | nil =>
        simp only [List.nil_append, List.cons.injEq, Prod.mk.injEq] at hs
        exfalso
        have hmem := List.mem_filter.1 (List.mem_of_getElem? hj)
        obtain ⟨f, hf⟩ := h.fields _ hmem.1
        have := fieldAt_level hf
        have h2 := hmem.2
        simp only [isPositionalAt, Bool.and_eq_true, decide_eq_true_eq] at h2
        rw [h2.1, ← hs.2] at this
        exact Nat.lt_irrefl _ this
    · intro i d st hs _
      rw [List.length_eq_zero_iff, List.filter_eq_nil_iff]
      simp only [List.cons.injEq, Prod.mk.injEq] at hs
      intro e he hc
      obtain ⟨f, hf⟩ := h.fields e he
      have := fieldAt_level hf
      simp only [isPositionalAt, Bool.and_eq_true, decide_eq_true_eq] at hc
      rw [hc.1, ← hs.2] at this
      exact Nat.lt_irrefl _ this

theorem occs_append_length (l l' : List Event) (a : Addr) : (occs l a).length ≤ (occs (l ++ l') a).length := by
  simp [occs]

theorem PosInv.steps {κ κ1 : Ctx V} {toks rest : List Bytes} {evs : List Event}
    (hs : Steps cx κ toks evs κ1 rest) : ∀ {log : List Event} {S : List (Entry V)}, PosInv S κ log → (∃ ext, S = ext ++ κ1.stack) →
    (∀ a f, fieldAt S a = some f → isMulti f = false → (occs (log ++ evs) a).length ≤ 1) →
    PosInv S κ1 (log ++ evs) := by
  induction hs with
  | refl => intro log S h _ _; simpa using h
  | step hst hss ih =>
    intro log S h hS hone
    rw [← List.append_assoc]
    obtain ⟨ext, hext⟩ := hS
    obtain ⟨e2, q2⟩ := steps_stack hss
    refine ih (h.step hst ⟨ext ++ e2, by rw [hext, q2]; simp⟩ ?_) ⟨ext, hext⟩ ?_
    · intro a f hf hm
      refine Nat.le_trans ?_ (hone a f hf hm)
      rw [← List.append_assoc]
      exact occs_append_length _ _ _
    · intro a f hf hm
      rw [List.append_assoc]
      exact hone a f hf hm

theorem PosInv.init {argv0 : Bytes} {d : ArgsDef V} {S : List (Entry V)} (hS : ∃ ext, S = ext ++ (start argv0 d).stack) :
    PosInv S (start argv0 d) [] := by
  refine ⟨hS, by simp, by simp, by simp [start], by simp [start]⟩

end Palc
