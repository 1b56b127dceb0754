import Verif.Lemmas.Exchange
import Verif.Lemmas.Kinds
/-! The outcome depends only on the occurrences of each argument, not on how those of different arguments are interleaved. -/

namespace Palc

open Spec

variable {V : Type} {cx : Cx V}

/-- The same occurrences of every argument. -/
def SameOccs (evs evs' : List Event) : Prop := ∀ a, occs evs a = occs evs' a

theorem SameOccs.append {evs evs' : List Event} (h : SameOccs evs evs') (r : List Event) : SameOccs (evs ++ r) (evs' ++ r) := by
  intro a
  rw [occs_append, occs_append, h a]

theorem SameOccs.symm {evs evs' : List Event} (h : SameOccs evs evs') : SameOccs evs' evs := fun a => (h a).symm

theorem SameOccs.acceptable {evs evs' : List Event} (h : SameOccs evs evs') {st : List (Entry V)} (ha : Acceptable st evs) :
    Acceptable st evs' := by
  intro a f hf
  rw [← h a]
  exact ha a f hf

theorem SameOccs.allFail {evs evs' : List Event} (h : SameOccs evs evs') (st : List (Entry V)) (sub : Bool) :
    allFail evs st sub = allFail evs' st sub := by
  induction st generalizing sub with
  | nil => rfl
  | cons x st ih =>
    obtain ⟨i, d⟩ := x
    simp only [Spec.allFail, ih, h _]

theorem SameOccs.outAll {evs evs' : List Event} (h : SameOccs evs evs') (st : List (Entry V)) (sub : Option (Out V)) :
    outAll evs st sub = outAll evs' st sub := by
  induction st generalizing sub with
  | nil => rfl
  | cons x st ih =>
    obtain ⟨i, d⟩ := x
    simp only [Spec.outAll, h _]
    split
    · split
      · rfl
      · exact ih _
    · rfl

theorem sameOccs_swap (evs : List Event) {xs ys : List Event} (h : ∀ x ∈ xs, ∀ y ∈ ys, x.1 ≠ y.1) :
    SameOccs (evs ++ (xs ++ ys)) (evs ++ (ys ++ xs)) := by
  intro a
  rw [occs_append, occs_append, occs_append, occs_append]
  have key : occs xs a = [] ∨ occs ys a = [] := by
    by_cases hx : occs xs a = []
    · exact .inl hx
    · right
      unfold occs at hx ⊢
      rw [List.map_eq_nil_iff, List.filter_eq_nil_iff] at hx ⊢
      intro y hy hya
      apply hx
      intro x hxm hxa
      simp only [decide_eq_true_eq] at hxa hya
      exact h x hxm y hy (hxa.trans hya.symm)
  rcases key with h | h <;> simp [h]

/-- Unacceptable values lead to an error about a value. -/
theorem value_error {d : ArgsDef V} (wf : WFArgs cx d) {argv0 : Bytes} {T rest : Toks} {evs : List Event} {κ : Ctx V}
    (h : Steps cx (start argv0 d) T evs κ rest) (ha : ¬ Acceptable κ.stack evs) :
    ∃ e, tryParseFrom d (argv0 :: T) = .error (.error e) ∧ e.kind.ofValue = true := by
  rcases steps_sound h (root_sim wf argv0) with ⟨ls, S, _⟩ | ⟨e, _, h2⟩
  · exact absurd S.given_ne (by simpa using ha)
  · exact ⟨e, outcome_steps wf h h2, firstBad_kind h2⟩

/-- After the same occurrences of every argument, in the same context, the outcome is the same, except that another one of
several unacceptable values may be the one that is reported. -/
theorem outcome_occs {d : ArgsDef V} (wf : WFArgs cx d) {argv0 : Bytes} {T T' rest : Toks} {evs evs' : List Event} {κ : Ctx V}
    (h : Steps cx (start argv0 d) T evs κ rest) (h' : Steps cx (start argv0 d) T' evs' κ rest) (hs : SameOccs evs evs') :
    tryParseFrom d (argv0 :: T) = tryParseFrom d (argv0 :: T')
    ∨ ∃ e e', tryParseFrom d (argv0 :: T) = .error (.error e) ∧ tryParseFrom d (argv0 :: T') = .error (.error e')
      ∧ e.kind.ofValue = true ∧ e'.kind.ofValue = true := by
  have bad : ∀ {κ' : Ctx V} {rest' : Toks} {more : List Event}, Steps cx κ rest more κ' rest' →
      ¬ Acceptable κ'.stack (evs ++ more) →
      ∃ e e', tryParseFrom d (argv0 :: T) = .error (.error e) ∧ tryParseFrom d (argv0 :: T') = .error (.error e')
        ∧ e.kind.ofValue = true ∧ e'.kind.ofValue = true := by
    intro κ' rest' more hm ha
    obtain ⟨e, h1, h2⟩ := value_error wf (steps_trans h hm) ha
    obtain ⟨e', h1', h2'⟩ := value_error wf (steps_trans h' hm) (fun hx => ha ((hs.append more).symm.acceptable hx))
    exact ⟨e, e', h1, h1', h2, h2'⟩
  rcases steps_sound h (root_sim wf argv0) with ⟨ls, S, _⟩ | ⟨e, _, h2⟩
  · rw [List.nil_append] at S
    rcases run_cases S rest with ⟨more, κ', hr⟩ | ⟨more, κ', e, hh⟩ | ⟨more, κ', r, e, hst, _, hb⟩
    · by_cases ha : Acceptable κ'.stack (evs ++ more)
      · left
        have ha' := (hs.append more).acceptable ha
        rcases outcome_reads wf (steps_reads h hr) with ⟨_, _, _, h2⟩ | ⟨e1, h1, _⟩
        · rcases outcome_reads wf (steps_reads h' hr) with ⟨_, _, _, h2'⟩ | ⟨e1, h1, _⟩
          · rw [← (hs.append more).allFail, ← (hs.append more).outAll] at h2'
            cases hf : allFail (evs ++ more) κ'.stack false with
            | some x => rw [hf] at h2 h2'; exact Eq.trans h2 h2'.symm
            | none =>
              rw [hf] at h2 h2'
              obtain ⟨o, q1, q2⟩ := h2
              obtain ⟨o', q1', q2'⟩ := h2'
              rw [q1] at q1'
              cases q1'
              rw [q2, q2']
          · exact absurd ha' h1.not_acceptable
        · exact absurd ha h1.not_acceptable
      · exact .inr (bad (reads_steps hr) ha)
    · obtain ⟨e1, e2, r, hst, hstk, rfl⟩ := hh
      have hh1 : Halts cx (start argv0 d) T (evs ++ (e1 ++ e2)) κ' e := ⟨_, _, _, steps_trans h hst, hstk, by rw [List.append_assoc]⟩
      have hh2 : Halts cx (start argv0 d) T' (evs' ++ (e1 ++ e2)) κ' e := ⟨_, _, _, steps_trans h' hst, hstk, by rw [List.append_assoc]⟩
      rcases outcome_halts wf hh1 with ⟨ha, h1⟩ | ⟨x, hb, h1⟩ <;> rcases outcome_halts wf hh2 with ⟨ha', h1'⟩ | ⟨x', hb', h1'⟩
      · exact .inl (h1.trans h1'.symm)
      · exact absurd ((hs.append _).acceptable ha) hb'.not_acceptable
      · exact absurd ((hs.append _).symm.acceptable ha') hb.not_acceptable
      · exact .inr ⟨x, x', h1, h1', firstBad_kind hb, firstBad_kind hb'⟩
    · exact .inr (bad hst (FirstBad.not_acceptable hb))
  · exact .inr (bad .refl (by rw [List.append_nil]; simpa using FirstBad.not_acceptable h2))

end Palc
