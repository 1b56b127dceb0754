import Verif.SpecLocal
import Verif.Lemmas.Relax
import Verif.Lemmas.Content
import Verif.Lemmas.Parsed
/-! Occurrences that differ in acceptable values only. -/

namespace Palc

open Spec

variable {V : Type} {cx : Cx V} {f : FieldInfo V} {st : List (Entry V)}

/-! ## Contents -/

theorem parsedAll_append_ne (f : FieldInfo V) (xs ys : List Bytes) :
    parsedAll f (xs ++ ys) ≠ none ↔ parsedAll f xs ≠ none ∧ parsedAll f ys ≠ none := by
  rw [parsedAll_append]
  cases parsedAll f xs <;> cases parsedAll f ys <;> simp

theorem content_multi_ne (hm : isMulti f = true) (os : List (Option Bytes)) :
    content f os ≠ none ↔ ∀ o ∈ os, content f [o] ≠ none := by
  have hone : ∀ o : Option Bytes, content f [o] ≠ none ↔ ∃ b, o = some b ∧ parsedAll f (pieces f b) ≠ none := by
    intro o
    rw [content_multi hm [o] (by simp)]
    cases o with
    | none => simp [allValues]
    | some b => simp [allValues]
  have hall : ∀ os : List (Option Bytes), (match allValues os with
      | some bs => (parsedAll f (bs.flatMap (pieces f))).map Value.many
      | none => none) ≠ none ↔ ∀ o ∈ os, content f [o] ≠ none := by
    intro os
    induction os with
    | nil => simp [allValues, parsedAll]
    | cons o os ih =>
      rw [List.forall_mem_cons, ← ih, hone]
      cases o with
      | none => simp [allValues]
      | some b =>
        simp only [allValues]
        cases allValues os with
        | none => simp
        | some bs =>
          simp only [Option.map_some, List.flatMap_cons, ne_eq, Option.map_eq_none_iff, Option.some.injEq]
          rw [← ne_eq, parsedAll_append_ne]
          simp
  cases os with
  | nil => simp [content]
  | cons o os => rw [content_multi hm _ (by simp)]; exact hall _

theorem given_multi_ne (hm : isMulti f = true) (os : List (Option Bytes)) :
    given f os ≠ none ↔ ∀ o ∈ os, given f [o] ≠ none := by
  unfold given
  rw [content_multi_ne hm]
  simp

theorem given_single_ne (hm : isMulti f = false) (os : List (Option Bytes)) :
    given f os ≠ none ↔ os = [] ∨ ∃ o, os = [o] ∧ given f [o] ≠ none := by
  constructor
  · intro h
    have := given_single h hm
    match os, h, this with
    | [], _, _ => exact .inl rfl
    | [o], h, _ => exact .inr ⟨o, rfl, h⟩
    | _ :: _ :: _, _, h => simp at h
  · rintro (rfl | ⟨o, rfl, h⟩)
    · simp [given, content]
    · exact h

/-- The same occurrence of `f`, or one with another value. -/
def OccAlike (f : FieldInfo V) (o o' : Option Bytes) : Prop :=
  o = o' ∨ (o.isSome = true ∧ o'.isSome = true ∧ given f [o] ≠ none ∧ given f [o'] ≠ none)

theorem OccAlike.symm {o o' : Option Bytes} (h : OccAlike f o o') : OccAlike f o' o := by
  rcases h with rfl | ⟨h1, h2, h3, h4⟩
  · exact .inl rfl
  · exact .inr ⟨h2, h1, h4, h3⟩

theorem OccAlike.given {o o' : Option Bytes} (h : OccAlike f o o') (hg : given f [o] ≠ none) : Spec.given f [o'] ≠ none := by
  rcases h with rfl | ⟨_, _, _, h4⟩
  · exact hg
  · exact h4

theorem given_alike {os os' : List (Option Bytes)} (h : All₂ (OccAlike f) os os') (hg : given f os ≠ none) :
    given f os' ≠ none := by
  cases hm : isMulti f with
  | true =>
    rw [given_multi_ne hm] at hg ⊢
    induction h with
    | nil => simp
    | cons h _ ih =>
      rw [List.forall_mem_cons] at hg ⊢
      exact ⟨h.given hg.1, ih hg.2⟩
  | false =>
    rw [given_single_ne hm] at hg ⊢
    rcases hg with rfl | ⟨o, rfl, hg⟩
    · cases h; exact .inl rfl
    · cases h with
      | cons h t => cases t; exact .inr ⟨_, rfl, h.given hg⟩

/-! ## Occurrences -/

theorem Spec.AllRevalued.refl (evs : List Event) : AllRevalued st evs evs := by
  induction evs with
  | nil => exact .nil
  | cons e _ ih => exact .cons (.same e) ih

theorem Spec.AllRevalued.append {evs evs' more more' : List Event} (h : AllRevalued st evs evs') (hm : AllRevalued st more more') :
    AllRevalued st (evs ++ more) (evs' ++ more') := by
  induction h with
  | nil => exact hm
  | cons h _ ih => exact .cons h ih

theorem Spec.Revalued.symm {e e' : Event} (h : Revalued st e e') : Revalued st e' e := by
  cases h with
  | same => exact .same _
  | value hf hv hv' => exact .value hf hv' hv

theorem Spec.AllRevalued.symm {evs evs' : List Event} (h : AllRevalued st evs evs') : AllRevalued st evs' evs := by
  induction h with
  | nil => exact .nil
  | cons h _ ih => exact .cons h.symm ih

theorem Spec.AllRevalued.ext {evs evs' : List Event} (h : AllRevalued st evs evs') (ext : List (Entry V)) :
    AllRevalued (ext ++ st) evs evs' := by
  induction h with
  | nil => exact .nil
  | cons h _ ih =>
    refine .cons ?_ ih
    cases h with
    | same => exact .same _
    | value hf hv hv' => exact .value (fieldAt_ext_some hf) hv hv'

theorem occs_cons (e : Event) (evs : List Event) (a : Addr) : occs (e :: evs) a = (if a = e.1 then [e.2] else []) ++ occs evs a := by
  rw [show e :: evs = [e] ++ evs from rfl, occs_append, occs_single]

theorem Spec.AllRevalued.occs {evs evs' : List Event} (h : AllRevalued st evs evs') {a : Addr} (hf : fieldAt st a = some f) :
    All₂ (OccAlike f) (occs evs a) (occs evs' a) := by
  induction h with
  | nil => exact .nil
  | @cons e e' _ _ h _ ih =>
    rw [occs_cons, occs_cons]
    refine All₂.append ?_ ih
    cases h with
    | same =>
      split
      · exact .cons (.inl rfl) .nil
      · exact .nil
    | value hg hv hv' =>
      simp only
      split
      · rename_i h
        subst h
        rw [hf] at hg
        cases hg
        exact .cons (.inr ⟨rfl, rfl, hv, hv'⟩) .nil
      · exact .nil

theorem Spec.AllRevalued.occs_nil {evs evs' : List Event} (h : AllRevalued st evs evs') (a : Addr) :
    Spec.occs evs a = [] ↔ Spec.occs evs' a = [] := by
  induction h with
  | nil => simp
  | @cons e e' _ _ h _ ih =>
    rw [occs_cons, occs_cons]
    have : e'.1 = e.1 := by cases h <;> rfl
    rw [this]
    split <;> simp [ih]

theorem Spec.AllRevalued.acceptable {evs evs' : List Event} (h : AllRevalued st evs evs') (ha : Acceptable st evs) :
    Acceptable st evs' := fun a f hf => given_alike (h.occs hf) (ha a f hf)

theorem allFail_present {evs evs' : List Event} (h : ∀ a, occs evs a = [] ↔ occs evs' a = []) (st : List (Entry V)) (sub : Bool) :
    allFail evs st sub = allFail evs' st sub := by
  have he : ∀ a, (occs evs a).isEmpty = (occs evs' a).isEmpty := by
    intro a
    rw [Bool.eq_iff_iff, List.isEmpty_iff, List.isEmpty_iff]
    exact h a
  induction st generalizing sub with
  | nil => rfl
  | cons x st ih =>
    obtain ⟨i, d⟩ := x
    simp only [Spec.allFail, ih, he]

theorem Spec.AllRevalued.split {evs' : List Event} {pre post : List Event} {e : Event} (h : AllRevalued st (pre ++ e :: post) evs') :
    ∃ pre' e' post', evs' = pre' ++ e' :: post' ∧ AllRevalued st pre pre' ∧ Revalued st e e' := by
  induction pre generalizing evs' with
  | nil =>
    cases h with
    | cons h t => exact ⟨[], _, _, rfl, .nil, h⟩
  | cons x pre ih =>
    cases h with
    | cons h t =>
      obtain ⟨pre', e', post', rfl, h1, h2⟩ := ih t
      exact ⟨_ :: pre', e', post', rfl, .cons h h1, h2⟩

/-- A first occurrence that is bad although its value is acceptable is a duplicate. -/
theorem badValue_valid {os : List (Option Bytes)} {v : Bytes} {e : Error} (hv : ValidValue f v)
    (h : BadValue f os (some (normalise f v)) e) : e = { kind := .duplicatedNamedArgument } ∧ isMulti f = false ∧ os ≠ [] := by
  have hc : content f [some (normalise f v)] ≠ none := hv
  cases h with
  | flagValue hk => simp [content, hk] at hc
  | duplicate hm ho hne => exact ⟨rfl, hm, hne⟩
  | invalid hm hk hos hp =>
    exfalso
    apply hc
    cases hkk : f.kind <;> simp [isMulti, hkk] at hm hk ⊢ <;> simp [content, hkk, parsed, hp]
  | @piece _ _ x _ _ hm hp hxs hpv =>
    exfalso
    rw [content_multi hm _ (by simp)] at hc
    apply hc
    simp only [allValues, Option.map_some, List.flatMap_cons, List.flatMap_nil, List.append_nil, Option.map_eq_none_iff]
    exact parsedAll_none (x := x) (by rw [hp]; simp) (by simp [parsed, hpv])

theorem Spec.AllRevalued.firstBad {evs evs' : List Event} (h : AllRevalued st evs evs') {e : Error} (hb : FirstBad st [] evs e) :
    FirstBad st [] evs' e := by
  obtain ⟨pre, a, o, post, f, e0, rfl, hf, hacc, hbad, rfl⟩ := hb
  obtain ⟨pre', e', post', rfl, h1, h2⟩ := h.split
  rw [List.nil_append] at hacc hbad
  have hacc' : ∀ b g, fieldAt st b = some g → given g (Spec.occs pre' b) ≠ none := h1.acceptable hacc
  cases h2 with
  | same => exact ⟨pre', a, o, post', f, e0, rfl, hf, hacc', hbad.congr (h1.occs_nil a), rfl⟩
  | @value _ g v v' hg hv hv' =>
    rw [hf] at hg
    cases hg
    obtain ⟨rfl, hm, hne⟩ := badValue_valid hv hbad
    refine ⟨pre', a, some v', post', f, _, rfl, hf, hacc', .duplicate hm ?_ ?_, rfl⟩
    · intro hk
      exfalso
      apply hv
      simp [given, content, hk]
    · rw [List.nil_append]
      exact fun h => hne ((h1.occs_nil a).2 h)

/-! ## Outcomes -/

/-- After occurrences that differ in acceptable values only, the parser fails in the same way, or succeeds with the same values of
all other arguments. -/
theorem outcome_revalued {d : ArgsDef V} (wf : WFArgs cx d) {argv0 : Bytes} {T T' rest : Toks} {evs evs' : List Event} {κ : Ctx V}
    (h : Steps cx (start argv0 d) T evs κ rest) (h' : Steps cx (start argv0 d) T' evs' κ rest) (hs : AllRevalued κ.stack evs evs') :
    (∃ x, tryParseFrom d (argv0 :: T) = .error x ∧ tryParseFrom d (argv0 :: T') = .error x)
    ∨ ∃ E κ' out out', Reads cx κ rest E κ' ∧ tryParseFrom d (argv0 :: T) = .ok out ∧ tryParseFrom d (argv0 :: T') = .ok out' := by
  have lift : ∀ {κ' : Ctx V} {rest' : Toks} {more : List Event}, Steps cx κ rest more κ' rest' →
      AllRevalued κ'.stack evs evs' := by
    intro κ' rest' more hm
    obtain ⟨ext, he⟩ := steps_stack hm
    rw [he]
    exact hs.ext ext
  rcases steps_sound h (root_sim wf argv0) with ⟨ls, S, _⟩ | ⟨e, _, h2⟩
  · rw [List.nil_append] at S
    rcases run_cases S rest with ⟨more, κ', hr⟩ | ⟨more, κ', e, hh⟩ | ⟨more, κ', r, e, hst, _, hb⟩
    · have hs' := (lift (reads_steps hr)).append (AllRevalued.refl more)
      rcases outcome_reads wf (steps_reads h hr) with ⟨_, ha, _, h2⟩ | ⟨e1, h1, h2⟩
      · rcases outcome_reads wf (steps_reads h' hr) with ⟨_, _, _, h2'⟩ | ⟨e1, h1, _⟩
        · rw [← allFail_present hs'.occs_nil] at h2'
          cases hf : allFail (evs ++ more) κ'.stack false with
          | some x => rw [hf] at h2 h2'; exact .inl ⟨x, h2, h2'⟩
          | none =>
            rw [hf] at h2 h2'
            obtain ⟨o, _, q2⟩ := h2
            obtain ⟨o', _, q2'⟩ := h2'
            exact .inr ⟨more, κ', o, o', hr, q2, q2'⟩
        · exact absurd (hs'.acceptable ha) h1.not_acceptable
      · left
        have h3 := hs'.firstBad h1
        rcases outcome_reads wf (steps_reads h' hr) with ⟨_, ha', _, _⟩ | ⟨e2, h1', h2'⟩
        · exact absurd ha' h3.not_acceptable
        · rw [h3.unique h1'] at h2
          exact ⟨_, h2, h2'⟩
    · obtain ⟨e1, e2, r, hst, hstk, rfl⟩ := hh
      have hh1 : Halts cx (start argv0 d) T (evs ++ (e1 ++ e2)) κ' e := ⟨_, _, _, steps_trans h hst, hstk, by rw [List.append_assoc]⟩
      have hh2 : Halts cx (start argv0 d) T' (evs' ++ (e1 ++ e2)) κ' e := ⟨_, _, _, steps_trans h' hst, hstk, by rw [List.append_assoc]⟩
      have hs' := (lift hst).append (AllRevalued.refl (e1 ++ e2))
      left
      rcases outcome_halts wf hh1 with ⟨ha, h1⟩ | ⟨x, hb, h1⟩ <;> rcases outcome_halts wf hh2 with ⟨ha', h1'⟩ | ⟨x', hb', h1'⟩
      · exact ⟨_, h1, h1'⟩
      · exact absurd (hs'.acceptable ha) hb'.not_acceptable
      · exact absurd (hs'.symm.acceptable ha') hb.not_acceptable
      · rw [(hs'.firstBad hb).unique hb'] at h1
        exact ⟨_, h1, h1'⟩
    · left
      have hb1 : FirstBad κ'.stack [] (evs ++ more) e := FirstBad.shift hb
      have hb2 := ((lift hst).append (AllRevalued.refl more)).firstBad hb1
      exact ⟨_, outcome_steps wf (steps_trans h hst) hb1, outcome_steps wf (steps_trans h' hst) hb2⟩
  · exact .inl ⟨_, outcome_steps wf h h2, outcome_steps wf h' (hs.firstBad h2)⟩

end Palc
