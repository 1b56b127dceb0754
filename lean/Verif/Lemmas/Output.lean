import Verif.SpecOut
import Verif.Lemmas.Exchange
/-! The fields of the value produced by a successful parse. -/

namespace Palc

open Spec

variable {V : Type}

theorem outFields_get {os : Nat → List (Option Bytes)} {i0 : Nat} {fs : List (FieldInfo V)} {out : List (Str × Out V)}
    (h : outFields os i0 fs = some out) : out.length = fs.length ∧ ∀ (n : Nat) (f : FieldInfo V), fs[n]? = some f →
      ∃ v, fieldOut f (os (i0 + n)) = some v ∧ out[n]? = some (f.ident, .field v) := by
  induction fs generalizing i0 out with
  | nil => simp [outFields] at h; subst h; simp
  | cons g fs ih =>
    simp only [outFields] at h
    split at h
    · rename_i o r h1 h2
      cases h
      obtain ⟨hl, ih⟩ := ih h2
      refine ⟨by simp [hl], ?_⟩
      intro n f hf
      cases n with
      | zero => simp at hf; subst hf; exact ⟨o, by simpa using h1, rfl⟩
      | succ n =>
        obtain ⟨v, q1, q2⟩ := ih n f (by simpa using hf)
        rw [show i0 + 1 + n = i0 + (n + 1) by omega] at q1
        exact ⟨v, q1, by simpa using q2⟩
    · simp at h

mutual
theorem outArgs_at : (d : ArgsDef V) → {os : Nat → Nat → List (Option Bytes)} → {s : Nat} → {sub : Option (Out V)} →
    {o : Out V} → outArgs os s sub d = some o → (k : Nat) → (c : Core V) → (structs d)[k]? = some c →
    ∃ fs, structAt d k o = some fs ∧ fs.length = c.fields.length ∧ ∀ (i : Nat) (f : FieldInfo V), c.fields[i]? = some f →
      ∃ v, fieldOut f (os (s + k) i) = some v ∧ fs[i]? = some (f.ident, .field v)
  | .mk core flats subF, os, s, sub, o, h, k, c, hc => by
    rw [outArgs] at h
    rw [structs] at hc
    split at h
    · rename_i own fl sb h1 h2 h3
      cases h
      obtain ⟨hl, hf⟩ := outFields_get h1
      cases k with
      | zero =>
        simp only [List.getElem?_cons_zero, Option.some.injEq] at hc
        subst hc
        rw [structAt]
        refine ⟨_, rfl, by simp [hl], ?_⟩
        intro i f hi
        obtain ⟨v, q1, q2⟩ := hf i f hi
        refine ⟨v, by simpa using q1, ?_⟩
        have hlt : i < core.fields.length := (List.getElem?_eq_some_iff.1 hi).1
        rw [List.getElem?_take, if_pos hlt, List.append_assoc, List.getElem?_append_left (by omega)]
        exact q2
      | succ k =>
        rw [structAt]
        obtain ⟨fs, q1, q2, q3⟩ := outFlats_at flats h2 sb k c (by simpa using hc)
        refine ⟨fs, ?_, q2, ?_⟩
        · rw [List.append_assoc, List.drop_append_of_le_length (by omega), ← hl, List.drop_length, List.nil_append]
          exact q1
        · rw [show s + (k + 1) = s + 1 + k by omega]
          exact q3
    · simp at h
theorem outFlats_at : (fl : Flats V) → {os : Nat → Nat → List (Option Bytes)} → {s : Nat} →
    {o : List (Str × Out V)} → outFlats os s fl = some o → (more : List (Str × Out V)) → (k : Nat) → (c : Core V) →
    (flatStructs fl)[k]? = some c →
    ∃ fs, flatAt fl k (o ++ more) = some fs ∧ fs.length = c.fields.length ∧ ∀ (i : Nat) (f : FieldInfo V), c.fields[i]? = some f →
      ∃ v, fieldOut f (os (s + k) i) = some v ∧ fs[i]? = some (f.ident, .field v)
  | .nil, os, s, o, h, more, k, c, hc => by
    rw [flatStructs] at hc
    simp at hc
  | .cons ident d rest, os, s, o, h, more, k, c, hc => by
    rw [outFlats] at h
    rw [flatStructs] at hc
    split at h
    · rename_i o1 r h1 h2
      cases h
      rw [flatAt.eq_def]
      simp only [List.cons_append]
      by_cases hk : k < (structs d).length
      · rw [List.getElem?_append_left hk] at hc
        rw [if_pos hk]
        exact outArgs_at d h1 k c hc
      · rw [List.getElem?_append_right (by omega)] at hc
        rw [if_neg hk]
        obtain ⟨fs, q1, q2, q3⟩ := outFlats_at rest h2 more _ c hc
        refine ⟨fs, q1, q2, ?_⟩
        rw [show s + (structs d).length + (k - (structs d).length) = s + k by omega] at q3
        exact q3
    · simp at h
end

theorem outArgs_sub {d : ArgsDef V} {os : Nat → Nat → List (Option Bytes)} {i : Str} {p o : Out V}
    (h : outArgs os 0 (some (.variant i p)) d = some o) (hs : hasSub d = true) : subAt o = some (i, p) := by
  obtain ⟨core, flats, sub⟩ := d
  rw [outArgs] at h
  split at h
  · rename_i own fl sb h1 h2 h3
    cases h
    cases sub with
    | none => simp [hasSub, subOf] at hs
    | some ident opt vs =>
      cases opt <;> simp only [outSub, Option.some.injEq] at h3 <;> subst h3 <;> simp [subAt]
  · simp at h

/-- The stack is a path of subcommands: each command was selected in the one below it. -/
def PathOk : List (Entry V) → Prop
  | [] => True
  | (i, e) :: outer =>
    (match outer with
      | [] => True
      | (_, d) :: _ => ∃ v ∈ subVariants d, i.ident = variantIdent v ∧ i.name = v.name ∧ e = variantDef v) ∧ PathOk outer

theorem step_path {cx : Cx V} {κ κ1 : Ctx V} {toks rest : Toks} {evs : List Event} (h : Step cx κ toks evs κ1 rest)
    (hp : PathOk κ.stack) : PathOk κ1.stack := by
  cases h with
  | sub hv => exact ⟨⟨_, hv.mem, rfl, rfl, rfl⟩, hp⟩
  | _ => exact hp

theorem steps_path {cx : Cx V} {κ κ1 : Ctx V} {toks rest : Toks} {evs : List Event} (h : Steps cx κ toks evs κ1 rest)
    (hp : PathOk κ.stack) : PathOk κ1.stack := by
  induction h with
  | refl => exact hp
  | step h _ ih => exact ih (step_path h hp)

theorem start_path (argv0 : Bytes) (d : ArgsDef V) : PathOk (start argv0 d).stack := ⟨trivial, trivial⟩

theorem hasSub_of_variant {d : ArgsDef V} {v : Variant V} (h : v ∈ subVariants d) : hasSub d = true := by
  unfold subVariants at h
  unfold hasSub
  split at h
  · simp at h
  · rfl

/-- Every entered command contributes its value, at its place. -/
theorem outAll_at {evs : List Event} {st : List (Entry V)} (hpath : PathOk st) {sub : Option (Out V)} {out : Out V}
    (h : outAll evs st sub = some out) (hne : st ≠ []) :
    ∀ (pre : List (Entry V)) (i : CmdId) (d : ArgsDef V) (outer : List (Entry V)), st = pre ++ (i, d) :: outer →
      ∃ o sub', outArgs (fun s k => occs evs ⟨outer.length, s, k⟩) 0 sub' d = some o
        ∧ commandAt ((i, d) :: outer) out = some o
        ∧ (pre = [] → sub' = sub)
        ∧ (∀ p j e, pre = p ++ [(j, e)] → ∃ o', sub' = some (.variant j.ident o')
            ∧ commandAt ((j, e) :: (i, d) :: outer) out = some o' ∧ subAt o = some (j.ident, o')) := by
  induction st generalizing sub with
  | nil => exact absurd rfl hne
  | cons x rest ih =>
    obtain ⟨i, d⟩ := x
    rw [outAll] at h
    split at h
    · rename_i o ho
      cases rest with
      | nil =>
        simp only [Option.some.injEq] at h
        subst h
        intro pre i' d' outer he
        cases pre with
        | nil =>
          simp only [List.nil_append, List.cons.injEq, Prod.mk.injEq] at he
          obtain ⟨⟨rfl, rfl⟩, rfl⟩ := he
          refine ⟨o, sub, ho, rfl, fun _ => rfl, ?_⟩
          intro p j e hp
          simp at hp
        | cons y pre => simp at he
      | cons y rest =>
        obtain ⟨i1, d1⟩ := y
        simp only at h
        have hv := hpath.1
        simp only at hv
        obtain ⟨v, hv1, hv2, _, _⟩ := hv
        have ih := ih hpath.2 h (by simp)
        obtain ⟨o1, sub1, q1, q2, q3, _⟩ := ih [] i1 d1 rest rfl
        have q3 := q3 rfl
        subst q3
        have hsub := outArgs_sub q1 (hasSub_of_variant hv1)
        have hcmd : commandAt ((i, d) :: (i1, d1) :: rest) out = some o := by
          simp only [commandAt, q2, hsub]
        intro pre i' d' outer he
        cases pre with
        | nil =>
          simp only [List.nil_append, List.cons.injEq, Prod.mk.injEq] at he
          obtain ⟨⟨rfl, rfl⟩, rfl⟩ := he
          refine ⟨o, sub, ho, hcmd, fun _ => rfl, ?_⟩
          intro p j e hp
          simp at hp
        | cons z pre =>
          simp only [List.cons_append, List.cons.injEq] at he
          obtain ⟨rfl, he⟩ := he
          obtain ⟨o2, sub2, r1, r2, r3, r4⟩ := ih pre i' d' outer he
          refine ⟨o2, sub2, r1, r2, fun hc => by simp at hc, ?_⟩
          intro p j e hp
          cases pre with
          | nil =>
            simp only [List.nil_append, List.cons.injEq, Prod.mk.injEq] at he
            obtain ⟨⟨rfl, rfl⟩, rfl⟩ := he
            cases p with
            | nil =>
              simp only [List.nil_append, List.cons.injEq, Prod.mk.injEq, and_true] at hp
              obtain ⟨rfl, rfl⟩ := hp
              have := r3 rfl
              subst this
              rw [q1] at r1
              cases r1
              exact ⟨o, rfl, hcmd, hsub⟩
            | cons w p => simp at hp
          | cons z' pre =>
            cases p with
            | nil => simp at hp
            | cons w p =>
              simp only [List.cons_append, List.cons.injEq] at hp
              exact r4 p j e (by simp [hp.2])
    · simp at h

theorem fieldAt_split {st : List (Entry V)} {a : Addr} {f : FieldInfo V} (h : fieldAt st a = some f) :
    ∃ pre i d outer c, st = pre ++ (i, d) :: outer ∧ a.level = outer.length ∧ (structs d)[a.struct]? = some c
      ∧ c.fields[a.field]? = some f := by
  induction st with
  | nil => simp [fieldAt] at h
  | cons x rest ih =>
    obtain ⟨i, d⟩ := x
    simp only [fieldAt] at h
    split at h
    · rename_i hl
      split at h
      · rename_i c hc
        exact ⟨[], i, d, rest, c, rfl, hl, hc, h⟩
      · simp at h
    · obtain ⟨pre, i', d', outer, c, rfl, h1⟩ := ih h
      exact ⟨(i, d) :: pre, i', d', outer, c, rfl, h1⟩

theorem outAt_split {pre : List (Entry V)} {i : CmdId} {d : ArgsDef V} {outer : List (Entry V)} {out : Out V} {a : Addr}
    (ha : a.level = outer.length) : outAt (pre ++ (i, d) :: outer) out a = outAt ((i, d) :: outer) out a := by
  induction pre with
  | nil => rfl
  | cons x pre ih =>
    obtain ⟨i', d'⟩ := x
    simp only [List.cons_append, outAt]
    rw [if_neg (by simp [ha]; omega), ih]
    rfl

/-- A command line that was parsed successfully, and its reading. -/
theorem ok_reading {cx : Cx V} {d : ArgsDef V} (wf : WFArgs cx d) {argv0 : Bytes} {toks : Toks}
    {evs : List Event} {κ : Ctx V} {out : Out V} (h : Reads cx (start argv0 d) toks evs κ)
    (hok : tryParseFrom d (argv0 :: toks) = .ok out) :
    Acceptable κ.stack evs ∧ AllOk evs κ.stack false ∧ outAll evs κ.stack none = some out := by
  rcases outcome_reads wf h with ⟨hwf, hacc, hne, h1⟩ | ⟨e, _, h2⟩
  · cases hf : allFail evs κ.stack false with
    | some x => rw [hf] at h1; simp only at h1; rw [h1] at hok; cases hok
    | none =>
      rw [hf] at h1
      obtain ⟨o, q1, q2⟩ := h1
      rw [q2] at hok
      cases hok
      have := (allFail_none hwf none).2 (.inl ⟨hacc, hf, out, q1⟩)
      simp only [hne, or_false] at this
      exact ⟨hacc, this.1, q1⟩
  · rw [h2] at hok; cases hok

/-- There is a reading. -/
theorem ok_reads {cx : Cx V} {d : ArgsDef V} (wf : WFArgs cx d) {argv0 : Bytes} {toks : Toks}
    {out : Out V} (hok : tryParseFrom d (argv0 :: toks) = .ok out) : ∃ evs κ, Reads cx (start argv0 d) toks evs κ := by
  rcases accepts_or_rejects wf argv0 toks with ⟨o, evs, κ, h, _⟩ | ⟨x, hx⟩
  · exact ⟨evs, κ, h⟩
  · rw [rejects_sound wf hx] at hok; cases hok

/-- Every field of every entered command holds what its occurrences are worth. -/
theorem ok_field {cx : Cx V} {d : ArgsDef V} (wf : WFArgs cx d) {argv0 : Bytes} {toks : Toks}
    {evs : List Event} {κ : Ctx V} {out : Out V} (h : Reads cx (start argv0 d) toks evs κ)
    (hok : tryParseFrom d (argv0 :: toks) = .ok out) {a : Addr} {f : FieldInfo V} (hf : fieldAt κ.stack a = some f) :
    ∃ v, fieldOut f (occs evs a) = some v ∧ outAt κ.stack out a = some (f.ident, .field v) := by
  obtain ⟨_, _, ho⟩ := ok_reading wf h hok
  obtain ⟨pre, i, d', outer, c, hst, hl, hc, hf'⟩ := fieldAt_split hf
  have hpath := steps_path (reads_steps h) (start_path argv0 d)
  obtain ⟨o, sub', q1, q2, _⟩ := outAll_at hpath ho (by rw [hst]; simp) pre i d' outer hst
  obtain ⟨fs, r1, r2, r3⟩ := outArgs_at d' q1 a.struct c hc
  obtain ⟨v, t1, t2⟩ := r3 a.field f hf'
  refine ⟨v, ?_, ?_⟩
  · rw [Nat.zero_add, ← hl] at t1
    exact t1
  · rw [hst, outAt_split hl]
    simp only [outAt]
    rw [if_pos hl, q2]
    simp only [r1, t2]

/-- The entered commands are the selected variants. -/
theorem ok_path {cx : Cx V} {d : ArgsDef V} (wf : WFArgs cx d) {argv0 : Bytes} {toks : Toks}
    {evs : List Event} {κ : Ctx V} {out : Out V} (h : Reads cx (start argv0 d) toks evs κ)
    (hok : tryParseFrom d (argv0 :: toks) = .ok out) {pre : List (Entry V)} {j : CmdId} {e : ArgsDef V} {x : Entry V}
    {outer : List (Entry V)} (hst : κ.stack = pre ++ (j, e) :: x :: outer) :
    ∃ o o', commandAt (x :: outer) out = some o ∧ subAt o = some (j.ident, o')
      ∧ commandAt ((j, e) :: x :: outer) out = some o' := by
  obtain ⟨_, _, ho⟩ := ok_reading wf h hok
  have hpath := steps_path (reads_steps h) (start_path argv0 d)
  obtain ⟨i, d1⟩ := x
  obtain ⟨o, sub', q1, q2, _, q3⟩ := outAll_at hpath ho (by rw [hst]; simp) (pre ++ [(j, e)]) i d1 outer (by simp [hst])
  obtain ⟨o', r1, r2, r3⟩ := q3 pre j e rfl
  exact ⟨o, o', q2, r3, r2⟩

end Palc
