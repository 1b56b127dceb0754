import Verif.Lemmas.Extra
import Verif.Lemmas.Local
import Verif.Lemmas.Split
/-! Occurrences of one argument that are worth the same. -/

namespace Palc

open Spec

variable {V : Type} {cx : Cx V}

/-- Occurrences that agree except for one argument `a` with field `f`, for which they are worth the same. -/
structure Worth (f : FieldInfo V) (a : Addr) (evs evs' : List Event) : Prop where
  other : ∀ b, b ≠ a → occs evs b = occs evs' b
  absent : occs evs a = [] ↔ occs evs' a = []
  worth : given f (occs evs a) = given f (occs evs' a)

section
variable {f : FieldInfo V} {a : Addr} {evs evs' : List Event}

theorem Worth.symm (h : Worth f a evs evs') : Worth f a evs' evs where
  other b hb := (h.other b hb).symm
  absent := h.absent.symm
  worth := h.worth.symm

theorem Worth.occs_nil (h : Worth f a evs evs') (b : Addr) : occs evs b = [] ↔ occs evs' b = [] := by
  by_cases hb : b = a
  · rw [hb]; exact h.absent
  · rw [h.other b hb]

theorem Worth.fieldOut (h : Worth f a evs evs') : fieldOut f (occs evs a) = fieldOut f (occs evs' a) := by
  have h1 := h.absent
  have h2 := h.worth
  cases ho : occs evs a with
  | nil => rw [h1.1 ho]
  | cons x xs =>
    cases ho' : occs evs' a with
    | nil => rw [h1.2 ho'] at ho; cases ho
    | cons y ys =>
      rw [ho, ho'] at h2
      simp only [Spec.fieldOut, h2]

theorem Worth.acceptable {st : List (Entry V)} (h : Worth f a evs evs') (hf : ∀ g, fieldAt st a = some g → g = f)
    (hx : Acceptable st evs) : Acceptable st evs' := by
  intro b g hg
  by_cases hb : b = a
  · subst hb
    rw [hf g hg, ← h.worth, ← hf g hg]
    exact hx b g hg
  · rw [← h.other b hb]
    exact hx b g hg

theorem Worth.outFields (h : Worth f a evs evs') (l s k : Nat) (fs : List (FieldInfo V))
    (hf : l = a.level → s = a.struct → ∀ j, k + j = a.field → ∀ g, fs[j]? = some g → g = f) :
    outFields (fun i => occs evs ⟨l, s, i⟩) k fs = outFields (fun i => occs evs' ⟨l, s, i⟩) k fs := by
  induction fs generalizing k with
  | nil => rfl
  | cons g fs ih =>
    rw [Spec.outFields, Spec.outFields, ih (k + 1)]
    · have : Spec.fieldOut g (occs evs ⟨l, s, k⟩) = Spec.fieldOut g (occs evs' ⟨l, s, k⟩) := by
        by_cases hx : (⟨l, s, k⟩ : Addr) = a
        · have h1 : l = a.level := by rw [← hx]
          have h2 : s = a.struct := by rw [← hx]
          have h3 : k = a.field := by rw [← hx]
          have hg : g = f := hf h1 h2 0 (by omega) g rfl
          rw [hg, hx, h.fieldOut]
        · rw [h.other _ hx]
      rw [this]
    · intro h1 h2 j hj g' hg'
      exact hf h1 h2 (j + 1) (by omega) g' hg'

mutual
theorem Worth.outArgs (h : Worth f a evs evs') (l : Nat) : (d : ArgsDef V) → (s : Nat) →
    (sub : Option (Out V)) → (hf : l = a.level → ∀ j c, (structs d)[j]? = some c → s + j = a.struct → ∀ g, c.fields[a.field]? = some g → g = f) →
    outArgs (fun s i => occs evs ⟨l, s, i⟩) s sub d = outArgs (fun s i => occs evs' ⟨l, s, i⟩) s sub d
  | .mk core flats sf, s, sub, hf => by
    rw [Spec.outArgs, Spec.outArgs, h.outFields l s 0 core.fields (fun h1 h2 j hj g hg => ?_),
      Worth.outFlats h l flats (s + 1) (fun h1 j c hj hs => ?_)]
    · exact hf h1 (j + 1) c (by simpa [structs] using hj) (by omega)
    · refine hf h1 0 core (by simp [structs]) (by omega) g ?_
      rw [← hj, Nat.zero_add]
      exact hg
theorem Worth.outFlats (h : Worth f a evs evs') (l : Nat) : (fl : Flats V) → (s : Nat) →
    (hf : l = a.level → ∀ j c, (flatStructs fl)[j]? = some c → s + j = a.struct → ∀ g, c.fields[a.field]? = some g → g = f) →
    outFlats (fun s i => occs evs ⟨l, s, i⟩) s fl = outFlats (fun s i => occs evs' ⟨l, s, i⟩) s fl
  | .nil, _, _ => rfl
  | .cons i d rest, s, hf => by
    rw [Spec.outFlats, Spec.outFlats, Worth.outArgs h l d s none (fun h1 j c hj hs => ?_),
      Worth.outFlats h l rest (s + (structs d).length) (fun h1 j c hj hs => ?_)]
    · refine hf h1 ((structs d).length + j) c ?_ (by omega)
      simp only [flatStructs]
      rw [List.getElem?_append_right (by omega), Nat.add_sub_cancel_left]
      exact hj
    · refine hf h1 j c ?_ hs
      simp only [flatStructs]
      have : j < (structs d).length := (List.getElem?_eq_some_iff.1 hj).1
      rw [List.getElem?_append_left this]
      exact hj
end

theorem Worth.outAll (h : Worth f a evs evs') (st : List (Entry V)) (sub : Option (Out V))
    (hf : ∀ g, fieldAt st a = some g → g = f) : outAll evs st sub = outAll evs' st sub := by
  have key : ∀ (st : List (Entry V)) (sub : Option (Out V)),
      (∀ pre i d outer, st = pre ++ (i, d) :: outer → a.level = outer.length → ∀ c, (structs d)[a.struct]? = some c →
        ∀ g, c.fields[a.field]? = some g → g = f) → Spec.outAll evs st sub = Spec.outAll evs' st sub := by
    intro st
    induction st with
    | nil => intro _ _; rfl
    | cons x st ih =>
      intro sub hk
      obtain ⟨i, d⟩ := x
      rw [Spec.outAll, Spec.outAll, h.outArgs st.length d 0 sub (fun h1 j c hj hs g hg => ?_)]
      · split
        · split
          · rfl
          · exact ih _ (fun pre i' d' outer hst => hk ((i, d) :: pre) i' d' outer (by rw [hst]; rfl))
        · rfl
      · refine hk [] i d st rfl h1.symm c ?_ g hg
        rw [← hs, Nat.zero_add]
        exact hj
  refine key st sub ?_
  intro pre i d outer hst hl c hc g hg
  refine hf g ?_
  rw [hst, fieldAt_ext (by simp [hl])]
  simp [fieldAt, hl, hc, hg]

end

/-! ## One value for several -/

/-- The value `J` of the field `f` has the pieces `ps`. -/
structure Joined (f : FieldInfo V) (J : Bytes) (ps : List Bytes) : Prop where
  multi : isMulti f = true
  ne : ps ≠ []
  pieces : pieces f (normalise f J) = ps.map (normalise f)
  single : ∀ p ∈ ps, Spec.pieces f (normalise f p) = [normalise f p]

/-- One occurrence per piece. -/
def apart (a : Addr) (ps : List Bytes) : List Event := ps.map (fun p => (a, some p))

theorem occs_apart (a b : Addr) (ps : List Bytes) : occs (apart a ps) b = if b = a then ps.map some else [] := by
  induction ps with
  | nil => simp [apart, occs]
  | cons p ps ih =>
    rw [show apart a (p :: ps) = (a, some p) :: apart a ps from rfl, occs_cons, ih]
    by_cases hb : b = a <;> simp [hb]

section
variable {f : FieldInfo V} {a : Addr} {J : Bytes} {ps : List Bytes}

theorem allValues_app (xs ys : List (Option Bytes)) :
    allValues (xs ++ ys) = (allValues xs).bind (fun bs => (allValues ys).map (bs ++ ·)) := by
  induction xs with
  | nil => cases h : allValues ys <;> simp [allValues, h]
  | cons x xs ih =>
    cases x with
    | none => simp [allValues]
    | some b =>
      simp only [List.cons_append, allValues, ih]
      cases allValues xs <;> cases allValues ys <;> simp

theorem allValues_somes (bs : List Bytes) : allValues (bs.map some) = some bs := by
  induction bs with
  | nil => rfl
  | cons b bs ih => simp [allValues, ih]

theorem Joined.given (h : Joined f J ps) (xs ys : List (Option Bytes)) :
    given f (xs ++ some J :: ys) = given f (xs ++ (ps.map some ++ ys)) := by
  have hflat : (ps.map (normalise f)).flatMap (Spec.pieces f) = ps.map (normalise f) := by
    have : ∀ qs : List Bytes, (∀ q ∈ qs, q ∈ ps) → (qs.map (normalise f)).flatMap (Spec.pieces f) = qs.map (normalise f) := by
      intro qs
      induction qs with
      | nil => intro _; rfl
      | cons q qs ih =>
        intro hq
        rw [List.map_cons, List.flatMap_cons, h.single q (hq q List.mem_cons_self), ih (fun x hx => hq x (List.mem_cons_of_mem _ hx))]
        rfl
    exact this ps (fun _ hq => hq)
  unfold Spec.given
  have e1 : (xs ++ some J :: ys).map (Option.map (normalise f))
      = xs.map (Option.map (normalise f)) ++ ([normalise f J].map some ++ ys.map (Option.map (normalise f))) := by simp
  have e2 : (xs ++ (ps.map some ++ ys)).map (Option.map (normalise f))
      = xs.map (Option.map (normalise f)) ++ ((ps.map (normalise f)).map some ++ ys.map (Option.map (normalise f))) := by
    simp
  rw [e1, e2, content_multi h.multi _ (by simp), content_multi h.multi _ (by simp [h.ne])]
  simp only [allValues_app, allValues_somes]
  cases allValues (xs.map (Option.map (normalise f))) with
  | none => simp
  | some bs =>
    cases allValues (ys.map (Option.map (normalise f))) with
    | none => simp
    | some cs =>
      simp only [Option.map_some, Option.bind_some, List.flatMap_append, hflat, List.flatMap_cons, List.flatMap_nil,
        List.append_nil, h.pieces]

theorem Joined.worth (h : Joined f J ps) (evs more : List Event) :
    Worth f a (evs ++ (a, some J) :: more) (evs ++ (apart a ps ++ more)) where
  other b hb := by simp [occs_append, occs_cons, occs_apart, hb]
  absent := by simp [occs_append, occs_cons, occs_apart, h.ne]
  worth := by
    simp only [occs_append, occs_cons, occs_apart, if_true]
    exact h.given _ _

/-- The first unacceptable value stays the same. -/
theorem Joined.firstBad (h : Joined f J ps) {st : List (Entry V)} (hf : fieldAt st a = some f) {evs more : List Event} {e : Error}
    (hb : FirstBad st [] (evs ++ (a, some J) :: more) e) : FirstBad st [] (evs ++ (apart a ps ++ more)) e := by
  have hfu : ∀ g, fieldAt st a = some g → g = f := fun g hg => by rw [hf] at hg; cases hg; rfl
  have mid : ∀ e0, Acceptable st evs → BadValue f (occs evs a) ((some J).map (normalise f)) e0 →
      FirstBad st [] (evs ++ (apart a ps ++ more)) (about f e0) := by
    intro e0 h3 h4
    cases h4 with
    | flagValue hk => have := h.multi; simp [isMulti, hk] at this
    | duplicate hm => rw [h.multi] at hm; cases hm
    | invalid hm => rw [h.multi] at hm; cases hm
    | @piece _ xs x ys _ hmul hp hxs hv =>
      rw [h.pieces] at hp
      obtain ⟨p1, p2, hps, rfl, hp2⟩ := List.map_eq_append_iff.1 hp
      obtain ⟨p, p3, rfl, rfl, rfl⟩ := List.map_eq_cons_iff.1 hp2
      refine ⟨evs ++ apart a p1, a, some p, apart a p3 ++ more, f, e0, ?_, hf, ?_, ?_, rfl⟩
      · rw [hps]; simp [apart]
      · intro b k hbk
        rw [List.nil_append, occs_append, occs_apart]
        by_cases hba : b = a
        · rw [hba] at hbk ⊢
          rw [hfu k hbk]
          rw [if_pos rfl, given_multi_ne hmul]
          intro o ho
          rcases List.mem_append.1 ho with ho | ho
          · exact (given_multi_ne hmul _).1 (h3 a f hf) o ho
          · obtain ⟨q, hq, rfl⟩ := List.mem_map.1 ho
            have hq1 := h.single q (by rw [hps]; exact List.mem_append_left _ hq)
            have hq2 := hxs (normalise f q) (List.mem_map.2 ⟨q, hq, rfl⟩)
            unfold Spec.given
            rw [content_multi hmul _ (by simp)]
            simp only [List.map_cons, List.map_nil, Option.map_some, allValues, List.flatMap_cons, List.flatMap_nil, hq1,
              List.append_nil, parsedAll]
            cases hpq : parsed f (normalise f q) with
            | none => exact absurd hpq hq2
            | some v => simp
        · rw [if_neg hba, List.append_nil]
          exact h3 b k hbk
      · refine .piece hmul (xs := []) (ys := []) ?_ (by simp) hv
        exact h.single p (by rw [hps]; simp)
  obtain ⟨pre, b, o, post, g, e0, h1, h2, h3, h4, rfl⟩ := hb
  rw [List.nil_append] at h3 h4
  rw [List.append_eq_append_iff] at h1
  rcases h1 with ⟨m, rfl, hm⟩ | ⟨m, rfl, hm⟩
  · cases m with
    | nil =>
      rw [List.nil_append] at hm
      injection hm with hm1 hm2
      cases hm1
      cases hfu g h2
      rw [List.append_nil] at h3 h4
      exact mid e0 h3 h4
    | cons y m =>
      rw [List.cons_append] at hm
      injection hm with hm1 hm2
      subst hm1 hm2
      have w := h.worth (a := a) evs m
      refine ⟨evs ++ (apart a ps ++ m), b, o, post, g, e0, by simp, h2, ?_, ?_, rfl⟩
      · rw [List.nil_append]
        exact w.acceptable hfu h3
      · rw [List.nil_append]
        exact h4.congr (w.occs_nil b)
  · cases m with
    | nil =>
      rw [List.nil_append] at hm
      injection hm with hm1 hm2
      cases hm1
      cases hfu g h2
      rw [List.append_nil]
      rw [List.append_nil] at mid
      exact mid e0 h3 h4
    | cons y m =>
      rw [List.cons_append] at hm
      injection hm with hm1 hm2
      subst hm1
      exact ⟨pre, b, o, m ++ (apart a ps ++ more), g, e0, by simp, h2, by simpa using h3, by simpa using h4, rfl⟩

end

/-- Splitting at a delimiter that is not affected by `ignore_case`. -/
theorem Joined.of {f : FieldInfo V} {ps : List Bytes} {c : Char} (hm : isMulti f = true) (hc : f.valueDelimiter = some c)
    (hl : f.src.ignoreCase = true → ¬ (65 ≤ c.toNat ∧ c.toNat ≤ 90) ∧ ¬ (97 ≤ c.toNat ∧ c.toNat ≤ 122)) (hne : ps ≠ [])
    (hp : ∀ p ∈ ps, ¬ encChar c <:+: p) : Joined f (List.intercalate (encChar c) ps) ps := by
  have split : ∀ qs : List Bytes, qs ≠ [] → (∀ q ∈ qs, ¬ encChar c <:+: q) →
      Spec.pieces f (normalise f (List.intercalate (encChar c) qs)) = qs.map (normalise f) := by
    intro qs hq1 hq2
    have h0 : splitOn c (List.intercalate (encChar c) qs) = qs :=
      pieces_unique c _ _ (splitOn_ne_nil c _) hq1 (splitOn_free c _) hq2 (splitOn_join c _)
    simp only [Spec.pieces, hc]
    cases hi : f.src.ignoreCase with
    | false =>
      have hn : normalise f = id := by funext b; simp [normalise, hi]
      rw [hn, id, h0, List.map_id]
    | true =>
      have hn : normalise f = asciiLower := by funext b; simp [normalise, hi]
      rw [hn, splitOn_lower (hl hi), h0]
  refine ⟨hm, hne, split ps hne hp, ?_⟩
  intro p hpp
  have := split [p] (by simp) (by intro q hq; rw [List.mem_singleton.1 hq]; exact hp p hpp)
  simpa [List.intercalate] using this

/-! ## Outcomes -/

/-- One occurrence in the place of several makes no difference at all. -/
theorem outcome_joined {d : ArgsDef V} (wf : WFArgs cx d) {argv0 : Bytes} {T T' rest : Toks} {evs : List Event} {κ : Ctx V}
    {f : FieldInfo V} {a : Addr} {J : Bytes} {ps : List Bytes} (hj : Joined f J ps) (hf : fieldAt κ.stack a = some f)
    (h : Steps cx (start argv0 d) T (evs ++ [(a, some J)]) κ rest)
    (h' : Steps cx (start argv0 d) T' (evs ++ apart a ps) κ rest) :
    tryParseFrom d (argv0 :: T) = tryParseFrom d (argv0 :: T') := by
  have lift : ∀ {κ' : Ctx V} {rest' : Toks} {more : List Event}, Steps cx κ rest more κ' rest' → fieldAt κ'.stack a = some f := by
    intro κ' rest' more hm
    obtain ⟨ext, he⟩ := steps_stack hm
    rw [he]
    exact fieldAt_ext_some hf
  have uniq : ∀ {κ' : Ctx V}, fieldAt κ'.stack a = some f → ∀ g, fieldAt κ'.stack a = some g → g = f := by
    intro κ' hf g hg
    rw [hf] at hg
    cases hg
    rfl
  have e1 : ∀ more : List Event, evs ++ [(a, some J)] ++ more = evs ++ (a, some J) :: more := by simp
  have e2 : ∀ more : List Event, evs ++ apart a ps ++ more = evs ++ (apart a ps ++ more) := by simp
  have hw : ∀ more : List Event, Worth f a (evs ++ [(a, some J)] ++ more) (evs ++ apart a ps ++ more) := by
    intro more
    rw [e1, e2]
    exact hj.worth evs more
  have hb : ∀ {κ' : Ctx V} (more : List Event) {e : Error}, fieldAt κ'.stack a = some f →
      FirstBad κ'.stack [] (evs ++ [(a, some J)] ++ more) e → FirstBad κ'.stack [] (evs ++ apart a ps ++ more) e := by
    intro κ' more e hf hx
    rw [e1] at hx
    rw [e2]
    exact hj.firstBad hf hx
  rcases steps_sound h (root_sim wf argv0) with ⟨ls, S, _⟩ | ⟨e, _, h2⟩
  · rw [List.nil_append] at S
    rcases run_cases S rest with ⟨more, κ', hr⟩ | ⟨more, κ', e, hh⟩ | ⟨more, κ', r, e, hst, _, hbad⟩
    · have hf' := lift (reads_steps hr)
      have w := hw more
      rcases outcome_reads wf (steps_reads h hr) with ⟨_, ha, _, h2⟩ | ⟨e1, h1, h2⟩
      · rcases outcome_reads wf (steps_reads h' hr) with ⟨_, _, _, h2'⟩ | ⟨e1, h1, _⟩
        · rw [← allFail_present w.occs_nil, ← w.outAll κ'.stack none (uniq hf')] at h2'
          cases hfail : allFail (evs ++ [(a, some J)] ++ more) κ'.stack false with
          | some x =>
            rw [hfail] at h2 h2'
            exact h2.trans h2'.symm
          | none =>
            rw [hfail] at h2 h2'
            obtain ⟨o, q1, q2⟩ := h2
            obtain ⟨o', q1', q2'⟩ := h2'
            rw [q1] at q1'
            cases q1'
            exact q2.trans q2'.symm
        · exact absurd (w.acceptable (uniq hf') ha) h1.not_acceptable
      · have h3 := hb more hf' h1
        rcases outcome_reads wf (steps_reads h' hr) with ⟨_, ha', _, _⟩ | ⟨e2, h1', h2'⟩
        · exact absurd ha' h3.not_acceptable
        · rw [h3.unique h1'] at h2
          exact h2.trans h2'.symm
    · obtain ⟨x1, x2, r, hst, hstk, rfl⟩ := hh
      have hf' := lift hst
      have hh1 : Halts cx (start argv0 d) T (evs ++ [(a, some J)] ++ (x1 ++ x2)) κ' e :=
        ⟨_, _, _, steps_trans h hst, hstk, by simp⟩
      have hh2 : Halts cx (start argv0 d) T' (evs ++ apart a ps ++ (x1 ++ x2)) κ' e :=
        ⟨_, _, _, steps_trans h' hst, hstk, by simp⟩
      have w := hw (x1 ++ x2)
      rcases outcome_halts wf hh1 with ⟨ha, h1⟩ | ⟨x, hb1, h1⟩ <;> rcases outcome_halts wf hh2 with ⟨ha', h1'⟩ | ⟨x', hb', h1'⟩
      · exact h1.trans h1'.symm
      · exact absurd (w.acceptable (uniq hf') ha) hb'.not_acceptable
      · exact absurd (w.symm.acceptable (uniq hf') ha') hb1.not_acceptable
      · rw [(hb _ hf' hb1).unique hb'] at h1
        exact h1.trans h1'.symm
    · have hb1 : FirstBad κ'.stack [] (evs ++ [(a, some J)] ++ more) e := FirstBad.shift hbad
      have hb2 := hb more (lift hst) hb1
      exact (outcome_steps wf (steps_trans h hst) hb1).trans (outcome_steps wf (steps_trans h' hst) hb2).symm
  · have h3 := hb [] hf (by rw [List.append_nil]; exact h2)
    rw [List.append_nil] at h3
    exact (outcome_steps wf h h2).trans (outcome_steps wf h' h3).symm

end Palc
