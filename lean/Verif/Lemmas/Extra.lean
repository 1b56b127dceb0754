import Verif.Lemmas.Commute
import Verif.Lemmas.Parsed
/-! One more occurrence of an argument that does not make a difference. -/

namespace Palc

open Spec

variable {V : Type} {cx : Cx V}

/-- Occurrences that agree except for one argument `a` with field `f`, which has none in the first and the single one `o` in
the second, worth the same as none. -/
structure Extra (f : FieldInfo V) (a : Addr) (o : Option Bytes) (evs evs' : List Event) : Prop where
  other : ∀ b, b ≠ a → occs evs b = occs evs' b
  absent : occs evs a = []
  once : occs evs' a = [o]

/-- The argument takes no part in constraints, and its default is valid. -/
structure Harmless (c : Core V) (f : FieldInfo V) (i : Nat) : Prop where
  field : c.fields[i]? = some f
  exclusive : ∀ g ∈ c.fields, g.src.exclusive = false
  requires : f.src.requires = []
  conflicts : f.src.conflictsWith = []
  required : ∀ g ∈ c.fields, f.ident ∉ g.src.requires
  conflicting : ∀ g ∈ c.fields, f.ident ∉ g.src.conflictsWith
  unset : unsetFail f = none

theorem findSome_congr {α β : Type} {l : List α} {p q : α → Option β} (h : ∀ x ∈ l, p x = q x) : l.findSome? p = l.findSome? q := by
  induction l with
  | nil => rfl
  | cons x l ih =>
    simp only [List.findSome?_cons, h x List.mem_cons_self]
    rw [ih (fun y hy => h y (List.mem_cons_of_mem _ hy))]

theorem find_pred_congr {α : Type} {l : List α} {p q : α → Bool} (h : ∀ x ∈ l, p x = q x) : l.find? p = l.find? q := by
  induction l with
  | nil => rfl
  | cons x l ih =>
    simp only [List.find?_cons, h x List.mem_cons_self]
    rw [ih (fun y hy => h y (List.mem_cons_of_mem _ hy))]

theorem any_pred_congr {α : Type} {l : List α} {p q : α → Bool} (h : ∀ x ∈ l, p x = q x) : l.any p = l.any q := by
  induction l with
  | nil => rfl
  | cons x l ih =>
    simp only [List.any_cons, h x List.mem_cons_self]
    rw [ih (fun y hy => h y (List.mem_cons_of_mem _ hy))]

theorem zipIdx_get {α : Type} {l : List α} {x : α × Nat} (h : x ∈ l.zipIdx) : l[x.2]? = some x.1 ∧ x.1 ∈ l := by
  have := List.mem_zipIdx' (x := x.1) (i := x.2) h
  rw [this.2]
  exact ⟨List.getElem?_eq_getElem this.1, List.getElem_mem this.1⟩

theorem structFail_harmless {c : Core V} {f : FieldInfo V} {i : Nat} (h : Harmless c f i) {g g' : Nat → Bool}
    (hg : ∀ j, j ≠ i → g j = g' j) (sub need : Bool) : structFail c g sub need = structFail c g' sub need := by
  have hset : ∀ x ∈ c.fields.zipIdx, (if g x.2 then setError c g sub x.2 x.1 else none)
      = (if g' x.2 then setError c g' sub x.2 x.1 else none) := by
    intro x hx
    obtain ⟨hx1, hx2⟩ := zipIdx_get hx
    have hself : x.2 = i → x.1 = f := by
      intro he
      rw [he, h.field] at hx1
      cases hx1
      rfl
    have hnone : x.2 = i → ∀ g : Nat → Bool, setError c g sub x.2 x.1 = none := by
      intro he g
      rw [hself he]
      unfold setError
      rw [h.exclusive f (hself he ▸ hx2), h.requires, h.conflicts]
      simp
    by_cases he : x.2 = i
    · rw [hnone he, hnone he]
      simp
    · rw [hg _ he]
      have : setError c g sub x.2 x.1 = setError c g' sub x.2 x.1 := by
        unfold setError
        rw [h.exclusive x.1 hx2]
        have e1 : x.1.src.requires.findSome? (fun z => c.fields.zipIdx.find? (fun y => decide (y.1.ident = z) && !g y.2))
            = x.1.src.requires.findSome? (fun z => c.fields.zipIdx.find? (fun y => decide (y.1.ident = z) && !g' y.2)) := by
          apply findSome_congr
          intro z hz
          apply find_pred_congr
          intro y hy
          by_cases hyi : y.2 = i
          · have : y.1.ident ≠ z := by
              intro hc
              rw [← hc] at hz
              have hyf : y.1 = f := by
                have := (zipIdx_get hy).1
                rw [hyi, h.field] at this
                cases this
                rfl
              rw [hyf] at hz
              exact h.required x.1 hx2 hz
            simp [this]
          · rw [hg _ hyi]
        have e2 : x.1.src.conflictsWith.any (fun z => c.fields.zipIdx.any (fun y => decide (y.1.ident = z) && g y.2))
            = x.1.src.conflictsWith.any (fun z => c.fields.zipIdx.any (fun y => decide (y.1.ident = z) && g' y.2)) := by
          apply any_pred_congr
          intro z hz
          apply any_pred_congr
          intro y hy
          by_cases hyi : y.2 = i
          · have : y.1.ident ≠ z := by
              intro hc
              rw [← hc] at hz
              have hyf : y.1 = f := by
                have := (zipIdx_get hy).1
                rw [hyi, h.field] at this
                cases this
                rfl
              rw [hyf] at hz
              exact h.conflicting x.1 hx2 hz
            simp [this]
          · rw [hg _ hyi]
        rw [e1, e2]
        simp
      rw [this]
  have hunset : ∀ x ∈ c.fields.zipIdx, (if g x.2 then none else unsetFail x.1) = (if g' x.2 then none else unsetFail x.1) := by
    intro x hx
    by_cases he : x.2 = i
    · have : x.1 = f := by
        have := (zipIdx_get hx).1
        rw [he, h.field] at this
        cases this
        rfl
      rw [this, h.unset]
      simp
    · rw [hg _ he]
  unfold structFail
  rw [findSome_congr hset, findSome_congr hunset]

mutual
theorem argsFail_congr : (d : ArgsDef V) → {g g' : Nat → Nat → Bool} → {s : Nat} → {sub : Bool} →
    (∀ j c, (structs d)[j]? = some c → ∀ sub need, structFail c (g (s + j)) sub need = structFail c (g' (s + j)) sub need) →
    argsFail g s sub d = argsFail g' s sub d
  | .mk core flats sf, g, g', s, sub, h => by
    have h0 := h 0 core (by simp [structs])
    rw [argsFail, argsFail, flatsFail_congr flats (fun j c hj => ?_), show s = s + 0 from rfl, h0]
    have := h (j + 1) c (by simpa [structs] using hj)
    rwa [show s + (j + 1) = s + 1 + j by omega] at this
theorem flatsFail_congr : (fl : Flats V) → {g g' : Nat → Nat → Bool} → {s : Nat} →
    (∀ j c, (flatStructs fl)[j]? = some c → ∀ sub need, structFail c (g (s + j)) sub need = structFail c (g' (s + j)) sub need) →
    flatsFail g s fl = flatsFail g' s fl
  | .nil, _, _, _, _ => rfl
  | .cons i d rest, g, g', s, h => by
    rw [flatsFail, flatsFail, argsFail_congr d (fun j c hj => ?_), flatsFail_congr rest (fun j c hj => ?_)]
    · have := h ((structs d).length + j) c (by
        simp only [flatStructs]
        rw [List.getElem?_append_right (by omega), Nat.add_sub_cancel_left]
        exact hj)
      rwa [show s + ((structs d).length + j) = s + (structs d).length + j by omega] at this
    · refine h j c ?_
      simp only [flatStructs]
      have : j < (structs d).length := (List.getElem?_eq_some_iff.1 hj).1
      rw [List.getElem?_append_left this]
      exact hj
end

section
variable {f : FieldInfo V} {a : Addr} {o : Option Bytes} {evs evs' : List Event}

theorem Extra.append (h : Extra f a o evs evs') {r : List Event} (hr : occs r a = []) : Extra f a o (evs ++ r) (evs' ++ r) where
  other b hb := by rw [occs_append, occs_append, h.other b hb]
  absent := by rw [occs_append, h.absent, hr]; rfl
  once := by rw [occs_append, h.once, hr]; rfl

theorem Extra.isEmpty (h : Extra f a o evs evs') {b : Addr} (hb : b ≠ a) :
    (!(occs evs b).isEmpty) = !(occs evs' b).isEmpty := by rw [h.other b hb]

theorem Extra.allFail (h : Extra f a o evs evs') (st : List (Entry V)) (sub : Bool)
    (hc : ∀ pre i d outer c, st = pre ++ (i, d) :: outer → a.level = outer.length → (structs d)[a.struct]? = some c →
      Harmless c f a.field) :
    allFail evs st sub = allFail evs' st sub := by
  induction st generalizing sub with
  | nil => rfl
  | cons x st ih =>
    obtain ⟨i, d⟩ := x
    rw [Spec.allFail, Spec.allFail, ih true (fun pre i' d' outer c hst => hc ((i, d) :: pre) i' d' outer c (by rw [hst]; rfl))]
    congr 1
    apply argsFail_congr
    intro j c hj sub need
    by_cases hl : a.level = st.length ∧ a.struct = j
    · obtain ⟨hl, rfl⟩ := hl
      refine structFail_harmless (hc [] i d st c rfl hl hj) ?_ sub need
      intro n hn
      refine h.isEmpty ?_
      intro hx
      rw [← hx] at hn
      simp at hn
    · congr 1
      funext n
      refine h.isEmpty ?_
      intro hx
      rw [← hx] at hl
      simp at hl

theorem Extra.outFields (h : Extra f a o evs evs') (hv : fieldOut f [o] = fieldOut f []) (l s k : Nat) (fs : List (FieldInfo V))
    (hf : l = a.level → s = a.struct → ∀ j, k + j = a.field → ∀ g, fs[j]? = some g → g = f) :
    outFields (fun i => occs evs ⟨l, s, i⟩) k fs = outFields (fun i => occs evs' ⟨l, s, i⟩) k fs := by
  induction fs generalizing k with
  | nil => rfl
  | cons g fs ih =>
    rw [Spec.outFields, Spec.outFields, ih (k + 1)]
    · have : fieldOut g (occs evs ⟨l, s, k⟩) = fieldOut g (occs evs' ⟨l, s, k⟩) := by
        by_cases hx : (⟨l, s, k⟩ : Addr) = a
        · have h1 : l = a.level := by rw [← hx]
          have h2 : s = a.struct := by rw [← hx]
          have h3 : k = a.field := by rw [← hx]
          have hg : g = f := hf h1 h2 0 (by omega) g rfl
          rw [hg, hx, h.absent, h.once, hv]
        · rw [h.other _ hx]
      rw [this]
    · intro h1 h2 j hj g' hg'
      exact hf h1 h2 (j + 1) (by omega) g' hg'

mutual
theorem Extra.outArgs (h : Extra f a o evs evs') (hv : fieldOut f [o] = fieldOut f []) (l : Nat) : (d : ArgsDef V) → (s : Nat) →
    (sub : Option (Out V)) → (hf : l = a.level → ∀ j c, (structs d)[j]? = some c → s + j = a.struct → ∀ g, c.fields[a.field]? = some g → g = f) →
    outArgs (fun s i => occs evs ⟨l, s, i⟩) s sub d = outArgs (fun s i => occs evs' ⟨l, s, i⟩) s sub d
  | .mk core flats sf, s, sub, hf => by
    rw [Spec.outArgs, Spec.outArgs, h.outFields hv l s 0 core.fields (fun h1 h2 j hj g hg => ?_),
      Extra.outFlats h hv l flats (s + 1) (fun h1 j c hj hs => ?_)]
    · exact hf h1 (j + 1) c (by simpa [structs] using hj) (by omega)
    · refine hf h1 0 core (by simp [structs]) (by omega) g ?_
      rw [← hj, Nat.zero_add]
      exact hg
theorem Extra.outFlats (h : Extra f a o evs evs') (hv : fieldOut f [o] = fieldOut f []) (l : Nat) : (fl : Flats V) → (s : Nat) →
    (hf : l = a.level → ∀ j c, (flatStructs fl)[j]? = some c → s + j = a.struct → ∀ g, c.fields[a.field]? = some g → g = f) →
    outFlats (fun s i => occs evs ⟨l, s, i⟩) s fl = outFlats (fun s i => occs evs' ⟨l, s, i⟩) s fl
  | .nil, _, _ => rfl
  | .cons i d rest, s, hf => by
    rw [Spec.outFlats, Spec.outFlats, Extra.outArgs h hv l d s none (fun h1 j c hj hs => ?_),
      Extra.outFlats h hv l rest (s + (structs d).length) (fun h1 j c hj hs => ?_)]
    · refine hf h1 ((structs d).length + j) c ?_ (by omega)
      simp only [flatStructs]
      rw [List.getElem?_append_right (by omega), Nat.add_sub_cancel_left]
      exact hj
    · refine hf h1 j c ?_ hs
      simp only [flatStructs]
      have : j < (structs d).length := (List.getElem?_eq_some_iff.1 hj).1
      rw [List.getElem?_append_left this]
      exact hj
end

theorem Extra.outAll (h : Extra f a o evs evs') (hv : fieldOut f [o] = fieldOut f []) (st : List (Entry V)) (sub : Option (Out V))
    (hf : ∀ g, fieldAt st a = some g → g = f) : outAll evs st sub = outAll evs' st sub := by
  have key : ∀ (st : List (Entry V)) (sub : Option (Out V)),
      (∀ pre i d outer, st = pre ++ (i, d) :: outer → a.level = outer.length → ∀ c, (structs d)[a.struct]? = some c →
        ∀ g, c.fields[a.field]? = some g → g = f) → Spec.outAll evs st sub = Spec.outAll evs' st sub := by
    intro st
    induction st with
    | nil => intro _ _; rfl
    | cons x st ih =>
      intro sub hk
      obtain ⟨i, d⟩ := x
      rw [Spec.outAll, Spec.outAll, h.outArgs hv st.length d 0 sub (fun h1 j c hj hs g hg => ?_)]
      · split
        · split
          · rfl
          · exact ih _ (fun pre i' d' outer hst => hk ((i, d) :: pre) i' d' outer (by rw [hst]; rfl))
        · rfl
      · refine hk [] i d st rfl h1.symm c ?_ g hg
        rw [← hs, Nat.zero_add]
        exact hj
  refine key st sub ?_
  intro pre i d outer hst hl c hc g hg
  refine hf g ?_
  rw [hst, fieldAt_ext (by simp [hl])]
  simp [fieldAt, hl, hc, hg]

theorem Extra.acceptable (h : Extra f a o evs evs') (hv : given f [o] ≠ none) {st : List (Entry V)}
    (hf : ∀ g, fieldAt st a = some g → g = f) : Acceptable st evs ↔ Acceptable st evs' := by
  constructor
  · intro ha b g hb
    by_cases hx : b = a
    · subst hx
      rw [h.once, hf g hb]
      exact hv
    · rw [← h.other b hx]
      exact ha b g hb
  · intro ha b g hb
    by_cases hx : b = a
    · subst hx
      rw [h.absent]
      simp [given, content]
    · rw [h.other b hx]
      exact ha b g hb

end

/-- The first unacceptable value stays the same. -/
theorem firstBad_extra {f : FieldInfo V} {a : Addr} {o : Option Bytes} {evs more : List Event} (h0 : occs evs a = [])
    (hm : occs more a = []) (hv : given f [o] ≠ none) {st : List (Entry V)} (hf : ∀ g, fieldAt st a = some g → g = f) {e : Error}
    (h : FirstBad st [] (evs ++ more) e) : FirstBad st [] (evs ++ (a, o) :: more) e := by
  obtain ⟨pre, b, o', post, g, e0, h1, h2, h3, h4, h5⟩ := h
  rw [List.append_eq_append_iff] at h1
  have key : ∀ m1, pre = evs ++ m1 → more = m1 ++ (b, o') :: post → FirstBad st [] (evs ++ (a, o) :: more) e := by
    intro m1 hp hq
    have hm1 : occs m1 a = [] ∧ b ≠ a := by
      rw [hq, show (b, o') :: post = [(b, o')] ++ post from rfl, occs_append, occs_append] at hm
      simp only [List.append_eq_nil_iff] at hm
      refine ⟨hm.1, ?_⟩
      rintro rfl
      have := hm.2.1
      simp [occs] at this
    have hx : Extra f a o (evs ++ m1) (evs ++ (a, o) :: m1) := by
      refine ⟨fun b hb => ?_, ?_, ?_⟩
      · rw [show (a, o) :: m1 = [(a, o)] ++ m1 from rfl, occs_append, occs_append, occs_append]
        simp [occs, Ne.symm hb]
      · rw [occs_append, h0, hm1.1]; rfl
      · rw [show (a, o) :: m1 = [(a, o)] ++ m1 from rfl, occs_append, occs_append, h0, hm1.1]
        simp [occs]
    refine ⟨evs ++ (a, o) :: m1, b, o', post, g, e0, by rw [hq]; simp, h2, ?_, ?_, h5⟩
    · rw [List.nil_append, hp] at h3
      exact (hx.acceptable hv hf).1 h3
    · rw [List.nil_append, hp] at h4
      rw [List.nil_append, ← hx.other b hm1.2]
      exact h4
  rcases h1 with ⟨m1, hp, hq⟩ | ⟨m1, hp, hq⟩
  · exact key m1 hp hq
  · cases m1 with
    | nil => exact key [] (by rw [hp]; simp) (by simpa using hq.symm)
    | cons x m1 =>
      simp only [List.cons_append, List.cons.injEq] at hq
      obtain ⟨rfl, rfl⟩ := hq
      exact ⟨pre, b, o', m1 ++ (a, o) :: more, g, e0, by rw [hp]; simp, h2, h3, h4, h5⟩

/-- An occurrence that is worth as much as none does not change the outcome, if the argument is not given otherwise. -/
theorem outcome_extra {d : ArgsDef V} (wf : WFArgs cx d) {argv0 : Bytes} {T T' rest : Toks} {evs more : List Event} {κ : Ctx V}
    {f : FieldInfo V} {a : Addr} {o : Option Bytes}
    (h : Steps cx (start argv0 d) T evs κ rest) (h' : Steps cx (start argv0 d) T' (evs ++ [(a, o)]) κ rest)
    (hmore : (∃ κ', Reads cx κ rest more κ') ∨ ∃ κ' e, Halts cx κ rest more κ' e)
    (h0 : occs evs a = []) (hm : occs more a = []) (hfa : fieldAt κ.stack a = some f)
    (hv : fieldOut f [o] = fieldOut f []) (hg : given f [o] ≠ none)
    (hc : ∀ pre i d outer c, κ.stack = pre ++ (i, d) :: outer → a.level = outer.length → (structs d)[a.struct]? = some c →
      Harmless c f a.field) :
    tryParseFrom d (argv0 :: T) = tryParseFrom d (argv0 :: T') := by
  have hx : Extra f a o (evs ++ more) (evs ++ [(a, o)] ++ more) := by
    refine Extra.append ⟨fun b hb => ?_, h0, ?_⟩ hm
    · rw [occs_append]
      simp [occs, Ne.symm hb]
    · rw [occs_append, h0]
      simp [occs]
  have hbad : ∀ {st : List (Entry V)} {e : Error}, (∀ g, fieldAt st a = some g → g = f) → FirstBad st [] (evs ++ more) e →
      FirstBad st [] (evs ++ [(a, o)] ++ more) e := by
    intro st e hf hb
    have := firstBad_extra h0 hm hg hf hb
    simpa using this
  have hfield : ∀ {κ' : Ctx V} {r : Toks} {E : List Event}, Steps cx κ rest E κ' r → ∀ g, fieldAt κ'.stack a = some g → g = f := by
    intro κ' r E hs g hg
    obtain ⟨ext, he⟩ := steps_stack hs
    rw [he, fieldAt_ext_some hfa] at hg
    cases hg
    rfl
  have hharm : ∀ {κ' : Ctx V} {r : Toks} {E : List Event}, Steps cx κ rest E κ' r →
      ∀ pre i d outer c, κ'.stack = pre ++ (i, d) :: outer → a.level = outer.length → (structs d)[a.struct]? = some c →
      Harmless c f a.field := by
    intro κ' r E hs pre i d outer c hst hl hcs
    obtain ⟨ext, he⟩ := steps_stack hs
    rw [hst] at he
    have hlt := fieldAt_level hfa
    have hlen := congrArg List.length he
    simp only [List.length_append, List.length_cons] at hlen
    rw [List.append_eq_append_iff] at he
    rcases he with ⟨m, rfl, hq⟩ | ⟨m, hp, hq⟩
    · cases m with
      | nil => exact hc [] i d outer c (by simpa using hq.symm) hl hcs
      | cons x m =>
        have := congrArg List.length hq
        simp only [List.length_append, List.length_cons] at this
        omega
    · exact hc m i d outer c hq hl hcs
  rcases hmore with ⟨κ', hr⟩ | ⟨κ', e, hh⟩
  · have hf := hfield (reads_steps hr)
    rcases outcome_reads wf (steps_reads h hr) with ⟨_, ha, _, h2⟩ | ⟨e1, h1, h2⟩ <;>
      rcases outcome_reads wf (steps_reads h' hr) with ⟨_, ha', _, h2'⟩ | ⟨e1', h1', h2'⟩
    · rw [← hx.allFail κ'.stack false (hharm (reads_steps hr)), ← hx.outAll hv κ'.stack none hf] at h2'
      cases hfl : allFail (evs ++ more) κ'.stack false with
      | some x => rw [hfl] at h2 h2'; exact Eq.trans h2 h2'.symm
      | none =>
        rw [hfl] at h2 h2'
        obtain ⟨o, q1, q2⟩ := h2
        obtain ⟨o', q1', q2'⟩ := h2'
        rw [q1] at q1'
        cases q1'
        rw [q2, q2']
    · exact absurd ((hx.acceptable hg hf).1 ha) h1'.not_acceptable
    · exact absurd ((hx.acceptable hg hf).2 ha') h1.not_acceptable
    · rw [h2, h2', (hbad hf h1).unique h1']
  · obtain ⟨e1, e2, r, hst, hstk, rfl⟩ := hh
    have hf := hfield hst
    have hh1 : Halts cx (start argv0 d) T (evs ++ (e1 ++ e2)) κ' e := ⟨_, _, _, steps_trans h hst, hstk, by rw [List.append_assoc]⟩
    have hh2 : Halts cx (start argv0 d) T' (evs ++ [(a, o)] ++ (e1 ++ e2)) κ' e :=
      ⟨_, _, _, steps_trans h' hst, hstk, by rw [List.append_assoc (evs ++ [(a, o)])]⟩
    rcases outcome_halts wf hh1 with ⟨ha, h1⟩ | ⟨x, hb, h1⟩ <;> rcases outcome_halts wf hh2 with ⟨ha', h1'⟩ | ⟨x', hb', h1'⟩
    · rw [h1, h1']
    · exact absurd ((hx.acceptable hg hf).1 ha) hb'.not_acceptable
    · exact absurd ((hx.acceptable hg hf).2 ha') hb.not_acceptable
    · rw [h1, h1', (hbad hf hb).unique hb']

end Palc
