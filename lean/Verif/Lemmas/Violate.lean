import Verif.Lemmas.Kinds
import Verif.Lemmas.Parsed
/-! Which constraint an error is about, and what was checked before it. -/

namespace Palc

open Spec

variable {V : Type}

/-- The constraints on the fields of a struct that were given. -/
structure Spec.GivenOk (c : Core V) (os : Nat → List (Option Bytes)) (sub : Bool) : Prop where
  requires : ∀ (i : Nat) (f : FieldInfo V), c.fields[i]? = some f → os i ≠ [] → ∀ x ∈ f.src.requires,
    ∃ (j : Nat) (g : FieldInfo V), c.fields[j]? = some g ∧ g.ident = x ∧ os j ≠ []
  conflicts : ∀ (i : Nat) (f : FieldInfo V), c.fields[i]? = some f → os i ≠ [] → ∀ x ∈ f.src.conflictsWith,
    ∀ (j : Nat) (g : FieldInfo V), c.fields[j]? = some g → g.ident = x → os j = []
  exclusive : ∀ (i : Nat) (f : FieldInfo V), c.fields[i]? = some f → os i ≠ [] → f.src.exclusive = true →
    (∀ j, j < c.fields.length → os j ≠ [] → j = i) ∧ sub = false

/-- The violation of a constraint of a struct that an error reports; `os` are the occurrences of its fields, `sub` tells if
a subcommand was entered, `need` if one is required. -/
inductive Spec.Violates (c : Core V) (os : Nat → List (Option Bytes)) (sub need : Bool) : Error → Prop
  /-- An exclusive field was given together with something else. -/
  | exclusive {i f} (hf : c.fields[i]? = some f) (hg : os i ≠ []) (hx : f.src.exclusive = true)
      (ho : sub = true ∨ ∃ (j : Nat) (g : FieldInfo V), c.fields[j]? = some g ∧ j ≠ i ∧ os j ≠ []) :
      Violates c os sub need { kind := .constraintExclusive, argDesc := some f.description }
  /-- A field was given, but not the field `g` it requires: the error is about `g`. -/
  | requires {i f j g} (hf : c.fields[i]? = some f) (hg : os i ≠ []) (hj : c.fields[j]? = some g)
      (hx : g.ident ∈ f.src.requires) (hn : os j = []) :
      Violates c os sub need { kind := .constraintRequired, argDesc := some g.description }
  /-- A field was given together with a field it conflicts with: the error is about the field having the constraint. -/
  | conflict {i f j g} (hf : c.fields[i]? = some f) (hg : os i ≠ []) (hj : c.fields[j]? = some g)
      (hx : g.ident ∈ f.src.conflictsWith) (hn : os j ≠ []) :
      Violates c os sub need { kind := .constraintConflict, argDesc := some f.description }
  /-- A required field was not given. -/
  | missing {i f} (hf : c.fields[i]? = some f) (hr : isRequired f = true) (hn : os i = []) (hok : GivenOk c os sub) :
      Violates c os sub need { kind := .missingRequiredArgument, argDesc := some f.description }
  /-- A required subcommand is missing. -/
  | subcommand (hneed : need = true) (hs : sub = false) (hok : StructOk c os sub) :
      Violates c os sub need { kind := .missingRequiredSubcommand }

/-- What is wrong with a struct: a violated constraint, or an absent field whose default value does not parse. -/
inductive Spec.StructFails (c : Core V) (os : Nat → List (Option Bytes)) (sub need : Bool) : Fail → Prop
  | error {e} (h : Violates c os sub need e) : StructFails c os sub need (.error e)
  | panic {i f} (hf : c.fields[i]? = some f) (hn : os i = []) (hd : fieldOut f [] = none) (hr : isRequired f = false)
      (hok : GivenOk c os sub) : StructFails c os sub need .panic

theorem setError_some {c : Core V} {os : Nat → List (Option Bytes)} {sub need : Bool} {i : Nat} {f : FieldInfo V} {e : Error}
    (hf : c.fields[i]? = some f) (hg : os i ≠ []) (h : setError c (present os) sub i f = some e) :
    Violates c os sub need e := by
  unfold setError at h
  split at h
  · rename_i hx
    cases h
    rw [Bool.and_eq_true, Bool.or_eq_true, List.any_eq_true] at hx
    refine .exclusive hf hg hx.1 ?_
    rcases hx.2 with h | ⟨j, hj, h⟩
    · exact .inl h
    · rw [Bool.and_eq_true, bne_iff_ne, present_true] at h
      rw [List.mem_range] at hj
      exact .inr ⟨j, _, List.getElem?_eq_getElem hj, h.1, h.2⟩
  · split at h
    · rename_i g hr
      cases h
      obtain ⟨x, hx, hfind⟩ := List.exists_of_findSome?_eq_some hr
      have hm := List.mem_of_find?_eq_some hfind
      have hp := List.find?_some hfind
      rw [Bool.and_eq_true, decide_eq_true_eq, Bool.not_eq_true', present_false] at hp
      exact .requires hf hg (List.mem_zipIdx_iff_getElem?.1 hm) (hp.1 ▸ hx) hp.2
    · split at h
      · rename_i hc
        cases h
        obtain ⟨x, hx, hy⟩ := List.any_eq_true.1 hc
        obtain ⟨y, hm, hp⟩ := List.any_eq_true.1 hy
        rw [Bool.and_eq_true, decide_eq_true_eq, present_true] at hp
        exact .conflict hf hg (List.mem_zipIdx_iff_getElem?.1 hm) (hp.1 ▸ hx) hp.2
      · cases h

theorem findIdx_some {α β : Type} {l : List α} {p : α × Nat → Option β} {b : β} (h : l.zipIdx.findSome? p = some b) :
    ∃ i x, l[i]? = some x ∧ p (x, i) = some b := by
  obtain ⟨y, hy, hp⟩ := List.exists_of_findSome?_eq_some h
  exact ⟨y.2, y.1, List.mem_zipIdx_iff_getElem?.1 hy, hp⟩

theorem setErrors_none {cx : Cx V} {c : Core V} (wf : CoreWF cx c) {os : Nat → List (Option Bytes)} {sub : Bool}
    (h : c.fields.zipIdx.findSome? (fun x => if present os x.2 then setError c (present os) sub x.2 x.1 else none) = none) :
    GivenOk c os sub := by
  have key : ∀ (i : Nat) (f : FieldInfo V), c.fields[i]? = some f → os i ≠ [] → setError c (present os) sub i f = none := by
    intro i f hf hg
    have := findIdx_none.1 h i f hf
    simpa [present_true.2 hg] using this
  exact ⟨fun i f hf hg => ((setError_none wf hf).1 (key i f hf hg)).1,
    fun i f hf hg => ((setError_none wf hf).1 (key i f hf hg)).2.1,
    fun i f hf hg => ((setError_none wf hf).1 (key i f hf hg)).2.2⟩

theorem structFail_some {cx : Cx V} {c : Core V} (wf : CoreWF cx c) {os : Nat → List (Option Bytes)} {sub need : Bool} {x : Fail}
    (h : structFail c (present os) sub need = some x) : StructFails c os sub need x := by
  unfold structFail at h
  rw [Option.or_eq_some_iff] at h
  rcases h with h | ⟨h0, h⟩
  · rw [Option.map_eq_some_iff] at h
    obtain ⟨e, h, rfl⟩ := h
    obtain ⟨i, f, hf, hp⟩ := findIdx_some h
    simp only at hp
    split at hp
    · rename_i hg
      exact .error (setError_some hf (present_true.1 hg) hp)
    · cases hp
  · rw [Option.map_eq_none_iff] at h0
    have hok := setErrors_none wf h0
    rw [Option.or_eq_some_iff] at h
    rcases h with h | ⟨h1, h⟩
    · obtain ⟨i, f, hf, hp⟩ := findIdx_some h
      simp only at hp
      split at hp
      · cases hp
      · rename_i hg
        have hn : os i = [] := present_false.1 (by simpa using hg)
        unfold unsetFail at hp
        split at hp
        · rename_i hr
          cases hp
          exact .error (.missing hf hr hn hok)
        · rename_i hr
          split at hp
          · rename_i hd
            cases hp
            exact .panic hf hn (by simpa using hd) (by simpa using hr) hok
          · cases hp
    · split at h
      · rename_i hs
        cases h
        rw [Bool.and_eq_true, Bool.not_eq_true'] at hs
        refine .error (.subcommand hs.1 hs.2 ⟨?_, hok.requires, hok.conflicts, hok.exclusive⟩)
        intro i f hf hr hn
        have := findIdx_none.1 h1 i f hf
        simp only [present_false.2 hn, Bool.false_eq_true, if_false] at this
        rw [unsetFail_none, hr] at this
        cases this.1
      · cases h

mutual
/-- The order in which the structs of a command are checked: `Before d s t` if the `s`-th struct is checked before the `t`-th
(both numbered as in `structs`): a flattened struct before the one containing it, flattened structs in declaration order. -/
inductive Spec.Before : ArgsDef V → Nat → Nat → Prop
  /-- Flattened structs before the struct containing them. -/
  | inner {d s} (h0 : 0 < s) (hs : s < (structs d).length) : Before d s 0
  | flats {core flats sub s t} (h : BeforeFlats flats s t) : Before (.mk core flats sub) (s + 1) (t + 1)
inductive Spec.BeforeFlats : Flats V → Nat → Nat → Prop
  /-- Flattened structs in declaration order. -/
  | order {ident d rest s t} (hs : s < (structs d).length) (ht : (structs d).length ≤ t)
      (ht2 : t < (structs d).length + (flatStructs rest).length) : BeforeFlats (.cons ident d rest) s t
  | here {ident d rest s t} (h : Before d s t) : BeforeFlats (.cons ident d rest) s t
  | later {ident d rest s t} (h : BeforeFlats rest s t) :
      BeforeFlats (.cons ident d rest) ((structs d).length + s) ((structs d).length + t)
end

mutual
theorem before_lt : (d : ArgsDef V) → {s t : Nat} → Before d s t → s < (structs d).length ∧ t < (structs d).length
  | .mk core flats sub, s, t, h => by
    cases h with
    | inner h0 hs => exact ⟨hs, by rw [structs]; simp⟩
    | flats h =>
      have := beforeFlats_lt flats h
      rw [structs]
      simp only [List.length_cons]
      omega
theorem beforeFlats_lt : (fl : Flats V) → {s t : Nat} → BeforeFlats fl s t →
    s < (flatStructs fl).length ∧ t < (flatStructs fl).length
  | .nil, s, t, h => by cases h
  | .cons ident d rest, s, t, h => by
    rw [flatStructs, List.length_append]
    cases h with
    | order hs ht ht2 => omega
    | here h => have := before_lt d h; omega
    | later h => have := beforeFlats_lt rest h; omega
end

/-- What passing the checks of a struct means. -/
def Spec.Passed (c : Core V) (os : Nat → List (Option Bytes)) (sub : Bool) : Prop :=
  StructOk c os sub ∧ ∀ (i : Nat) (f : FieldInfo V), c.fields[i]? = some f → os i = [] → fieldOut f [] ≠ none

mutual
/-- The struct of a command that fails first. -/
theorem argsFail_some {cx : Cx V} : (d : ArgsDef V) → (wf : WFArgs cx d) → {os : Nat → Nat → List (Option Bytes)} → {s : Nat} →
    {sub : Bool} → {x : Fail} → argsFail (fun s => present (os s)) s sub d = some x →
    ∃ (k : Nat) (c : Core V), (structs d)[k]? = some c
      ∧ StructFails c (os (s + k)) (sub && decide (k = 0)) (subRequired d && decide (k = 0)) x
      ∧ ∀ (j : Nat) (c' : Core V), (structs d)[j]? = some c' → Before d j k → Passed c' (os (s + j)) (sub && decide (j = 0))
  | .mk core flats subF, wf, os, s, sub, x, h => by
    rw [WFArgs] at wf
    rw [argsFail, Option.or_eq_some_iff] at h
    rcases h with h | ⟨h0, h⟩
    · obtain ⟨k, c, h1, h2, h3⟩ := flatsFail_some flats wf.2.1 h
      refine ⟨k + 1, c, by rw [structs]; exact h1, ?_, ?_⟩
      · rw [show s + (k + 1) = s + 1 + k by omega]; simpa using h2
      · intro j c' hj hb
        cases hb with
        | flats hb =>
          rename_i j
          have := h3 j c' (by rw [structs] at hj; exact hj) hb
          rw [show s + (j + 1) = s + 1 + j by omega]; simpa using this
    · rw [flatsFail_none flats wf.2.1] at h0
      refine ⟨0, core, by rw [structs]; rfl, ?_, ?_⟩
      · have := structFail_some wf.1 h
        simpa using this
      · intro j c' hj hb
        cases hb with
        | inner hpos hlt =>
          obtain ⟨j, rfl⟩ : ∃ j', j = j' + 1 := ⟨j - 1, by omega⟩
          have := h0 j c' (by rw [structs] at hj; exact hj)
          rw [show s + (j + 1) = s + 1 + j by omega]
          simpa [Passed] using this
theorem flatsFail_some {cx : Cx V} : (fl : Flats V) → (wf : WFFlats cx fl) → {os : Nat → Nat → List (Option Bytes)} → {s : Nat} →
    {x : Fail} → flatsFail (fun s => present (os s)) s fl = some x →
    ∃ (k : Nat) (c : Core V), (flatStructs fl)[k]? = some c ∧ StructFails c (os (s + k)) false false x
      ∧ ∀ (j : Nat) (c' : Core V), (flatStructs fl)[j]? = some c' → BeforeFlats fl j k → Passed c' (os (s + j)) false
  | .nil, _, os, s, x, h => by rw [flatsFail] at h; cases h
  | .cons ident d rest, wf, os, s, x, h => by
    rw [WFFlats] at wf
    rw [flatsFail, Option.or_eq_some_iff] at h
    have hsub : subRequired d = false := by unfold subRequired; rw [wf.2.2.1]
    rcases h with h | ⟨h0, h⟩
    · obtain ⟨k, c, h1, h2, h3⟩ := argsFail_some d wf.1 h
      have hk := (List.getElem?_eq_some_iff.1 h1).1
      refine ⟨k, c, by rw [flatStructs, List.getElem?_append_left hk]; exact h1, by simpa [hsub] using h2, ?_⟩
      intro j c' hj hb
      cases hb with
      | order hs ht ht2 => omega
      | here hb =>
        have hjl := (before_lt d hb).1
        rw [flatStructs, List.getElem?_append_left hjl] at hj
        simpa using h3 j c' hj hb
      | later hb => omega
    · rw [argsFail_none d wf.1] at h0
      obtain ⟨k, c, h1, h2, h3⟩ := flatsFail_some rest wf.2.2.2 h
      have haddr : ∀ j, s + (structs d).length + j = s + ((structs d).length + j) := by intro j; omega
      refine ⟨(structs d).length + k, c, by rw [flatStructs, List.getElem?_append_right (by omega)]; simpa using h1,
        by rw [haddr] at h2; exact h2, ?_⟩
      intro j c' hj hb
      by_cases hjl : j < (structs d).length
      · rw [flatStructs, List.getElem?_append_left hjl] at hj
        simpa [Passed] using h0.1 j c' hj
      · obtain ⟨j, rfl⟩ : ∃ j', j = (structs d).length + j' := ⟨j - (structs d).length, by omega⟩
        rw [flatStructs, List.getElem?_append_right (by omega), Nat.add_sub_cancel_left] at hj
        generalize hJ : (structs d).length + j = J at hb
        generalize hK : (structs d).length + k = K at hb
        cases hb with
        | order hs ht ht2 => omega
        | here hb => have := before_lt d hb; omega
        | later hb =>
          rename_i s' t'
          obtain rfl : j = s' := by omega
          obtain rfl : k = t' := by omega
          rw [← hJ, ← haddr]
          exact h3 j c' hj hb
end

theorem present_eq (os : Nat → List (Option Bytes)) : (fun i => !(os i).isEmpty) = present os := by
  funext i; rfl

/-- The entered command that fails first: all deeper ones pass. -/
theorem allFail_some {cx : Cx V} {evs : List Event} {st : List (Entry V)} (wf : StackWF cx st) {sub : Bool} {x : Fail}
    (h : allFail evs st sub = some x) :
    ∃ (pre : List (Entry V)) (i : CmdId) (d : ArgsDef V) (outer : List (Entry V)) (k : Nat) (c : Core V),
      st = pre ++ (i, d) :: outer ∧ (structs d)[k]? = some c
      ∧ StructFails c (fun n => occs evs ⟨outer.length, k, n⟩) ((if pre = [] then sub else true) && decide (k = 0))
          (subRequired d && decide (k = 0)) x
      ∧ (∀ (j : Nat) (c' : Core V), (structs d)[j]? = some c' → Before d j k →
          Passed c' (fun n => occs evs ⟨outer.length, j, n⟩) ((if pre = [] then sub else true) && decide (j = 0)))
      ∧ ∀ (pre' : List (Entry V)) (i' : CmdId) (d' : ArgsDef V) (mid : List (Entry V)), pre = pre' ++ (i', d') :: mid →
          (∀ (j : Nat) (c' : Core V), (structs d')[j]? = some c' →
            Passed c' (fun n => occs evs ⟨(mid ++ (i, d) :: outer).length, j, n⟩) ((if pre' = [] then sub else true) && decide (j = 0)))
          ∧ (subRequired d' = true → (if pre' = [] then sub else true) = true) := by
  induction st generalizing sub with
  | nil => cases h
  | cons y st ih =>
    obtain ⟨i0, d0⟩ := y
    rw [allFail, Option.or_eq_some_iff] at h
    have hwf0 := wf (i0, d0) (by simp)
    rcases h with h | ⟨h0, h⟩
    · obtain ⟨k, c, h1, h2, h3⟩ := argsFail_some d0 hwf0 (os := fun s n => occs evs ⟨st.length, s, n⟩) h
      refine ⟨[], i0, d0, st, k, c, rfl, h1, by simpa using h2, by simpa using h3, ?_⟩
      intro pre' i' d' mid he
      simp at he
    · rw [show (fun s i => !(occs evs ⟨st.length, s, i⟩).isEmpty) = fun s => present ((fun s n => occs evs ⟨st.length, s, n⟩) s)
        from rfl, argsFail_none d0 hwf0] at h0
      obtain ⟨pre, i, d, outer, k, c, rfl, h1, h2, h3, h4⟩ := ih (fun z hz => wf z (by simp [hz])) h
      refine ⟨(i0, d0) :: pre, i, d, outer, k, c, rfl, h1, ?_, ?_, ?_⟩
      · simpa using h2
      · simpa using h3
      · intro pre' i' d' mid he
        cases pre' with
        | nil =>
          simp only [List.nil_append, List.cons.injEq, Prod.mk.injEq] at he
          obtain ⟨⟨rfl, rfl⟩, rfl⟩ := he
          simp only [if_true]
          refine ⟨fun j c' hj => ?_, h0.2⟩
          simpa [Passed] using h0.1 j c' hj
        | cons z pre' =>
          simp only [List.cons_append, List.cons.injEq] at he
          have := h4 pre' i' d' mid he.2
          simpa using this

end Palc
