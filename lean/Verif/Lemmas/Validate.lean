import Verif.Lemmas.Finish
/-! Validation of whole command lines. -/

namespace Palc

open Spec

variable {V : Type}

/-! ## One struct -/

theorem ref_exists {c : Core V} {ids : List Str} {o : Option (List Nat)} (h : ResolvedOk c ids o) {x : Str} (hx : x ∈ ids) :
    ∃ (j : Nat) (g : FieldInfo V), c.fields[j]? = some g ∧ g.ident = x := by
  rcases h with ⟨h1, _⟩ | ⟨ns, _, h2, h3⟩
  · rw [h1] at hx; simp at hx
  · obtain ⟨k, hk⟩ := List.getElem?_of_mem hx
    have hlt : k < ns.length := by rw [h2]; exact (List.getElem?_eq_some_iff.1 hk).1
    obtain ⟨g, q1, q2⟩ := h3 k x ns[k] hk (by simp [hlt])
    exact ⟨_, g, q1, q2⟩

theorem present_true {os : Nat → List (Option Bytes)} {i : Nat} : present os i = true ↔ os i ≠ [] := by
  simp [present]

theorem present_false {os : Nat → List (Option Bytes)} {i : Nat} : present os i = false ↔ os i = [] := by
  simp [present]

theorem setError_none {cx : Cx V} {c : Core V} (wf : CoreWF cx c) {os : Nat → List (Option Bytes)} {sub : Bool} {i : Nat}
    {f : FieldInfo V} (hf : c.fields[i]? = some f) :
    setError c (present os) sub i f = none ↔
      (∀ x ∈ f.src.requires, ∃ (j : Nat) (g : FieldInfo V), c.fields[j]? = some g ∧ g.ident = x ∧ os j ≠ [])
      ∧ (∀ x ∈ f.src.conflictsWith, ∀ (j : Nat) (g : FieldInfo V), c.fields[j]? = some g → g.ident = x → os j = [])
      ∧ (f.src.exclusive = true → (∀ j, j < c.fields.length → os j ≠ [] → j = i) ∧ sub = false) := by
  have hmem := List.mem_of_getElem? hf
  have hfw := wf.fields i f hf
  have hE : (f.src.exclusive && (sub || (List.range c.fields.length).any (fun j => j != i && present os j))) = false
      ↔ (f.src.exclusive = true → (∀ j, j < c.fields.length → os j ≠ [] → j = i) ∧ sub = false) := by
    cases f.src.exclusive with
    | false => simp
    | true =>
      simp only [Bool.true_and, Bool.or_eq_false_iff, List.any_eq_false, List.mem_range, true_implies]
      constructor
      · rintro ⟨h1, h2⟩
        refine ⟨fun j hj hne => ?_, h1⟩
        have := h2 j hj
        rw [Bool.and_eq_true, present_true, bne_iff_ne] at this
        exact Classical.byContradiction fun hji => this ⟨hji, hne⟩
      · rintro ⟨h1, h2⟩
        refine ⟨h2, fun j hj => ?_⟩
        rw [Bool.and_eq_true, present_true, bne_iff_ne]
        rintro ⟨hji, hne⟩
        exact hji (h1 j hj hne)
  have hR : f.src.requires.findSome? (fun x => c.fields.zipIdx.find? (fun y => decide (y.1.ident = x) && !present os y.2)) = none
      ↔ (∀ x ∈ f.src.requires, ∃ (j : Nat) (g : FieldInfo V), c.fields[j]? = some g ∧ g.ident = x ∧ os j ≠ []) := by
    rw [List.findSome?_eq_none_iff]
    constructor
    · intro h x hx
      obtain ⟨j, g, h1, h2⟩ := ref_exists (wf.depsOk f hmem) (by rw [hfw.deps]; exact hx)
      refine ⟨j, g, h1, h2, ?_⟩
      have := List.find?_eq_none.1 (h x hx) (g, j) (List.mem_zipIdx_iff_getElem?.2 h1)
      simpa [h2, present] using this
    · intro h x hx
      rw [List.find?_eq_none]
      rintro ⟨g, j⟩ hg
      have hg := List.mem_zipIdx_iff_getElem?.1 hg
      obtain ⟨j', g', h1, h2, h3⟩ := h x hx
      by_cases he : g.ident = x
      · have : j' = j := ident_unique wf hg h1 (by rw [h2, he])
        subst this
        have := present_true.2 h3
        simp [this]
      · simp [he]
  have hC : (f.src.conflictsWith.any (fun x => c.fields.zipIdx.any (fun y => decide (y.1.ident = x) && present os y.2))) = false
      ↔ (∀ x ∈ f.src.conflictsWith, ∀ (j : Nat) (g : FieldInfo V), c.fields[j]? = some g → g.ident = x → os j = []) := by
    rw [List.any_eq_false]
    constructor
    · intro h x hx j g hg he
      have := h x hx
      rw [Bool.not_eq_true, List.any_eq_false] at this
      have := this (g, j) (List.mem_zipIdx_iff_getElem?.2 hg)
      simpa [he, present] using this
    · intro h x hx
      rw [Bool.not_eq_true, List.any_eq_false]
      rintro ⟨g, j⟩ hg
      have hg := List.mem_zipIdx_iff_getElem?.1 hg
      by_cases he : g.ident = x
      · simp [present_false.2 (h x hx j g hg he)]
      · simp [he]
  unfold setError
  cases hx : (f.src.exclusive && (sub || (List.range c.fields.length).any (fun j => j != i && present os j))) with
  | true =>
    simp only [if_true, reduceCtorEq, false_iff]
    rintro ⟨_, _, h3⟩
    rw [hE.2 h3] at hx
    simp at hx
  | false =>
    simp only [Bool.false_eq_true, if_false]
    have h3 := hE.1 hx
    split
    · rename_i g hg
      simp only [reduceCtorEq, false_iff]
      rintro ⟨h1, _, _⟩
      rw [hR.2 h1] at hg
      simp at hg
    · rename_i hg
      have h1 := hR.1 hg
      cases ha : (f.src.conflictsWith.any (fun x => c.fields.zipIdx.any (fun y => decide (y.1.ident = x) && present os y.2))) with
      | true =>
        simp only [if_true, reduceCtorEq, false_iff]
        rintro ⟨_, h2, _⟩
        rw [hC.2 h2] at ha
        simp at ha
      | false =>
        simp only [Bool.false_eq_true, if_false, true_iff]
        exact ⟨h1, hC.1 ha, h3⟩

theorem unsetFail_none {f : FieldInfo V} : unsetFail f = none ↔ isRequired f = false ∧ fieldOut f [] ≠ none := by
  unfold unsetFail
  cases isRequired f with
  | true => simp
  | false =>
    cases fieldOut f [] <;> simp

theorem findIdx_none {α β : Type} {l : List α} {p : α × Nat → Option β} :
    l.zipIdx.findSome? p = none ↔ ∀ (i : Nat) (x : α), l[i]? = some x → p (x, i) = none := by
  rw [List.findSome?_eq_none_iff]
  constructor
  · intro h i x hx
    exact h (x, i) (List.mem_zipIdx_iff_getElem?.2 hx)
  · rintro h ⟨x, i⟩ hx
    exact h i x (List.mem_zipIdx_iff_getElem?.1 hx)

theorem structFail_none {cx : Cx V} {c : Core V} (wf : CoreWF cx c) {os : Nat → List (Option Bytes)} {sub need : Bool} :
    structFail c (present os) sub need = none ↔
      StructOk c os sub ∧ (need = true → sub = true)
      ∧ ∀ (i : Nat) (f : FieldInfo V), c.fields[i]? = some f → os i = [] → fieldOut f [] ≠ none := by
  unfold structFail
  rw [Option.or_eq_none_iff, Option.or_eq_none_iff, Option.map_eq_none_iff, findIdx_none, findIdx_none]
  have hN : (if need && !sub then some (Fail.error { kind := .missingRequiredSubcommand }) else none) = none
      ↔ (need = true → sub = true) := by
    cases need <;> cases sub <;> simp
  rw [hN]
  constructor
  · rintro ⟨h1, h2, h3⟩
    have hs : ∀ (i : Nat) (f : FieldInfo V), c.fields[i]? = some f → os i ≠ [] → setError c (present os) sub i f = none := by
      intro i f hf hne
      have := h1 i f hf
      simpa [present_true.2 hne] using this
    have hu : ∀ (i : Nat) (f : FieldInfo V), c.fields[i]? = some f → os i = [] → isRequired f = false ∧ fieldOut f [] ≠ none := by
      intro i f hf he
      have := h2 i f hf
      rw [← unsetFail_none]
      simpa [present_false.2 he] using this
    refine ⟨⟨?_, ?_, ?_, ?_⟩, h3, fun i f hf he => (hu i f hf he).2⟩
    · intro i f hf hr he
      have := (hu i f hf he).1
      rw [hr] at this
      simp at this
    · exact fun i f hf hne => ((setError_none wf hf).1 (hs i f hf hne)).1
    · exact fun i f hf hne => ((setError_none wf hf).1 (hs i f hf hne)).2.1
    · exact fun i f hf hne => ((setError_none wf hf).1 (hs i f hf hne)).2.2
  · rintro ⟨h1, h2, h3⟩
    refine ⟨?_, ?_, h2⟩
    · intro i f hf
      simp only
      cases hp : present os i with
      | false => simp
      | true =>
        have hne := present_true.1 hp
        simp only [if_true]
        exact (setError_none wf hf).2 ⟨h1.requires i f hf hne, h1.conflicts i f hf hne, h1.exclusive i f hf hne⟩
    · intro i f hf
      simp only
      cases hp : present os i with
      | true => simp
      | false =>
        have he := present_false.1 hp
        simp only [Bool.false_eq_true, if_false]
        refine unsetFail_none.2 ⟨?_, h3 i f hf he⟩
        cases hr : isRequired f with
        | false => rfl
        | true => exact absurd he (h1.required i f hf hr)

theorem outFields_some {os : Nat → List (Option Bytes)} {i0 : Nat} {fs : List (FieldInfo V)} {out : List (Str × Out V)}
    (h : outFields os i0 fs = some out) {n : Nat} {f : FieldInfo V} (hf : fs[n]? = some f) : fieldOut f (os (i0 + n)) ≠ none := by
  induction fs generalizing i0 out n with
  | nil => simp at hf
  | cons g fs ih =>
    simp only [outFields] at h
    split at h
    · rename_i o r h1 h2
      cases n with
      | zero => simp at hf; subst hf; simp [h1]
      | succ n =>
        have := ih h2 (by simpa using hf)
        rw [show i0 + 1 + n = i0 + (n + 1) by omega] at this
        exact this
    · simp at h

/-! ## One command -/

/-- The places of several structs, numbered from `s`. -/
def FilledAll (os : Nat → Nat → List (Option Bytes)) (s : Nat) (cs : List (Core V)) (plss : List (List (Place V))) : Prop :=
  plss.length = cs.length ∧ ∀ (k : Nat) (c : Core V), cs[k]? = some c →
    ∃ pls, plss[k]? = some pls ∧ Filled (os (s + k)) 0 c.fields pls

theorem FilledAll.left {os : Nat → Nat → List (Option Bytes)} {s : Nat} {cs cs' : List (Core V)} {plss : List (List (Place V))}
    (h : FilledAll os s (cs ++ cs') plss) : FilledAll os s cs (plss.take cs.length) := by
  obtain ⟨h1, h2⟩ := h
  refine ⟨by rw [List.length_take, h1, List.length_append]; omega, ?_⟩
  intro k c hc
  have hlt := (List.getElem?_eq_some_iff.1 hc).1
  obtain ⟨pls, q1, q2⟩ := h2 k c (by rw [List.getElem?_append_left hlt]; exact hc)
  exact ⟨pls, by rw [List.getElem?_take_of_lt hlt]; exact q1, q2⟩

theorem FilledAll.right {os : Nat → Nat → List (Option Bytes)} {s : Nat} {cs cs' : List (Core V)} {plss : List (List (Place V))}
    (h : FilledAll os s (cs ++ cs') plss) : FilledAll os (s + cs.length) cs' (plss.drop cs.length) := by
  obtain ⟨h1, h2⟩ := h
  refine ⟨by rw [List.length_drop, h1, List.length_append]; omega, ?_⟩
  intro k c hc
  obtain ⟨pls, q1, q2⟩ := h2 (cs.length + k) c (by rw [List.getElem?_append_right (by omega)]; simpa using hc)
  exact ⟨pls, by rw [List.getElem?_drop]; exact q1, by rw [Nat.add_assoc]; exact q2⟩

theorem descOk_info {cx : Cx V} {core : Core V} (wf : CoreWF cx core) (flats : Flats V) (sub : SubField V) :
    DescOk core (ArgsDef.mk core flats sub).info := by
  intro i f hf
  have hd : (ArgsDef.mk core flats sub).info.descriptions = core.descs := by rw [ArgsDef.info]; rfl
  rw [getDescription_packNul _ _ hd]
  · simp [hf]
  · intro x hx
    rw [List.mem_map] at hx
    obtain ⟨g, hg, rfl⟩ := hx
    obtain ⟨i, hi⟩ := List.getElem?_of_mem hg
    exact (wf.fields i g hi).noNul

mutual
theorem finArgs_eq {cx : Cx V} : (d : ArgsDef V) → (wf : WFArgs cx d) → {os : Nat → Nat → List (Option Bytes)} → {s : Nat} →
    {plss : List (List (Place V))} → FilledAll os s (structs d) plss → (subOut : Option (Out V)) →
    match argsFail (fun s => present (os s)) s subOut.isSome d with
    | some x => finArgs d plss subOut = .error x
    | none => ∃ o, outArgs os s subOut d = some o ∧ finArgs d plss subOut = .ok o
  | .mk core flats sub, wf, os, s, plss, h, subOut => by
    rw [WFArgs] at wf
    rw [structs] at h
    obtain ⟨pls, hp1, hp2⟩ := h.2 0 core rfl
    cases plss with
    | nil => simp at hp1
    | cons p rest =>
      simp only [List.getElem?_cons_zero, Option.some.injEq] at hp1
      subst hp1
      have hr : FilledAll os (s + 1) (flatStructs flats) rest := by
        have := FilledAll.right (cs := [core]) (cs' := flatStructs flats) h
        simpa using this
      have hfl := finFlats_eq flats wf.2.1 hr
      rw [argsFail, finArgs]
      cases hf : flatsFail (fun s => present (os s)) (s + 1) flats with
      | some x =>
        rw [hf] at hfl
        simp only at hfl
        simp only [Option.some_or]
        rw [hfl]
      | none =>
        rw [hf] at hfl
        simp only at hfl
        obtain ⟨outs, h1, h2⟩ := hfl
        simp only [Option.none_or]
        rw [h2, ← subNeeded_eq]
        have := finish_eq wf.1 (descOk_info wf.1 flats sub) hp2 sub outs subOut
        rw [Nat.add_zero] at this
        simp only [subOf]
        revert this
        cases structFail core (present (os s)) subOut.isSome (subNeeded sub) with
        | some x => exact id
        | none =>
          rintro ⟨own, sb, q1, q2, q3⟩
          refine ⟨_, ?_, q3⟩
          rw [outArgs, q1, h1, q2]
theorem finFlats_eq {cx : Cx V} : (fl : Flats V) → (wf : WFFlats cx fl) → {os : Nat → Nat → List (Option Bytes)} → {s : Nat} →
    {plss : List (List (Place V))} → FilledAll os s (flatStructs fl) plss →
    match flatsFail (fun s => present (os s)) s fl with
    | some x => finFlats fl plss = .error x
    | none => ∃ o, outFlats os s fl = some o ∧ finFlats fl plss = .ok o
  | .nil, _, os, s, plss, _ => by
    rw [flatsFail]
    exact ⟨[], by rw [outFlats], by rw [finFlats]⟩
  | .cons ident d rest, wf, os, s, plss, h => by
    rw [WFFlats] at wf
    rw [flatStructs] at h
    have h1 := finArgs_eq d wf.1 h.left none
    have h2 := finFlats_eq rest wf.2.2.2 h.right
    rw [flatsFail, finFlats]
    cases hf : argsFail (fun s => present (os s)) s false d with
    | some x =>
      rw [show (none : Option (Out V)).isSome = false from rfl, hf] at h1
      simp only at h1
      simp only [Option.some_or]
      rw [h1]
    | none =>
      rw [show (none : Option (Out V)).isSome = false from rfl, hf] at h1
      simp only at h1
      obtain ⟨o, q1, q2⟩ := h1
      simp only [Option.none_or]
      rw [q2]
      simp only
      cases hf2 : flatsFail (fun s => present (os s)) (s + (structs d).length) rest with
      | some x =>
        rw [hf2] at h2
        simp only at h2 ⊢
        rw [h2]
      | none =>
        rw [hf2] at h2
        simp only at h2 ⊢
        obtain ⟨os', q3, q4⟩ := h2
        rw [q4]
        exact ⟨_, by rw [outFlats, q1, q3], rfl⟩
end

mutual
theorem argsFail_none {cx : Cx V} : (d : ArgsDef V) → (wf : WFArgs cx d) → {os : Nat → Nat → List (Option Bytes)} → {s : Nat} →
    {sub : Bool} → (argsFail (fun s => present (os s)) s sub d = none ↔
      (∀ (k : Nat) (c : Core V), (structs d)[k]? = some c → StructOk c (os (s + k)) (sub && decide (k = 0))
        ∧ ∀ (i : Nat) (f : FieldInfo V), c.fields[i]? = some f → os (s + k) i = [] → fieldOut f [] ≠ none)
      ∧ (subRequired d = true → sub = true))
  | .mk core flats subF, wf, os, s, sub => by
    rw [WFArgs] at wf
    rw [argsFail, Option.or_eq_none_iff, flatsFail_none flats wf.2.1, structFail_none wf.1, structs]
    constructor
    · rintro ⟨h1, h2, h3, h4⟩
      refine ⟨?_, h3⟩
      intro k c hc
      cases k with
      | zero =>
        simp only [List.getElem?_cons_zero, Option.some.injEq] at hc
        subst hc
        simp only [Nat.add_zero, decide_true, Bool.and_true]
        exact ⟨h2, h4⟩
      | succ k =>
        have := h1 k c (by simpa using hc)
        rw [show s + (k + 1) = s + 1 + k by omega]
        simpa using this
    · rintro ⟨h1, h2⟩
      refine ⟨?_, ?_, h2, ?_⟩
      · intro k c hc
        have := h1 (k + 1) c (by simpa using hc)
        rw [show s + (k + 1) = s + 1 + k by omega] at this
        simpa using this
      · have := (h1 0 core rfl).1
        simpa using this
      · exact (h1 0 core rfl).2
theorem flatsFail_none {cx : Cx V} : (fl : Flats V) → (wf : WFFlats cx fl) → {os : Nat → Nat → List (Option Bytes)} → {s : Nat} →
    (flatsFail (fun s => present (os s)) s fl = none ↔
      ∀ (k : Nat) (c : Core V), (flatStructs fl)[k]? = some c → StructOk c (os (s + k)) false
        ∧ ∀ (i : Nat) (f : FieldInfo V), c.fields[i]? = some f → os (s + k) i = [] → fieldOut f [] ≠ none)
  | .nil, _, os, s => by
    rw [flatsFail, flatStructs]
    simp
  | .cons ident d rest, wf, os, s => by
    rw [WFFlats] at wf
    rw [flatsFail, flatStructs, Option.or_eq_none_iff, argsFail_none d wf.1, flatsFail_none rest wf.2.2.2]
    have hsub : subRequired d = false := by unfold subRequired; rw [wf.2.2.1]
    constructor
    · rintro ⟨⟨h1, _⟩, h2⟩ k c hc
      by_cases hk : k < (structs d).length
      · rw [List.getElem?_append_left hk] at hc
        simpa using h1 k c hc
      · rw [List.getElem?_append_right (by omega)] at hc
        have := h2 _ c hc
        rw [show s + (structs d).length + (k - (structs d).length) = s + k by omega] at this
        exact this
    · intro h
      refine ⟨⟨fun k c hc => ?_, by simp [hsub]⟩, fun k c hc => ?_⟩
      · have := h k c (by rw [List.getElem?_append_left (List.getElem?_eq_some_iff.1 hc).1]; exact hc)
        simpa using this
      · have := h ((structs d).length + k) c (by rw [List.getElem?_append_right (by omega)]; simpa using hc)
        rw [Nat.add_assoc]
        exact this
end

mutual
theorem outArgs_some : (d : ArgsDef V) → {os : Nat → Nat → List (Option Bytes)} → {s : Nat} → {sub : Option (Out V)} →
    {o : Out V} → outArgs os s sub d = some o → {k : Nat} → {c : Core V} → (structs d)[k]? = some c →
    {i : Nat} → {f : FieldInfo V} → c.fields[i]? = some f → fieldOut f (os (s + k) i) ≠ none
  | .mk core flats subF, os, s, sub, o, h, k, c, hc, i, f, hf => by
    rw [outArgs] at h
    rw [structs] at hc
    split at h
    · rename_i own fl sb h1 h2 h3
      cases k with
      | zero =>
        simp only [List.getElem?_cons_zero, Option.some.injEq] at hc
        subst hc
        have := outFields_some h1 hf
        rw [Nat.zero_add] at this
        exact this
      | succ k =>
        have := outFlats_some flats h2 (k := k) (c := c) (by simpa using hc) hf
        rw [show s + (k + 1) = s + 1 + k by omega]
        exact this
    · simp at h
theorem outFlats_some : (fl : Flats V) → {os : Nat → Nat → List (Option Bytes)} → {s : Nat} →
    {o : List (Str × Out V)} → outFlats os s fl = some o → {k : Nat} → {c : Core V} → (flatStructs fl)[k]? = some c →
    {i : Nat} → {f : FieldInfo V} → c.fields[i]? = some f → fieldOut f (os (s + k) i) ≠ none
  | .nil, os, s, o, h, k, c, hc, i, f, hf => by
    rw [flatStructs] at hc
    simp at hc
  | .cons ident d rest, os, s, o, h, k, c, hc, i, f, hf => by
    rw [outFlats] at h
    rw [flatStructs] at hc
    split at h
    · rename_i o1 r h1 h2
      by_cases hk : k < (structs d).length
      · rw [List.getElem?_append_left hk] at hc
        exact outArgs_some d h1 hc hf
      · rw [List.getElem?_append_right (by omega)] at hc
        have := outFlats_some rest h2 hc hf
        rw [show s + (structs d).length + (k - (structs d).length) = s + k by omega] at this
        exact this
    · simp at h
end

end Palc
