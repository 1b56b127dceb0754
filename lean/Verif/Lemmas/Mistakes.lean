import Verif.Lemmas.Macro
/-! Errors of part of a struct are errors of the struct. -/

namespace Palc

variable {V : Type}

/-- What a state of the loop over fields has in common with that of fewer fields. -/
structure FewerSeen (s' s : DState V) : Prop where
  sub : (∃ i o vs, s'.sub = .some i o vs) → ∃ i o vs, s.sub = .some i o vs
  varArg : s'.varArg.isSome = true → s.varArg.isSome = true
  last : s'.last.isSome = true → s.last.isSome = true
  seen : ∀ n ∈ s'.seen, n ∈ s.seen
  errors : ∀ e ∈ s'.errors, e ∈ s.errors

theorem checkDup_mono {seen' seen : List Str} (ns : List Str) (h : ∀ n ∈ seen', n ∈ seen) :
    (∀ e ∈ (checkDup seen' ns).1, e ∈ (checkDup seen ns).1) ∧ ∀ n ∈ (checkDup seen' ns).2, n ∈ (checkDup seen ns).2 := by
  induction ns generalizing seen' seen with
  | nil => exact ⟨by simp [checkDup], h⟩
  | cons n ns ih =>
    obtain ⟨h1, h2⟩ := ih (seen' := n :: seen') (seen := n :: seen) (by
      intro x hx
      rcases List.mem_cons.1 hx with rfl | hx
      · exact List.mem_cons_self
      · exact List.mem_cons_of_mem _ (h x hx))
    simp only [checkDup]
    by_cases hn : n ∈ seen'
    · rw [if_pos hn, if_pos (h n hn)]
      refine ⟨?_, h2⟩
      intro e he
      rcases List.mem_cons.1 he with rfl | he
      · exact List.mem_cons_self
      · exact List.mem_cons_of_mem _ (h1 e he)
    · rw [if_neg hn]
      by_cases hn' : n ∈ seen
      · rw [if_pos hn']
        exact ⟨fun e he => List.mem_cons_of_mem _ (h1 e he), h2⟩
      · rw [if_neg hn']
        exact ⟨h1, h2⟩

theorem checkDup_seen (seen ns : List Str) : ∀ n ∈ seen, n ∈ (checkDup seen ns).2 := by
  induction ns generalizing seen with
  | nil => exact fun n h => h
  | cons x ns ih =>
    intro n hn
    simp only [checkDup]
    have := ih (x :: seen) n (List.mem_cons_of_mem _ hn)
    split <;> exact this

theorem FewerSeen.refl (s : DState V) : FewerSeen s s := ⟨id, id, id, fun _ => id, fun _ => id⟩

theorem FewerSeen.trans {a b c : DState V} (h : FewerSeen a b) (h' : FewerSeen b c) : FewerSeen a c :=
  ⟨fun x => h'.sub (h.sub x), fun x => h'.varArg (h.varArg x), fun x => h'.last (h.last x), fun n x => h'.seen n (h.seen n x),
    fun e x => h'.errors e (h.errors e x)⟩

/-- More fields. -/
theorem FewerSeen.more (cx : Cx V) (s : DState V) (x : FieldDecl V) : FewerSeen s (deriveStep cx s x) := by
  cases x with
  | subcommand i o vs =>
    simp only [deriveStep]
    cases hs : s.sub with
    | none => exact ⟨fun _ => ⟨_, _, _, rfl⟩, id, id, fun _ => id, fun _ => id⟩
    | some => exact ⟨fun _ => ⟨_, _, _, rfl⟩, id, id, fun _ => id, fun e he => List.mem_append_left _ he⟩
  | flatten i d =>
    simp only [deriveStep]
    exact ⟨id, id, id, fun _ => id, fun e he => List.mem_append_left _ (List.mem_append_left _ he)⟩
  | arg i ty m =>
    simp only [deriveStep]
    have l : ∀ (es : List DeriveError), ∀ e ∈ s.errors, e ∈ s.errors ++ es := fun es e he => List.mem_append_left _ he
    have l2 : ∀ (es es2 : List DeriveError), ∀ e ∈ s.errors, e ∈ s.errors ++ es ++ es2 :=
      fun es es2 e he => List.mem_append_left _ (l es e he)
    split
    · split
      · exact ⟨id, id, id, fun _ => id, l _⟩
      · exact ⟨id, id, id, checkDup_seen _ _, l2 _ _⟩
    · split
      · exact ⟨id, id, fun _ => rfl, fun _ => id, l2 _ _⟩
      · split
        · exact ⟨id, fun _ => rfl, id, fun _ => id, l2 _ _⟩
        · split
          · exact ⟨id, id, id, fun _ => id, l2 _ _⟩
          · exact ⟨id, id, id, fun _ => id, l _⟩

/-- One more field on both sides. -/
theorem FewerSeen.step (cx : Cx V) {s' s : DState V} (h : FewerSeen s' s) (x : FieldDecl V) : FewerSeen (deriveStep cx s' x) (deriveStep cx s x) := by
  have app : ∀ {a b c d : List DeriveError}, (∀ e ∈ a, e ∈ b) → (∀ e ∈ c, e ∈ d) → ∀ e ∈ a ++ c, e ∈ b ++ d := by
    intro a b c d h1 h2 e he
    rcases List.mem_append.1 he with he | he
    · exact List.mem_append_left _ (h1 e he)
    · exact List.mem_append_right _ (h2 e he)
  have cond : ∀ {p q : Bool} {e : DeriveError}, (p = true → q = true) → ∀ x ∈ (if p then [e] else []), x ∈ (if q then [e] else []) := by
    intro p q e hpq
    cases p
    · simp
    · rw [hpq rfl]; simp
  cases x with
  | subcommand i o vs =>
    simp only [deriveStep]
    cases hs' : s'.sub with
    | none =>
      cases hs : s.sub with
      | none => exact ⟨fun _ => ⟨_, _, _, rfl⟩, h.varArg, h.last, h.seen, h.errors⟩
      | some => exact ⟨fun _ => ⟨_, _, _, rfl⟩, h.varArg, h.last, h.seen, fun e he => List.mem_append_left _ (h.errors e he)⟩
    | some =>
      obtain ⟨_, _, _, hs⟩ := h.sub ⟨_, _, _, hs'⟩
      rw [hs]
      exact ⟨fun _ => ⟨_, _, _, rfl⟩, h.varArg, h.last, h.seen, app h.errors (fun _ => id)⟩
  | flatten i d =>
    simp only [deriveStep]
    exact ⟨h.sub, h.varArg, h.last, h.seen, app (app h.errors (fun _ => id)) (fun _ => id)⟩
  | arg i ty m =>
    simp only [deriveStep]
    have he : ∀ es : List DeriveError, ∀ e ∈ s'.errors ++ es, e ∈ s.errors ++ es := fun es => app h.errors (fun _ => id)
    split
    · split
      · exact ⟨h.sub, h.varArg, h.last, h.seen, he _⟩
      · exact ⟨h.sub, h.varArg, h.last, (checkDup_mono _ h.seen).2, app (he _) (checkDup_mono _ h.seen).1⟩
    · split
      · exact ⟨h.sub, h.varArg, fun _ => rfl, h.seen, app (he _) (cond h.last)⟩
      · split
        · exact ⟨h.sub, fun _ => rfl, h.last, h.seen, app (he _) (cond h.varArg)⟩
        · by_cases hv : s'.varArg.isSome = true
          · rw [if_pos hv, if_pos (h.varArg hv)]
            exact ⟨h.sub, h.varArg, h.last, h.seen, app (he _) (fun _ => id)⟩
          · rw [if_neg hv]
            split
            · exact ⟨h.sub, h.varArg, h.last, h.seen, fun e hx => List.mem_append_left _ (he _ e hx)⟩
            · exact ⟨h.sub, h.varArg, h.last, h.seen, he _⟩

theorem FewerSeen.fold (cx : Cx V) {ds' ds : List (FieldDecl V)} (hs : ds'.Sublist ds) {s' s : DState V} (h : FewerSeen s' s) :
    FewerSeen (ds'.foldl (deriveStep cx) s') (ds.foldl (deriveStep cx) s) := by
  induction hs generalizing s' s with
  | slnil => exact h
  | cons x _ ih => exact ih (h.trans (.more cx s x))
  | cons_cons x _ ih => exact ih (h.step cx x)

/-- Errors that are about the fields themselves: not that a reference was not found, which further fields can change, and not that
flattened structs are combined with an exclusive argument. -/
def Lasting (e : DeriveError) : Prop := e ≠ .fieldNotFound ∧ e ≠ .exclusiveFlatten

theorem resolveRefs_errors (fs : List (FieldInfo V)) (ids : List Str) : ∀ e ∈ (resolveRefs fs ids).1, e = .fieldNotFound := by
  unfold resolveRefs
  split
  · simp
  · split <;> simp

theorem ite_error_eq {α ε : Type} {es es' : List ε} {a : α} (h : (if es = [] then Except.ok a else .error es) = .error es') :
    es' = es := by
  split at h
  · cases h
  · cases h; rfl

theorem deriveArgs_mono {cx : Cx V} {cmeta cmeta' : Option CommandMeta} {ds' ds : List (FieldDecl V)} (hs : ds'.Sublist ds)
    (hl : ds.length ≤ 254) {es' : List DeriveError} (h : deriveArgs cx cmeta' ds' = .error es') {e : DeriveError} (he : e ∈ es')
    (hx : Lasting e) (hi : e ≠ .duplicatedIdent) : ∃ es, deriveArgs cx cmeta ds = .error es ∧ e ∈ es := by
  have hf := FewerSeen.fold cx hs (FewerSeen.refl {})
  have hl' := hs.length_le
  unfold deriveArgs at h ⊢
  rw [if_neg (by omega)] at h
  rw [if_neg (by omega)]
  dsimp only at h ⊢
  have h1 : e ∈ (ds'.foldl (deriveStep cx) {}).errors := by
    · have := ite_error_eq h
      subst this
      simp only [List.mem_append] at he
      rcases he with ((he | he) | he) | he
      · exact he
      · exfalso
        obtain ⟨x, hxm, hxe⟩ := List.mem_flatMap.1 he
        obtain ⟨f, -, rfl⟩ := List.mem_map.1 hxm
        simp only [resolveField, List.mem_append] at hxe
        rcases hxe with hxe | hxe <;> exact hx.1 (resolveRefs_errors _ _ _ hxe)
      · exfalso
        split at he
        · exact hx.2 (List.mem_singleton.1 he)
        · cases he
      · exfalso
        split at he
        · cases he
        · exact hi (List.mem_singleton.1 he)
  have h2 := hf.errors e h1
  rw [if_neg]
  · refine ⟨_, rfl, ?_⟩
    simp only [List.mem_append]
    exact .inl (.inl (.inl h2))
  · intro hn
    simp only [List.append_eq_nil_iff] at hn
    rw [hn.1.1.1] at h2
    cases h2

/-- Errors emitted by the macros themselves, not by rustc afterwards (which is not reached if there are others). -/
def OfMacro (e : SrcError) : Prop :=
  e ∉ [SrcError.notArgs, .notSubcommand, .derive .flattenPositional, .derive .flattenSubcommand, .derive .ignoreCaseNotLower,
    .derive .noParser, .derive .defaultType, .derive .duplicatedIdent]

instance (e : SrcError) : Decidable (OfMacro e) := by unfold OfMacro; infer_instance

theorem deriveFields_mono {cx : SrcCx V} {env : TyExpr → TyInfo V} {cmeta cmeta' : Option CommandMeta}
    {fields' fields : List (SrcField V)} (hs : fields'.Sublist fields) (hl : fields.length ≤ 254) {es' : List SrcError}
    (h : deriveFields cx env cmeta' fields' = .errors es') {e : SrcError} (he : e ∈ es') (hx : OfMacro e)
    (hy : e ≠ .derive .fieldNotFound ∧ e ≠ .derive .exclusiveFlatten) :
    ∃ es, deriveFields cx env cmeta fields = .errors es ∧ e ∈ es := by
  have hl' := hs.length_le
  have hmap : (fields'.map (elabField cx env)).Sublist (fields.map (elabField cx env)) := hs.map _
  have hds : ((fields'.map (elabField cx env)).filterMap (·.2)).Sublist ((fields.map (elabField cx env)).filterMap (·.2)) :=
    hmap.filterMap _
  have hdl : ((fields.map (elabField cx env)).filterMap (·.2)).length ≤ 254 := by
    have := List.length_filterMap_le (fun x : List SrcError × Option (FieldDecl V) => x.2) (fields.map (elabField cx env))
    rw [List.length_map] at this
    omega
  have hattr : ∀ x, x ∈ (fields'.map (elabField cx env)).flatMap (·.1) → x ∈ (fields.map (elabField cx env)).flatMap (·.1) := by
    intro x hx
    obtain ⟨y, h1, h2⟩ := List.mem_flatMap.1 hx
    exact List.mem_flatMap.2 ⟨y, hmap.subset h1, h2⟩
  have hder : ∀ es1, deriveArgs cx.toCx cmeta' ((fields'.map (elabField cx env)).filterMap (·.2)) = .error es1 →
      ∀ e1, e = .derive e1 → e1 ∈ es1 →
      ∃ es2, deriveArgs cx.toCx cmeta ((fields.map (elabField cx env)).filterMap (·.2)) = .error es2 ∧ e1 ∈ es2 := by
    intro es1 h1 e1 he1 hm
    rw [he1] at hx hy
    refine deriveArgs_mono hds hdl h1 hm ⟨fun hc => hy.1 (by rw [hc]), fun hc => hy.2 (by rw [hc])⟩ (fun hc => hx ?_)
    rw [hc]
    simp
  unfold deriveFields at h ⊢
  rw [if_neg (by omega)] at h
  rw [if_neg (by omega)]
  dsimp only at h ⊢
  -- the error is one of the attributes, or one of `deriveArgs`
  have hcase : e ∈ (fields'.map (elabField cx env)).flatMap (·.1)
      ∨ ∃ es1 e1, deriveArgs cx.toCx cmeta' ((fields'.map (elabField cx env)).filterMap (·.2)) = .error es1 ∧ e = .derive e1 ∧ e1 ∈ es1 := by
    split at h
    · right
      cases hd : deriveArgs cx.toCx cmeta' ((fields'.map (elabField cx env)).filterMap (·.2)) with
      | ok d => rw [hd] at h; cases h
      | error es1 =>
        rw [hd] at h
        cases h
        obtain ⟨e1, h1, h2⟩ := List.mem_map.1 he
        exact ⟨es1, e1, rfl, h2.symm, h1⟩
    · cases h
      rcases List.mem_append.1 he with he | he
      · exact .inl he
      · right
        cases hd : deriveArgs cx.toCx cmeta' ((fields'.map (elabField cx env)).filterMap (·.2)) with
        | ok d => rw [hd] at he; cases he
        | error es1 =>
          rw [hd] at he
          obtain ⟨e1, h1, h2⟩ := List.mem_map.1 he
          exact ⟨es1, e1, rfl, h2.symm, h1⟩
  rcases hcase with hc | ⟨es1, e1, h1, h2, h3⟩
  · have := hattr e hc
    rw [if_neg (fun hn => by rw [hn] at this; cases this)]
    exact ⟨_, rfl, List.mem_append_left _ this⟩
  · obtain ⟨es2, h4, h5⟩ := hder es1 h1 e1 h2 h3
    rw [h4, h2]
    split
    · exact ⟨_, rfl, List.mem_map.2 ⟨e1, h5, rfl⟩⟩
    · exact ⟨_, rfl, List.mem_append_right _ (List.mem_map.2 ⟨e1, h5, rfl⟩)⟩

end Palc
