import Verif.EmitTypes
import Verif.Lemmas.Emit
/-!
# Types of the emitted code: lemmas
-/

namespace Palc.Emit

variable {V : Type}

theorem scope_same (Γ : Scope) (x : Str) (t : RTy) : Γ.set x t x = some t := if_pos rfl

theorem scope_other (Γ : Scope) {x y : Str} (t : RTy) (h : y ≠ x) : Γ.set x t y = Γ y := if_neg h

theorem tyLets_spec : ∀ (l : List (Str × Init V)) (Γ : Scope), (l.map (·.1)).Nodup → (∀ x ∈ l.map (·.1), Γ x = none) →
    ∃ Γ', tyLets Γ l = some Γ' ∧ (∀ x ∈ l, Γ' x.1 = some x.2.ty) ∧ ∀ y, y ∉ l.map (·.1) → Γ' y = Γ y := by
  intro l
  induction l with
  | nil => intro Γ _ _; exact ⟨Γ, rfl, by intro x hx; (cases hx), fun _ _ => rfl⟩
  | cons x l ih =>
    intro Γ hn hnone
    rw [List.map_cons, List.nodup_cons] at hn
    obtain ⟨Γ', h1, h2, h3⟩ := ih (Γ.set x.1 x.2.ty) hn.2 (by
      intro y hy
      rw [scope_other]
      · exact hnone y (by rw [List.map_cons]; exact List.mem_cons_of_mem _ hy)
      · intro h; rw [h] at hy; exact hn.1 hy)
    refine ⟨Γ', ?_, ?_, ?_⟩
    · obtain ⟨i, v⟩ := x
      rw [tyLets, hnone i (by simp)]
      exact h1
    · intro y hy
      rcases List.mem_cons.1 hy with rfl | hy
      · rw [h3 _ hn.1, scope_same]
      · exact h2 y hy
    · intro y hy
      rw [List.map_cons, List.mem_cons, not_or] at hy
      rw [h3 y hy.2, scope_other _ _ hy.1]

theorem tyTop_ok {Γ : Scope} : ∀ (l : List (St V)), (∀ s ∈ l, okS Γ [] s = true) → tyTop Γ l = some Γ := by
  intro l
  induction l with
  | nil => intro _; rfl
  | cons s l ih =>
    intro h
    have h1 := h s List.mem_cons_self
    have h2 := ih (fun t ht => h t (List.mem_cons_of_mem _ ht))
    cases s with
    | letE => rw [okS] at h1; cases h1
    | _ => rw [tyTop, if_pos h1, h2]; intro x e hx; cases hx

theorem okB_all {Γ : Scope} {ls : List Label} : ∀ (l : List (St V)), (∀ s ∈ l, okS Γ ls s = true) → okB Γ ls l = true := by
  intro l
  induction l with
  | nil => intro _; rw [okB]
  | cons s l ih =>
    intro h
    rw [okB, h s List.mem_cons_self, ih (fun t ht => h t (List.mem_cons_of_mem _ ht))]
    rfl

/-- The variable contains a place. -/
def IsPlace (Γ : Scope) (x : Str) : Prop := ∃ k, Γ x = some (.place k)

theorem tyE_dot0 {Γ : Scope} {ls : List Label} {x : Str} (h : IsPlace Γ x) : tyE Γ ls (.dot0 (.var x)) = some .present := by
  obtain ⟨k, hk⟩ := h
  rw [tyE, tyE, hk]
  rfl

theorem tyE_isSome {Γ : Scope} {ls : List Label} {x : Str} (h : IsPlace Γ x) :
    tyE Γ ls (.isSome (.dot0 (.var x))) = some .bool := by
  rw [tyE, tyE_dot0 h]

theorem tyE_isNone {Γ : Scope} {ls : List Label} {x : Str} (h : IsPlace Γ x) :
    tyE Γ ls (.isNone (.dot0 (.var x))) = some .bool := by
  rw [tyE, tyE_dot0 h]

theorem tyE_u8 {Γ : Scope} {ls : List Label} {n : Nat} (h : n < 256) : tyE Γ ls (.u8 n) = some .u8 := by
  rw [tyE, if_pos h]

theorem sumSet_ty {Γ : Scope} {ls : List Label} {xs : List Str} (hp : ∀ x ∈ xs, IsPlace Γ x) {sum : Ex} (h : sumSet xs = some sum) :
    tyE Γ ls sum = some .u8 := by
  have fold : ∀ (ys : List Str) (acc : Ex), (∀ y ∈ ys, IsPlace Γ y) → tyE Γ ls acc = some .u8 →
      tyE Γ ls (ys.foldl (fun acc y => .add acc (.asU8 (.isSome (.dot0 (.var y))))) acc) = some .u8 := by
    intro ys
    induction ys with
    | nil => intro acc _ h; exact h
    | cons y ys ih =>
      intro acc hy h
      rw [List.foldl_cons]
      refine ih _ (fun z hz => hy z (List.mem_cons_of_mem _ hz)) ?_
      rw [tyE, tyE, tyE_isSome (hy y List.mem_cons_self), if_pos rfl, if_pos ⟨h, rfl⟩]
  cases xs with
  | nil => cases h
  | cons x xs =>
    rw [sumSet, Option.some.injEq] at h
    subst h
    refine fold xs _ (fun z hz => hp z (List.mem_cons_of_mem _ hz)) ?_
    rw [tyE, tyE_isSome (hp x List.mem_cons_self), if_pos rfl]

theorem refChain_ty {Γ : Scope} {ls : List Label} {test : Ex → Ex} (ht : ∀ x, IsPlace Γ x → tyE Γ ls (test (.dot0 (.var x))) = some .bool)
    {l : Label} (hl : l ∈ ls) : ∀ (refs : List (Str × Nat)), (∀ r ∈ refs, IsPlace Γ r.1 ∧ r.2 < 256) →
    ∃ t, tyE Γ ls (refChain test l refs) = some t ∧ fits t .u8 = true := by
  intro refs
  induction refs with
  | nil => intro _; exact ⟨.never, by rw [refChain, tyE, if_pos hl], rfl⟩
  | cons r refs ih =>
    intro h
    obtain ⟨x, n⟩ := r
    obtain ⟨hx, hn⟩ := h _ List.mem_cons_self
    obtain ⟨t, h1, h2⟩ := ih (fun r hr => h r (List.mem_cons_of_mem _ hr))
    refine ⟨.u8, ?_, rfl⟩
    rw [refChain, tyE, if_pos (ht x hx), tyE_u8 hn, h1]
    revert h2
    cases t <;> simp [fits, joinTy]

/-- What the macros guarantee about a field. -/
structure FieldOk (Γ : Scope) (f : FieldInfo V) : Prop where
  place : Γ f.ident = some (.place (placeTy f.initializer))
  idx : f.attrs.getIndex < 256
  deps : ∀ idxs, f.dependenciesIdx = some idxs → ∀ r ∈ f.dependencies.zip idxs, IsPlace Γ r.1 ∧ r.2 < 256
  confs : ∀ idxs, f.conflictsIdx = some idxs → ∀ r ∈ f.conflicts.zip idxs, IsPlace Γ r.1 ∧ r.2 < 256
  default : ∀ v shown, f.defaultValue = some (.valueExpr v shown) → defaultTypeOk f.kind v = true
  total : f.exclusive = true → Γ totalName = some .u8

theorem FieldOk.isPlace {Γ : Scope} {f : FieldInfo V} (h : FieldOk Γ f) : IsPlace Γ f.ident := ⟨_, h.place⟩

theorem labeled_ok {Γ : Scope} {test : Ex → Ex} {l : Label} (ht : ∀ x, IsPlace Γ x → tyE Γ [l] (test (.dot0 (.var x))) = some .bool)
    {fn : ErrFn} (hfn : arity fn = 2) {i : Nat} (hi : i < 256) {refs : List (Str × Nat)}
    (hr : ∀ r ∈ refs, IsPlace Γ r.1 ∧ r.2 < 256) :
    okS (V := V) Γ [] (.labeled l [.ret (.call2 fn (.u8 i) (refChain test l refs))]) = true := by
  obtain ⟨t, h1, h2⟩ := refChain_ty ht List.mem_cons_self refs hr
  rw [okS, okB, okB, okS, tyE, tyE_u8 hi, h1]
  dsimp only
  rw [if_pos ⟨hfn, rfl, h2⟩]
  rfl

theorem setChecks_ok {Γ : Scope} {f : FieldInfo V} (h : FieldOk Γ f) : ∀ s ∈ setChecks f, okS Γ [] s = true := by
  intro s hs
  unfold setChecks at hs
  rw [List.mem_append, List.mem_append] at hs
  rcases hs with (hs | hs) | hs
  · split at hs
    · rename_i he
      rw [List.mem_singleton] at hs
      subst hs
      rw [okS, okB, okB, okS, tyE, tyE, h.total he, tyE_u8 (by omega), tyE, tyE_u8 h.idx]
      rfl
    · cases hs
  · split at hs
    · rename_i idxs he
      rw [List.mem_singleton] at hs
      subst hs
      exact labeled_ok (fun x hx => tyE_isNone hx) rfl h.idx (h.deps _ he)
    · cases hs
  · split at hs
    · rename_i idxs he
      rw [List.mem_singleton] at hs
      subst hs
      exact labeled_ok (fun x hx => tyE_isSome hx) rfl h.idx (h.confs _ he)
    · cases hs

theorem emitOnSet_ok {Γ : Scope} {f : FieldInfo V} (h : FieldOk Γ f) : ∀ s ∈ emitOnSet f, okS Γ [] s = true := by
  intro s hs
  have hc := okB_all _ (setChecks_ok h)
  unfold emitOnSet at hs
  split at hs
  · cases hs
  · rw [List.mem_singleton] at hs
    subst hs
    rw [okS, tyE_dot0 h.isPlace, hc]
    rfl

theorem defaultFits_ok {f : FieldInfo V} {v : DefaultOut V} (h : defaultTypeOk f.kind v = true) :
    defaultFits (placeTy f.initializer) v = true := by
  unfold FieldInfo.initializer
  revert h
  cases f.kind <;> cases v <;> cases f.valueDelimiter <;> simp [defaultTypeOk, placeTy, defaultFits]

theorem emitOnUnset_ok {Γ : Scope} {f : FieldInfo V} (h : FieldOk Γ f) : ∀ s ∈ emitOnUnset f, okS Γ [] s = true := by
  intro s hs
  unfold emitOnUnset at hs
  split at hs
  · rename_i v shown he
    rw [List.mem_singleton] at hs
    subst hs
    rw [okS, tyE_dot0 h.isPlace, okB, okB, okS, h.place]
    dsimp only
    rw [defaultFits_ok (h.default _ _ he)]
    rfl
  · rw [List.mem_singleton] at hs
    subst hs
    rw [okS, tyE_dot0 h.isPlace, okB, okB, okS, h.place]
    rfl
  · split at hs
    · rw [List.mem_singleton] at hs
      subst hs
      rw [okS, tyE_dot0 h.isPlace, okB, okB, okS, tyE, tyE_u8 h.idx]
      rfl
    · cases hs

theorem orFold_ty {Γ : Scope} {ls : List Label} {α : Type} (g : α → Ex) : ∀ (l : List α) (acc : Ex),
    (∀ x ∈ l, tyE Γ ls (g x) = some .bool) → tyE Γ ls acc = some .bool →
    tyE Γ ls (l.foldl (fun acc x => .or acc (g x)) acc) = some .bool := by
  intro l
  induction l with
  | nil => intro acc _ h; exact h
  | cons x l ih =>
    intro acc hl h
    rw [List.foldl_cons]
    refine ih _ (fun y hy => hl y (List.mem_cons_of_mem _ hy)) ?_
    rw [tyE, if_pos ⟨h, hl x List.mem_cons_self⟩]

theorem emitAssert_ok {Γ : Scope} {fields : List (FieldInfo V)} {flats : List Str} (hf : ∀ f ∈ fields, IsPlace Γ f.ident)
    (hl : ∀ x ∈ flats, Γ x = some .opt) (ho : Γ (lit "__out") = some .opt) : okS Γ [] (emitAssert fields flats) = true := by
  unfold emitAssert
  rw [okS, orFold_ty, okB, okB, okS]
  · rfl
  · intro f h
    exact tyE_isNone (hf f (List.mem_filter.1 h).1)
  · apply orFold_ty
    · intro x hx
      rw [tyE, tyE, hl x hx]
      rfl
    · rw [tyE, tyE, ho]
      rfl

theorem emitSubcmd_ok {Γ : Scope} {sub : Option (Str × Bool)} (h : ∀ x ∈ sub, Γ x.1 = some .opt) :
    ∀ s ∈ emitSubcmd (V := V) sub, okS Γ [] s = true := by
  intro s hs
  unfold emitSubcmd at hs
  split at hs
  · rename_i i
    rw [List.mem_singleton] at hs
    subst hs
    rw [okS, tyE, h _ rfl, okB, okB, okS, tyE]
    rfl
  · cases hs

theorem addSub_ty {Γ : Scope} {ls : List Label} {sub : Option (Str × Bool)} (h : ∀ x ∈ sub, Γ x.1 = some .opt) {e : Ex}
    (he : tyE Γ ls e = some .u8) : tyE Γ ls (addSub e sub) = some .u8 := by
  cases sub with
  | none => exact he
  | some x =>
    obtain ⟨i, o⟩ := x
    rw [addSub, tyE, tyE, tyE, tyE, h _ rfl, if_pos ⟨he, rfl⟩]

theorem tyOutput_append {Γ : Scope} (a b : List (Str × Extr)) {xs ys : List (Str × FieldTy)} (ha : tyOutput Γ a = some xs)
    (hb : tyOutput Γ b = some ys) : tyOutput Γ (a ++ b) = some (xs ++ ys) := by
  induction a generalizing xs with
  | nil => rw [tyOutput, Option.some.injEq] at ha; subst ha; exact hb
  | cons x a ih =>
    obtain ⟨x, e⟩ := x
    rw [tyOutput] at ha
    split at ha
    · rename_i t ts h1 h2
      rw [Option.some.injEq] at ha
      subst ha
      rw [List.cons_append, tyOutput, h1, ih h2]
      rfl
    · cases ha

theorem tyOutput_map {Γ : Scope} {α : Type} (x : α → Str) (e : α → Extr) (t : α → FieldTy) : ∀ (l : List α),
    (∀ a ∈ l, tyExtr Γ (x a) (e a) = some (t a)) → tyOutput Γ (l.map (fun a => (x a, e a))) = some (l.map (fun a => (x a, t a))) := by
  intro l
  induction l with
  | nil => intro _; rfl
  | cons a l ih =>
    intro h
    rw [List.map_cons, tyOutput, h a List.mem_cons_self, ih (fun b hb => h b (List.mem_cons_of_mem _ hb))]
    rfl

theorem tyExtr_field {Γ : Scope} {f : FieldInfo V} (h : Γ f.ident = some (.place (placeTy f.initializer))) :
    tyExtr Γ f.ident (extractor f) = some (.arg f.kind) := by
  revert h
  unfold extractor FieldInfo.initializer
  cases f.kind <;> cases f.valueDelimiter <;> intro h <;> simp only [tyExtr, h, placeTy]

theorem runExpr_vars (flats : List Str) (sub : Option (Str × Bool)) :
    (runExpr flats sub).vars = flats.reverse ++ sub.toList.map (·.1) := by
  unfold runExpr
  have : ∀ (l : List Str) (e : RunEx), (l.foldl (fun runParser ident => RunEx.flatten ident runParser) e).vars = l.reverse ++ e.vars := by
    intro l
    induction l with
    | nil => intro e; rfl
    | cons x l ih => intro e; rw [List.foldl_cons, ih, RunEx.vars]; simp
  rw [this, RunEx.vars]
  cases sub <;> rfl

/-- The fields of the output, with their types. -/
def outTypes (fields : List (FieldInfo V)) (flats : List Str) (sub : Option (Str × Bool)) : List (Str × FieldTy) :=
  fields.map (fun f => (f.ident, .arg f.kind)) ++ flats.map (fun i => (i, .inner))
    ++ sub.toList.map (fun x => (x.1, if x.2 then .optional else .inner))

theorem reserved_scope {x : Str} (h : x ∉ reserved) : paramScope x = none := by
  unfold paramScope
  unfold reserved at h
  simp only [List.mem_cons, not_or] at h
  rw [if_neg h.1, if_neg]
  simp only [List.mem_cons, List.not_mem_nil, or_false, not_or]
  exact ⟨h.2.1, h.2.2.1, h.2.2.2.1, h.2.2.2.2.1⟩

theorem tyBody_ok {fields : List (FieldInfo V)} {flats : List Str} {sub : Option (Str × Bool)}
    (hn : (fields.map (·.ident) ++ flats ++ sub.toList.map (·.1)).Nodup)
    (hr : ∀ x ∈ fields.map (·.ident) ++ flats ++ sub.toList.map (·.1), x ∉ reserved)
    (hi : ∀ f ∈ fields, f.attrs.getIndex < 256)
    (hd : ∀ f ∈ fields, ∀ idxs, f.dependenciesIdx = some idxs → ∀ r ∈ f.dependencies.zip idxs, r.1 ∈ fields.map (·.ident) ∧ r.2 < 256)
    (hc : ∀ f ∈ fields, ∀ idxs, f.conflictsIdx = some idxs → ∀ r ∈ f.conflicts.zip idxs, r.1 ∈ fields.map (·.ident) ∧ r.2 < 256)
    (hv : ∀ f ∈ fields, ∀ v shown, f.defaultValue = some (.valueExpr v shown) → defaultTypeOk f.kind v = true) :
    tyBody (emitBody fields flats sub) = some (outTypes fields flats sub) := by
  have hids : ((emitBody fields flats sub).lets).map (·.1) = fields.map (·.ident) ++ flats ++ sub.toList.map (·.1) := by
    simp [emitBody, stateVars, Function.comp_def]
  obtain ⟨Γ, h1, h2, h3⟩ := tyLets_spec (emitBody fields flats sub).lets paramScope (by rw [hids]; exact hn)
    (by rw [hids]; intro x hx; exact reserved_scope (hr x hx))
  rw [hids] at h3
  have hfield : ∀ f ∈ fields, Γ f.ident = some (.place (placeTy f.initializer)) := by
    intro f hf
    exact h2 (f.ident, .place f.initializer) (by
      simp only [emitBody, stateVars, List.map_append, List.map_map, List.mem_append, List.mem_map]
      exact .inl (.inl ⟨f, hf, rfl⟩))
  have hflat : ∀ x ∈ flats, Γ x = some .opt := by
    intro x hx
    exact h2 (x, .none) (by
      simp only [emitBody, stateVars, List.map_append, List.map_map, List.mem_append, List.mem_map]
      exact .inl (.inr ⟨x, hx, rfl⟩))
  have hsub : ∀ x ∈ sub, Γ x.1 = some .opt := by
    intro x hx
    exact h2 (x.1, .none) (by
      simp only [emitBody, stateVars, List.map_append, List.map_map, List.mem_append, List.mem_map]
      exact .inr ⟨x, Option.mem_toList.2 hx, rfl⟩)
  have hres : ∀ x ∈ reserved, Γ x = paramScope x := fun x hx => h3 x (fun h => hr x h hx)
  have hne : ∀ x ∈ fields.map (·.ident) ++ flats ++ sub.toList.map (·.1), ∀ y ∈ reserved, x ≠ y :=
    fun x hx y hy e => hr x hx (e ▸ hy)
  have mf : ∀ f ∈ fields, f.ident ∈ fields.map (·.ident) ++ flats ++ sub.toList.map (·.1) := fun f hf =>
    List.mem_append.2 (.inl (List.mem_append.2 (.inl (List.mem_map_of_mem hf))))
  have ml : ∀ x ∈ flats, x ∈ fields.map (·.ident) ++ flats ++ sub.toList.map (·.1) := fun x hx =>
    List.mem_append.2 (.inl (List.mem_append.2 (.inr hx)))
  have ms : ∀ x ∈ sub, x.1 ∈ fields.map (·.ident) ++ flats ++ sub.toList.map (·.1) := fun x hx =>
    List.mem_append.2 (.inr (List.mem_map_of_mem (Option.mem_toList.2 hx)))
  have r1 : lit "__fields" ∈ reserved := by decide
  have r2 : totalName ∈ reserved := by decide
  have r3 : lit "__out" ∈ reserved := by decide
  have t12 : lit "__fields" ≠ totalName := by decide
  have t13 : lit "__out" ≠ lit "__fields" := by decide
  have t23 : lit "__out" ≠ totalName := by decide
  -- the variables after `__fields` and after `__total_args`
  let Γ1 := Γ.set (lit "__fields") .refs
  let Γ2 := if fields.any (·.exclusive) then Γ1.set totalName .u8 else Γ1
  have k1 : ∀ x, x ≠ lit "__fields" → Γ1 x = Γ x := fun x hx => scope_other _ _ hx
  have k2 : ∀ x, x ≠ lit "__fields" → x ≠ totalName → Γ2 x = Γ x := by
    intro x hx hy
    show (if _ then _ else _ : Scope) x = _
    split
    · rw [scope_other _ _ hy, k1 x hx]
    · exact k1 x hx
  have htot : tyTop Γ1 (emitTotal fields sub) = some Γ2 := by
    unfold emitTotal
    show _ = some (if _ then _ else _)
    by_cases he : fields.any (·.exclusive) = true
    · rw [if_pos he, if_pos he]
      cases hs : sumSet (fields.map (·.ident)) with
      | none =>
        cases fields with
        | nil => cases he
        | cons f fs => cases hs
      | some sum =>
        have hty : tyE Γ1 [] (addSub sum sub) = some .u8 := by
          refine addSub_ty ?_ (sumSet_ty ?_ hs)
          · intro x hx; rw [k1 _ (hne _ (ms x hx) _ r1)]; exact hsub x hx
          · intro x hx
            obtain ⟨f, hf, rfl⟩ := List.mem_map.1 hx
            exact ⟨_, by rw [k1 _ (hne _ (mf f hf) _ r1)]; exact hfield f hf⟩
        have hnone : Γ1 totalName = none := by
          rw [k1 _ t12.symm, hres _ r2]; decide
        dsimp only
        rw [tyTop, hnone, hty]
        rfl
    · rw [if_neg he, if_neg he]; rfl
  have g2 : ∀ f ∈ fields, Γ2 f.ident = some (.place (placeTy f.initializer)) := fun f hf => by
    rw [k2 _ (hne _ (mf f hf) _ r1) (hne _ (mf f hf) _ r2)]; exact hfield f hf
  have gp : ∀ x ∈ fields.map (·.ident), IsPlace Γ2 x := by
    intro x hx
    obtain ⟨f, hf, rfl⟩ := List.mem_map.1 hx
    exact ⟨_, g2 f hf⟩
  have gl : ∀ x ∈ flats, Γ2 x = some .opt := fun x hx => by
    rw [k2 _ (hne _ (ml x hx) _ r1) (hne _ (ml x hx) _ r2)]; exact hflat x hx
  have gs : ∀ x ∈ sub, Γ2 x.1 = some .opt := fun x hx => by
    rw [k2 _ (hne _ (ms x hx) _ r1) (hne _ (ms x hx) _ r2)]; exact hsub x hx
  have gok : ∀ f ∈ fields, FieldOk Γ2 f := by
    intro f hf
    refine ⟨g2 f hf, hi f hf, ?_, ?_, hv f hf, ?_⟩
    · intro idxs h r hr
      have := hd f hf idxs h r hr
      exact ⟨gp _ this.1, this.2⟩
    · intro idxs h r hr
      have := hc f hf idxs h r hr
      exact ⟨gp _ this.1, this.2⟩
    · intro he
      show (if _ then _ else _ : Scope) _ = _
      rw [if_pos (List.any_eq_true.2 ⟨f, hf, he⟩), scope_same]
  have hval : tyTop Γ1 (emitValidate fields flats sub) = some Γ2 := by
    have hrest : tyTop Γ2 (fields.flatMap emitOnSet ++ fields.flatMap emitOnUnset ++ emitSubcmd sub ++ [emitAssert fields flats])
        = some Γ2 := by
      apply tyTop_ok
      intro s hs
      rw [List.mem_append, List.mem_append, List.mem_append, List.mem_flatMap, List.mem_flatMap, List.mem_singleton] at hs
      rcases hs with ((⟨f, hf, hs⟩ | ⟨f, hf, hs⟩) | hs) | hs
      · exact emitOnSet_ok (gok f hf) s hs
      · exact emitOnUnset_ok (gok f hf) s hs
      · exact emitSubcmd_ok gs s hs
      · subst hs
        refine emitAssert_ok (fun f hf => gp _ (List.mem_map_of_mem hf)) gl ?_
        rw [k2 _ t13 t23, hres _ r3]
        rfl
    unfold emitValidate
    rw [List.append_assoc, List.append_assoc, List.append_assoc, ← List.append_assoc, ← List.append_assoc]
    have split : ∀ (a b : List (St V)) (Γ Γ' : Scope), tyTop Γ a = some Γ' → tyTop Γ (a ++ b) = tyTop Γ' b := by
      intro a
      induction a with
      | nil => intro b Γ Γ' h; rw [tyTop, Option.some.injEq] at h; subst h; rfl
      | cons s a ih =>
        intro b Γ Γ' h
        cases s with
        | letE x e =>
          rw [tyTop] at h
          rw [List.cons_append, tyTop]
          split at h
          · rename_i h4 h5
            exact ih b _ _ h
          · cases h
        | _ =>
          rw [tyTop] at h
          · rw [List.cons_append, tyTop]
            · split at h
              · rename_i h4
                rw [if_pos h4]
                exact ih b _ _ h
              · cases h
            · intro x e hx; cases hx
          · intro x e hx; cases hx
    have := split _ (fields.flatMap emitOnSet ++ fields.flatMap emitOnUnset ++ emitSubcmd sub ++ [emitAssert fields flats]) _ _ htot
    rw [hrest] at this
    simpa only [List.append_assoc] using this
  have hout : tyOutput Γ2 (emitBody fields flats sub).output = some (outTypes fields flats sub) := by
    have e : (emitBody fields flats sub).output = fields.map (fun f => (f.ident, extractor f)) ++ flats.map (fun i => (i, Extr.unwrap))
        ++ sub.toList.map (fun x => (x.1, if x.2 then Extr.plain else .unwrap)) := by
      simp [emitBody, stateVars, Function.comp_def]
    rw [e]
    refine tyOutput_append _ _ (tyOutput_append _ _ ?_ ?_) ?_
    · exact tyOutput_map (fun f => f.ident) extractor (fun f => .arg f.kind) fields (fun f hf => tyExtr_field (g2 f hf))
    · refine tyOutput_map id (fun _ => Extr.unwrap) (fun _ => .inner) flats (fun x hx => ?_)
      rw [tyExtr, if_pos]
      exact gl x hx
    · refine tyOutput_map (fun x : Str × Bool => x.1) (fun x => if x.2 then Extr.plain else .unwrap)
        (fun x => if x.2 then .optional else .inner) sub.toList (fun x hx => ?_)
      have := gs x (Option.mem_toList.1 hx)
      cases x.2
      · simp [tyExtr, this]
      · simp [tyExtr, this]
  unfold tyBody
  rw [h1]
  dsimp only
  have hcond : ((Γ (lit "__fields")).isNone && ((emitBody fields flats sub).fieldRefs ++ (emitBody fields flats sub).run.vars).Nodup
        && (emitBody fields flats sub).fieldRefs.all (fun x => isPlaceTy (Γ x))
        && (emitBody fields flats sub).run.vars.all (fun x => Γ x = some .opt)) = true := by
    have ev : (emitBody fields flats sub).run.vars = flats.reverse ++ sub.toList.map (·.1) := runExpr_vars flats sub
    have ef : (emitBody fields flats sub).fieldRefs = fields.map (·.ident) := rfl
    rw [ev, ef]
    simp only [Bool.and_eq_true, decide_eq_true_eq, List.all_eq_true]
    refine ⟨⟨⟨?_, ?_⟩, ?_⟩, ?_⟩
    · rw [hres _ r1]; decide
    · rw [← List.append_assoc]
      refine (List.Perm.nodup_iff ?_).1 hn
      exact ((List.Perm.append_left _ (List.reverse_perm flats).symm)).append_right _
    · intro x hx
      obtain ⟨f, hf, rfl⟩ := List.mem_map.1 hx
      rw [hfield f hf]
      rfl
    · intro x hx
      rcases List.mem_append.1 hx with hx | hx
      · exact hflat x (List.mem_reverse.1 hx)
      · obtain ⟨y, hy, rfl⟩ := List.mem_map.1 hx
        exact hsub y (Option.mem_toList.1 hy)
  rw [if_pos hcond]
  have hval' : tyTop (Γ.set (lit "__fields") .refs) (emitBody fields flats sub).validate = some Γ2 := hval
  rw [hval']
  exact hout

end Palc.Emit
