import Verif.SpecProgram
import Verif.Lemmas.Emit
import Verif.Props.Macros
/-!
# Lemmas about whole programs (C82)
-/

namespace Palc

open Spec

variable {V : Type} {cx : SrcCx V} {env env' base : TyExpr → TyInfo V}

/-! ## One item -/

theorem Expansion.map_ok {α β : Type} {f : α → β} {e : Expansion α} {b : β} : e.map f = .ok b ↔ ∃ a, e = .ok a ∧ f a = b := by
  cases e <;> simp [Expansion.map]

theorem expandItem_iff {x : SrcItem V} {info : TyInfo V} : expandItem cx env x = .ok info ↔ ItemMeans cx env x info := by
  cases x with
  | args n input =>
    rw [expandItem, Expansion.map_ok]
    constructor
    · rintro ⟨d, h, rfl⟩
      obtain ⟨h1, h2, fields, ds, h3, h4, h5⟩ := expandArgs_iff.mp h
      exact .args h1 h2 h3 h4 h5
    · intro h
      cases h with
      | args h1 h2 h3 h4 h5 => exact ⟨_, expandArgs_iff.mpr ⟨h1, h2, _, _, h3, h4, h5⟩, rfl⟩
  | subcommand n input =>
    rw [expandItem, Expansion.map_ok]
    constructor
    · rintro ⟨d, h, rfl⟩
      obtain ⟨h1, variants, xs, h2, h3, h4, rfl⟩ := expandSubcommand_iff.mp h
      exact .subcommand h1 h2 h3 h4
    · intro h
      cases h with
      | subcommand h1 h2 h3 h4 => exact ⟨_, expandSubcommand_iff.mpr ⟨h1, _, _, h2, h3, h4, rfl⟩, rfl⟩
  | valueEnum n attrs variants =>
    rw [expandItem, Expansion.map_ok]
    constructor
    · rintro ⟨d, h, rfl⟩
      obtain ⟨vs, style, xs, rfl, h1, h2, h3, h4⟩ := expandValueEnum_iff.mp h
      exact .valueEnum h1 h2 h3 h4
    · intro h
      cases h with
      | valueEnum h1 h2 h3 h4 => exact ⟨_, expandValueEnum_iff.mpr ⟨_, _, _, rfl, h1, h2, h3, h4⟩, rfl⟩

/-! ## Types that are not mentioned play no role -/

/-- The environments agree, except on types with simple names not in `ns`. -/
structure EnvAgree (ns : List Str) (env env' : TyExpr → TyInfo V) : Prop where
  named : ∀ n ∈ ns, env (typeNamed n) = env' (typeNamed n)
  others : ∀ t, (∀ n, t ≠ typeNamed n) → env t = env' t

theorem EnvAgree.mono {ns ns' : List Str} (h : EnvAgree ns' env env') (hs : ∀ n ∈ ns, n ∈ ns') : EnvAgree ns env env' :=
  ⟨fun n hn => h.named n (hs n hn), h.others⟩

theorem EnvAgree.at {t : TyExpr} (h : EnvAgree (typeNames t) env env') : env t = env' t := by
  by_cases ht : ∃ n, t = typeNamed n
  · obtain ⟨n, rfl⟩ := ht
    exact h.named n (by simp [typeNames, typeNamed])
  · exact h.others t (fun n hn => ht ⟨n, hn⟩)

theorem elabTy_agree (t : TyExpr) (h : EnvAgree (typeNames t) env env') : elabTy env t = elabTy env' t := by
  fun_induction elabTy env t with
  | case1 => rw [elabTy]; simp
  | case2 i hi => rw [elabTy, if_neg hi, h.at]
  | case3 a ih => rw [elabTy, if_pos rfl, ih (by simpa [typeNames] using h)]
  | case4 a h1 ih => rw [elabTy, if_neg h1, if_pos rfl, ih (by simpa [typeNames] using h)]
  | case5 i a h1 h2 => rw [elabTy, if_neg h1, if_neg h2, h.at]
  | case6 t h1 h2 =>
    rw [elabTy]
    · rw [h.at]
    · exact h1
    · exact h2

theorem fieldMeans_agree {f : SrcField V} {x : FieldDecl V} (h : EnvAgree (typeNames f.ty) env env') (hf : FieldMeans env f x) :
    FieldMeans env' f x := by
  cases hf with
  | arg hc => rw [elabTy_agree _ h]; exact .arg hc
  | flatten hc hd => exact .flatten hc (by rw [← h.at]; exact hd)
  | @subOptional t vs hc ht hv =>
    refine .subOptional hc ht ?_
    rw [ht] at h
    simp only [optionOf, typeNames] at h
    rw [← h.at]
    exact hv
  | sub hc ht hv => exact .sub hc ht (by rw [← h.at]; exact hv)

theorem each_imp_mem {α β : Type} {R S : α → β → Prop} {as : List α} {bs : List β} (h : Each R as bs)
    (hi : ∀ a ∈ as, ∀ b, R a b → S a b) : Each S as bs := by
  induction h with
  | nil => exact .nil
  | cons h _ ih => exact .cons (hi _ (by simp) _ h) (ih (fun a ha => hi a (by simp [ha])))

theorem fieldsMean_agree {fields : List (SrcField V)} {ds : List (FieldDecl V)} (h : EnvAgree (fieldTypeNames fields) env env')
    (hf : FieldsMean cx env fields ds) : FieldsMean cx env' fields ds :=
  ⟨hf.attrs, each_imp_mem hf.each (fun f hf _ => fieldMeans_agree (h.mono (fun n hn => by
    rw [fieldTypeNames, List.mem_flatMap]
    exact ⟨f, hf, hn⟩)))⟩

theorem itemMeans_agree {x : SrcItem V} {info : TyInfo V} (h : EnvAgree (SrcItem.mentions x) env env') (hx : ItemMeans cx env x info) :
    ItemMeans cx env' x info := by
  cases hx with
  | args hg ha hdata hf hd =>
    refine .args hg ha hdata (fieldsMean_agree ?_ hf) hd
    simpa only [SrcItem.mentions, hdata] using h
  | @subcommand n input variants xs hg hdata ha hv =>
    refine .subcommand hg hdata ha (each_imp_mem hv (fun v hmem y hy => ?_))
    simp only [SrcItem.mentions, hdata] at h
    have h : EnvAgree (match v.fields with
      | .unit => []
      | .tuple tys => tys.flatMap typeNames
      | .named fields => fieldTypeNames fields) env env' := h.mono (fun n hn => List.mem_flatMap.mpr ⟨v, hmem, hn⟩)
    cases hy with
    | unit h0 => exact .unit h0
    | newtype h0 hd hc hdoc =>
      refine .newtype h0 ?_ hc hdoc
      rw [h0] at h
      rw [← EnvAgree.at (h.mono (fun n hn => by simpa using hn))]
      exact hd
    | struct h0 hf hd =>
      refine .struct h0 (fieldsMean_agree ?_ hf) hd
      rw [h0] at h
      exact h
  | valueEnum h1 h2 h3 h4 => exact .valueEnum h1 h2 h3 h4

/-! ## All items -/

theorem define_same (n : Str) (info : TyInfo V) : define env n info (typeNamed n) = info := by
  simp [define, typeNamed]

theorem define_other {n : Str} {info : TyInfo V} {t : TyExpr} (h : t ≠ typeNamed n) : define env n info t = env t := by
  unfold define
  split
  · rename_i i
    rw [if_neg]
    rintro rfl
    exact h rfl
  · rfl

theorem typeNamed_inj {n m : Str} : typeNamed n = typeNamed m ↔ n = m := by simp [typeNamed]

theorem compile_iff {items : List (SrcItem V)} (ho : InOrder items) :
    compile cx base items = .ok env ↔ CrateMeans cx base items env := by
  induction ho generalizing base with
  | nil =>
    rw [compile]
    constructor
    · rintro ⟨⟩
      exact ⟨by simp, fun _ _ => rfl⟩
    · intro h
      rw [show base = env from funext (fun t => (h.others t (by simp)).symm)]
  | @cons x xs self later _ ih =>
    have agree : ∀ info, CrateMeans cx (define base x.name info) xs env → EnvAgree (SrcItem.mentions x) base env := by
      intro info h
      constructor
      · intro n hn
        rw [h.others, define_other]
        · intro e
          rw [typeNamed_inj] at e
          exact self (e ▸ hn)
        · intro y hy e
          rw [typeNamed_inj] at e
          exact (later y hy).1 (e ▸ hn)
      · intro t ht
        rw [h.others t (fun y _ => ht _), define_other (ht _)]
    rw [compile]
    constructor
    · intro h
      split at h
      · rename_i info he
        have h := ih.mp h
        have hx : env (typeNamed x.name) = info := by
          rw [h.others, define_same]
          intro y hy e
          exact (later y hy).2 (typeNamed_inj.mp e).symm
        refine ⟨fun y hy => ?_, fun t ht => ?_⟩
        · rcases List.mem_cons.mp hy with rfl | hy
          · rw [hx]
            exact itemMeans_agree (agree info h) (expandItem_iff.mp he)
          · exact h.each y hy
        · rw [h.others t (fun y hy => ht y (List.mem_cons_of_mem _ hy)), define_other (ht x List.mem_cons_self)]
      · cases h
      · cases h
    · intro h
      have h' : CrateMeans cx (define base x.name (env (typeNamed x.name))) xs env := by
        refine ⟨fun y hy => h.each y (List.mem_cons_of_mem _ hy), fun t ht => ?_⟩
        by_cases e : t = typeNamed x.name
        · rw [e, define_same]
        · rw [define_other e]
          refine h.others t (fun y hy => ?_)
          rcases List.mem_cons.mp hy with rfl | hy
          · exact e
          · exact ht y hy
      have ha := agree _ h'
      have he : expandItem cx base x = .ok (env (typeNamed x.name)) :=
        expandItem_iff.mpr (itemMeans_agree ⟨fun n hn => (ha.named n hn).symm, fun t ht => (ha.others t ht).symm⟩
          (h.each x List.mem_cons_self))
      rw [he]
      exact ih.mpr h'

/-! ## Invariants -/

open Emit (NoReserved NoReservedFlats NoReservedSub NoReservedVariants NoReservedVariant stateIdents reserved flatIdents subIdent)

/-- No type has fields with reserved names. -/
structure EnvFree (env : TyExpr → TyInfo V) : Prop where
  args : ∀ t d, (env t).args = some d → NoReserved d
  sub : ∀ t vs, (env t).sub = some vs → NoReservedVariants vs

theorem derive_idents {cx : Cx V} {cmeta : Option CommandMeta} {ds : List (FieldDecl V)} {core : Core V} {flats : Flats V}
    {sub : SubField V} (h : deriveArgs cx cmeta ds = .ok (.mk core flats sub)) : (stateIdents core flats sub).Perm (ds.map (·.ident)) := by
  have acc := deriveArgs_ok h
  have h1 : (core.fields.map (·.ident)).Perm ((declFields cx ds).map (·.ident)) :=
    fields_perm h (·.ident) (fun _ _ => rfl)
  have h2 : flatIdents flats = (ds.filterMap declFlat).map (·.1) := by rw [acc.flatsEq, Emit.flatIdents_ofList]
  have h3 : (subIdent sub).toList.map (·.1) = (ds.filterMap declSub).map (·.1) := by
    rw [← acc.subEq]
    cases sub <;> rfl
  unfold stateIdents
  rw [h2, h3]
  exact ((h1.append_right _).append_right _).trans (Emit.idents_split cx ds)

theorem fieldMeans_ident {f : SrcField V} {x : FieldDecl V} (h : FieldMeans env f x) : x.ident = f.ident := by cases h <;> rfl

theorem free_ofList {l : List (Str × ArgsDef V)} (h : ∀ x ∈ l, NoReserved x.2) : NoReservedFlats (Flats.ofList l) := by
  induction l with
  | nil => rw [Flats.ofList, NoReservedFlats]; trivial
  | cons x l ih =>
    rw [Flats.ofList, NoReservedFlats]
    exact ⟨h _ List.mem_cons_self, ih (fun y hy => h y (List.mem_cons_of_mem _ hy))⟩

theorem free_deriveSub {cx : Cx V} {l : List (VariantDecl V)} (h : ∀ i d, VariantDecl.args i d ∈ l → NoReserved d) :
    NoReservedVariants (deriveSub cx l) := by
  induction l with
  | nil => rw [deriveSub, NoReservedVariants]; trivial
  | cons x l ih =>
    have ih := ih (fun i d hd => h i d (List.mem_cons_of_mem _ hd))
    cases x with
    | unit i c => rw [deriveSub, NoReservedVariants, NoReservedVariant]; exact ⟨trivial, ih⟩
    | args i d => rw [deriveSub, NoReservedVariants, NoReservedVariant]; exact ⟨h i d List.mem_cons_self, ih⟩

theorem fields_free {fields : List (SrcField V)} {ds : List (FieldDecl V)} {cmeta : Option CommandMeta} {d : ArgsDef V}
    (henv : EnvFree env) (hf : FieldsMean cx env fields ds) (hd : deriveArgs cx.toCx cmeta ds = .ok d)
    (hr : ∀ f ∈ fields, f.ident ∉ reserved) : NoReserved d := by
  obtain ⟨core, flats, sub⟩ := d
  have acc := deriveArgs_ok hd
  rw [NoReserved]
  refine ⟨?_, ?_, ?_⟩
  · intro x hx
    obtain ⟨y, hy, rfl⟩ := List.mem_map.mp ((derive_idents hd).subset hx)
    obtain ⟨f, hfm, hm⟩ := hf.each.right hy
    rw [fieldMeans_ident hm]
    exact hr f hfm
  · rw [acc.flatsEq]
    refine free_ofList ?_
    intro x hx
    obtain ⟨y, hy, hyx⟩ := List.mem_filterMap.mp hx
    cases y with
    | flatten i d =>
      simp only [declFlat, Option.some.injEq] at hyx
      subst hyx
      obtain ⟨f, -, hm⟩ := hf.each.right hy
      cases hm with
      | flatten _ h => exact henv.args _ _ h
    | arg => simp [declFlat] at hyx
    | subcommand => simp [declFlat] at hyx
  · have := acc.subEq
    cases sub with
    | none => rw [NoReservedSub]; trivial
    | some i o vs =>
      rw [NoReservedSub]
      have hm : (i, o, vs) ∈ ds.filterMap declSub := by rw [← this]; simp [subToList]
      obtain ⟨y, hy, hyx⟩ := List.mem_filterMap.mp hm
      cases y with
      | subcommand i' o' vs' =>
        simp only [declSub, Option.some.injEq, Prod.mk.injEq] at hyx
        obtain ⟨rfl, rfl, rfl⟩ := hyx
        obtain ⟨f, -, hm⟩ := hf.each.right hy
        cases hm with
        | subOptional _ _ h => exact henv.sub _ _ h
        | sub _ _ h => exact henv.sub _ _ h
      | arg => simp [declSub] at hyx
      | flatten => simp [declSub] at hyx

theorem define_prop {P : TyInfo V → Prop} {n : Str} {info : TyInfo V} (henv : ∀ t, P (env t)) (h : P info) (t : TyExpr) :
    P (define env n info t) := by
  by_cases e : t = typeNamed n
  · rw [e, define_same]; exact h
  · rw [define_other e]; exact henv t

/-- An invariant of all types. -/
theorem compile_inv {P : TyInfo V → Prop} {items : List (SrcItem V)} (hbase : ∀ t, P (base t))
    (hstep : ∀ (env : TyExpr → TyInfo V) x info, (∀ t, P (env t)) → x ∈ items → ItemMeans cx env x info → P info)
    (h : compile cx base items = .ok env) (t : TyExpr) : P (env t) := by
  induction items generalizing base with
  | nil => rw [compile] at h; cases h; exact hbase t
  | cons x xs ih =>
    rw [compile] at h
    split at h
    · rename_i info he
      exact ih (define_prop hbase (hstep _ x info hbase List.mem_cons_self (expandItem_iff.mp he)))
        (fun env y i h1 h2 => hstep env y i h1 (List.mem_cons_of_mem _ h2)) h
    · cases h
    · cases h

theorem compile_derived {items : List (SrcItem V)} (hbase : ∀ t, (base t).args = none ∧ (base t).sub = none)
    (h : compile cx base items = .ok env) : EnvDerived cx.toCx env := by
  have := compile_inv (P := fun i => (∀ d, i.args = some d → DerivedArgs cx.toCx d) ∧ (∀ vs, i.sub = some vs → DerivedVariants cx.toCx vs))
    (fun t => by rw [(hbase t).1, (hbase t).2]; simp) (fun env x info henv _ hx => by
      have henv : EnvDerived cx.toCx env := ⟨fun t => (henv t).1, fun t => (henv t).2⟩
      cases hx with
      | args hg ha hdata hf hd => exact ⟨fun d h => by cases h; exact fieldsDerived henv hf hd, by simp⟩
      | subcommand hg hdata ha hv =>
        exact ⟨by simp, fun vs h => by cases h; exact C56_derived henv (expandSubcommand_iff.mpr ⟨hg, _, _, hdata, ha, hv, rfl⟩)⟩
      | valueEnum => simp) h
  exact ⟨fun t => (this t).1, fun t => (this t).2⟩

theorem compile_free {items : List (SrcItem V)} (hbase : ∀ t, (base t).args = none ∧ (base t).sub = none)
    (h : compile cx base items = .ok env) (hr : ∀ x ∈ items, ∀ i ∈ SrcItem.fieldIdents x, i ∉ reserved) : EnvFree env := by
  have := compile_inv (P := fun i => (∀ d, i.args = some d → NoReserved d) ∧ (∀ vs, i.sub = some vs → NoReservedVariants vs))
    (fun t => by rw [(hbase t).1, (hbase t).2]; simp) (fun env x info henv hmem hx => by
      have henv : EnvFree env := ⟨fun t => (henv t).1, fun t => (henv t).2⟩
      have hr := hr x hmem
      cases hx with
      | args hg ha hdata hf hd =>
        simp only [SrcItem.fieldIdents, hdata, List.mem_map] at hr
        exact ⟨fun d h => by cases h; exact fields_free henv hf hd (fun f hf => hr _ ⟨f, hf, rfl⟩), by simp⟩
      | subcommand hg hdata ha hv =>
        simp only [SrcItem.fieldIdents, hdata, List.mem_flatMap] at hr
        refine ⟨by simp, fun vs h => ?_⟩
        cases h
        refine free_deriveSub (fun i d hd => ?_)
        obtain ⟨v, hvm, hm⟩ := hv.right hd
        cases hm with
        | newtype _ hd => exact henv.args _ _ hd
        | struct h0 hf hd =>
          refine fields_free henv hf hd (fun f hfm => hr _ ⟨v, hvm, ?_⟩)
          rw [h0]
          exact List.mem_map.mpr ⟨f, hfm, rfl⟩
      | valueEnum => simp) h
  exact ⟨fun t => (this t).1, fun t => (this t).2⟩

end Palc
