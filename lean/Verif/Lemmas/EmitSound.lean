import Verif.EmitFaults
/-!
# Soundness of the type checker for emitted code
-/

namespace Palc.Emit

variable {V : Type} {info : ArgsInfo} {Γ : Scope} {env : Env V} {ls : List Label}

/-- What may happen when an expression of a type is evaluated. -/
def EvalOk (info : ArgsInfo) (env : Env V) (ls : List Label) (e : Ex) (t : RTy) : Prop :=
  (∃ v, evalE info env e = .ok v ∧ HasTy v t) ∨ (∃ l ∈ ls, evalE info env e = .error (.brk l))
    ∨ (evalE info env e = .error (.fail .panic) ∧ Overflows info env e)

theorem HasTy.place_inv {v : Val V} {k : PlaceTy} (h : HasTy v (.place k)) : ∃ p, v = .place p ∧ placeTy p = k := by
  cases v <;> simp_all [HasTy]

theorem HasTy.bool_inv {v : Val V} (h : HasTy v .bool) : ∃ b, v = .bool b := by
  cases v <;> simp_all [HasTy]

theorem HasTy.present_inv {v : Val V} (h : HasTy v .present) : ∃ b, v = .present b := by
  cases v <;> simp_all [HasTy]

theorem HasTy.opt_inv {v : Val V} (h : HasTy v .opt) : ∃ o, v = .opt o ∧ ∀ out, o = some out → OutTy out .inner := by
  cases v <;> simp_all [HasTy]

theorem HasTy.u8_inv {v : Val V} (h : HasTy v .u8) : ∃ n, v = .u8 n ∧ n < 256 := by
  cases v <;> simp_all [HasTy]

theorem HasTy.err_inv {v : Val V} (h : HasTy v .err) : ∃ e, v = .err e := by
  cases v <;> simp_all [HasTy]

theorem HasTy.never_inv {v : Val V} (h : HasTy v .never) : False := by
  cases v <;> simp_all [HasTy]

theorem HasTy.param_inv {v : Val V} (h : HasTy v .param) : False := by
  cases v <;> simp_all [HasTy]

theorem joinTy_left {v : Val V} {a b t : RTy} (h : joinTy a b = some t) (hv : HasTy v a) : HasTy v t := by
  unfold joinTy at h
  split at h
  · rename_i ha; subst ha; exact hv.never_inv.elim
  · split at h
    · cases h; exact hv
    · split at h
      · cases h; exact hv
      · cases h

theorem joinTy_right {v : Val V} {a b t : RTy} (h : joinTy a b = some t) (hv : HasTy v b) : HasTy v t := by
  unfold joinTy at h
  split at h
  · cases h; exact hv
  · split at h
    · rename_i hb; subst hb; exact hv.never_inv.elim
    · split at h
      · rename_i hab; cases h; rw [hab]; exact hv
      · cases h

theorem fits_has {v : Val V} {a b : RTy} (h : fits a b = true) (hv : HasTy v a) : HasTy v b := by
  unfold fits at h
  simp only [Bool.or_eq_true, decide_eq_true_eq] at h
  rcases h with h | h
  · subst h; exact hv.never_inv.elim
  · rw [← h]; exact hv

theorem callErr_ok (info : ArgsInfo) {f : ErrFn} {idxs : List Nat} (h : arity f = idxs.length) : ∃ e, callErr info f idxs = some e := by
  cases f <;> simp only [arity] at h
  · obtain ⟨a, rfl⟩ := List.length_eq_one_iff.1 h.symm; exact ⟨_, rfl⟩
  · rw [List.length_eq_zero_iff.1 h.symm]; exact ⟨_, rfl⟩
  · obtain ⟨a, rfl⟩ := List.length_eq_one_iff.1 h.symm; exact ⟨_, rfl⟩
  · match idxs, h with
    | [a, b], _ => exact ⟨_, rfl⟩
  · match idxs, h with
    | [a, b], _ => exact ⟨_, rfl⟩

theorem EnvOk.get (h : EnvOk Γ env) {x : Str} {t : RTy} (hx : Γ x = some t) (ht : t ≠ .param) :
    ∃ v, env x = some v ∧ HasTy v t := by
  have := h x
  rw [hx] at this
  cases t <;> first | exact this | exact absurd rfl ht

theorem EnvOk.none (h : EnvOk Γ env) {x : Str} (hx : Γ x = none) : env x = none := by
  have := h x
  rw [hx] at this
  exact this

theorem EnvOk.set (h : EnvOk Γ env) {x : Str} {t : RTy} {v : Val V} (hv : HasTy v t) : EnvOk (Γ.set x t) (env.set x v) := by
  intro y
  unfold Scope.set Env.set
  by_cases hy : y = x
  · rw [if_pos hy, if_pos hy]
    cases t <;> first | exact ⟨v, rfl, hv⟩ | exact hv.param_inv.elim
  · rw [if_neg hy, if_neg hy]
    exact h y

/-- A variable keeps its type when it is overwritten. -/
theorem EnvOk.update (h : EnvOk Γ env) {x : Str} {t : RTy} {v : Val V} (hx : Γ x = some t) (hv : HasTy v t) :
    EnvOk Γ (env.set x v) := by
  intro y
  unfold Env.set
  by_cases hy : y = x
  · rw [if_pos hy, hy, hx]
    cases t <;> first | exact ⟨v, rfl, hv⟩ | exact hv.param_inv.elim
  · rw [if_neg hy]
    exact h y

/-- Progress and preservation for expressions. -/
theorem tyE_sound (h : EnvOk Γ env) : ∀ (e : Ex) (t : RTy), tyE Γ ls e = some t → EvalOk info env ls e t := by
  intro e
  induction e with
  | var x =>
    intro t ht
    rw [tyE] at ht
    split at ht
    · cases ht
    · rename_i hp
      have hn : t ≠ .param := by intro hc; exact hp (by rw [ht, hc])
      obtain ⟨v, hv, hty⟩ := h.get ht hn
      exact .inl ⟨v, by rw [evalE, hv], hty⟩
  | dot0 e ih =>
    intro t ht
    rw [tyE] at ht
    split at ht
    · rename_i k he
      cases ht
      rcases ih _ he with ⟨v, hv, hty⟩ | ⟨l, hl, hv⟩ | ⟨hv, ho⟩
      · obtain ⟨p, rfl, _⟩ := hty.place_inv
        exact .inl ⟨_, by rw [evalE, hv], by exact rfl⟩
      · exact .inr (.inl ⟨l, hl, by rw [evalE, hv]⟩)
      · exact .inr (.inr ⟨by rw [evalE, hv], .dot0 ho⟩)
    · cases ht
  | isSome e ih =>
    intro t ht
    rw [tyE] at ht
    split at ht
    all_goals try cases ht
    all_goals
      rename_i he
      rcases ih _ he with ⟨v, hv, hty⟩ | ⟨l, hl, hv⟩ | ⟨hv, ho⟩
      · first
          | (obtain ⟨b, rfl⟩ := hty.present_inv; exact .inl ⟨_, by rw [evalE, hv], by exact rfl⟩)
          | (obtain ⟨o, rfl, _⟩ := hty.opt_inv; exact .inl ⟨_, by rw [evalE, hv], by exact rfl⟩)
      · exact .inr (.inl ⟨l, hl, by rw [evalE, hv]⟩)
      · exact .inr (.inr ⟨by rw [evalE, hv], .isSome ho⟩)
  | isNone e ih =>
    intro t ht
    rw [tyE] at ht
    split at ht
    all_goals try cases ht
    all_goals
      rename_i he
      rcases ih _ he with ⟨v, hv, hty⟩ | ⟨l, hl, hv⟩ | ⟨hv, ho⟩
      · first
          | (obtain ⟨b, rfl⟩ := hty.present_inv; exact .inl ⟨_, by rw [evalE, hv], by exact rfl⟩)
          | (obtain ⟨o, rfl, _⟩ := hty.opt_inv; exact .inl ⟨_, by rw [evalE, hv], by exact rfl⟩)
      · exact .inr (.inl ⟨l, hl, by rw [evalE, hv]⟩)
      · exact .inr (.inr ⟨by rw [evalE, hv], .isNone ho⟩)
  | asU8 e ih =>
    intro t ht
    rw [tyE] at ht
    split at ht
    · rename_i he
      cases ht
      rcases ih _ he with ⟨v, hv, hty⟩ | ⟨l, hl, hv⟩ | ⟨hv, ho⟩
      · obtain ⟨b, rfl⟩ := hty.bool_inv
        exact .inl ⟨.u8 (if b then 1 else 0), by rw [evalE, hv], rfl, by split <;> omega⟩
      · exact .inr (.inl ⟨l, hl, by rw [evalE, hv]⟩)
      · exact .inr (.inr ⟨by rw [evalE, hv], .asU8 ho⟩)
    · cases ht
  | add a b iha ihb =>
    intro t ht
    rw [tyE] at ht
    split at ht
    · rename_i he
      cases ht
      rcases iha _ he.1 with ⟨v, hv, hty⟩ | ⟨l, hl, hv⟩ | ⟨hv, ho⟩
      · obtain ⟨m, rfl, hm⟩ := hty.u8_inv
        rcases ihb _ he.2 with ⟨w, hw, hty⟩ | ⟨l, hl, hw⟩ | ⟨hw, ho⟩
        · obtain ⟨n, rfl, hn⟩ := hty.u8_inv
          by_cases hs : m + n < 256
          · exact .inl ⟨.u8 (m + n), by rw [evalE, hv, hw]; simp only [hs, if_true], rfl, hs⟩
          · exact .inr (.inr ⟨by rw [evalE, hv, hw]; simp only [hs, if_false, stuck], .here hv hw (by omega)⟩)
        · exact .inr (.inl ⟨l, hl, by rw [evalE, hv, hw]⟩)
        · exact .inr (.inr ⟨by rw [evalE, hv, hw], .add2 ho⟩)
      · exact .inr (.inl ⟨l, hl, by rw [evalE, hv]⟩)
      · exact .inr (.inr ⟨by rw [evalE, hv], .add1 ho⟩)
    · cases ht
  | gt a b iha ihb =>
    intro t ht
    rw [tyE] at ht
    split at ht
    · rename_i he
      cases ht
      rcases iha _ he.1 with ⟨v, hv, hty⟩ | ⟨l, hl, hv⟩ | ⟨hv, ho⟩
      · obtain ⟨m, rfl, hm⟩ := hty.u8_inv
        rcases ihb _ he.2 with ⟨w, hw, hty⟩ | ⟨l, hl, hw⟩ | ⟨hw, ho⟩
        · obtain ⟨n, rfl, hn⟩ := hty.u8_inv
          exact .inl ⟨_, by rw [evalE, hv, hw], by exact rfl⟩
        · exact .inr (.inl ⟨l, hl, by rw [evalE, hv, hw]⟩)
        · exact .inr (.inr ⟨by rw [evalE, hv, hw], .gt2 ho⟩)
      · exact .inr (.inl ⟨l, hl, by rw [evalE, hv]⟩)
      · exact .inr (.inr ⟨by rw [evalE, hv], .gt1 ho⟩)
    · cases ht
  | or a b iha ihb =>
    intro t ht
    rw [tyE] at ht
    split at ht
    · rename_i he
      cases ht
      rcases iha _ he.1 with ⟨v, hv, hty⟩ | ⟨l, hl, hv⟩ | ⟨hv, ho⟩
      · obtain ⟨m, rfl⟩ := hty.bool_inv
        cases m with
        | true => exact .inl ⟨.bool true, by rw [evalE, hv], rfl⟩
        | false =>
          rcases ihb _ he.2 with ⟨w, hw, hty⟩ | ⟨l, hl, hw⟩ | ⟨hw, ho⟩
          · obtain ⟨n, rfl⟩ := hty.bool_inv
            exact .inl ⟨.bool n, by rw [evalE, hv]; simp only [hw], rfl⟩
          · exact .inr (.inl ⟨l, hl, by rw [evalE, hv]; simp only [hw]⟩)
          · exact .inr (.inr ⟨by rw [evalE, hv]; simp only [hw], .or2 ho⟩)
      · exact .inr (.inl ⟨l, hl, by rw [evalE, hv]⟩)
      · exact .inr (.inr ⟨by rw [evalE, hv], .or1 ho⟩)
    · cases ht
  | u8 n =>
    intro t ht
    rw [tyE] at ht
    split at ht
    · rename_i hn
      cases ht
      exact .inl ⟨.u8 n, by rw [evalE], rfl, hn⟩
    · cases ht
  | ite c a b ihc iha ihb =>
    intro t ht
    rw [tyE] at ht
    split at ht
    · rename_i he
      split at ht
      · rename_i s1 s2 h1 h2
        rcases ihc _ he with ⟨v, hv, hty⟩ | ⟨l, hl, hv⟩ | ⟨hv, ho⟩
        · obtain ⟨m, rfl⟩ := hty.bool_inv
          cases m with
          | true =>
            have heq : evalE info env (.ite c a b) = evalE info env a := by rw [evalE, hv]
            rcases iha _ h1 with ⟨w, hw, hty⟩ | ⟨l, hl, hw⟩ | ⟨hw, ho⟩
            · exact .inl ⟨w, by rw [heq, hw], joinTy_left ht hty⟩
            · exact .inr (.inl ⟨l, hl, by rw [heq, hw]⟩)
            · exact .inr (.inr ⟨by rw [heq, hw], .yes ho⟩)
          | false =>
            have heq : evalE info env (.ite c a b) = evalE info env b := by rw [evalE, hv]
            rcases ihb _ h2 with ⟨w, hw, hty⟩ | ⟨l, hl, hw⟩ | ⟨hw, ho⟩
            · exact .inl ⟨w, by rw [heq, hw], joinTy_right ht hty⟩
            · exact .inr (.inl ⟨l, hl, by rw [heq, hw]⟩)
            · exact .inr (.inr ⟨by rw [heq, hw], .no ho⟩)
        · exact .inr (.inl ⟨l, hl, by rw [evalE, hv]⟩)
        · exact .inr (.inr ⟨by rw [evalE, hv], .cond ho⟩)
      · cases ht
    · cases ht
  | brk l =>
    intro t ht
    rw [tyE] at ht
    split at ht
    · rename_i hl
      exact .inr (.inl ⟨l, hl, by rw [evalE]⟩)
    · cases ht
  | call0 f =>
    intro t ht
    rw [tyE] at ht
    split at ht
    · rename_i ha
      cases ht
      obtain ⟨e, he⟩ := callErr_ok info (idxs := []) ha
      exact .inl ⟨.err e, by rw [evalE, he], rfl⟩
    · cases ht
  | call1 f a iha =>
    intro t ht
    rw [tyE] at ht
    split at ht
    · rename_i s hs
      split at ht
      · rename_i hc
        cases ht
        rcases iha _ hs with ⟨v, hv, hty⟩ | ⟨l, hl, hv⟩ | ⟨hv, ho⟩
        · obtain ⟨n, rfl, _⟩ := (fits_has hc.2 hty).u8_inv
          obtain ⟨e, he⟩ := callErr_ok info (idxs := [n]) hc.1
          exact .inl ⟨.err e, by rw [evalE, hv]; simp only [he], rfl⟩
        · exact .inr (.inl ⟨l, hl, by rw [evalE, hv]⟩)
        · exact .inr (.inr ⟨by rw [evalE, hv], .call1 ho⟩)
      · cases ht
    · cases ht
  | call2 f a b iha ihb =>
    intro t ht
    rw [tyE] at ht
    split at ht
    · rename_i s1 s2 h1 h2
      split at ht
      · rename_i hc
        cases ht
        rcases iha _ h1 with ⟨v, hv, hty⟩ | ⟨l, hl, hv⟩ | ⟨hv, ho⟩
        · obtain ⟨m, rfl, _⟩ := (fits_has hc.2.1 hty).u8_inv
          rcases ihb _ h2 with ⟨w, hw, hty⟩ | ⟨l, hl, hw⟩ | ⟨hw, ho⟩
          · obtain ⟨n, rfl, _⟩ := (fits_has hc.2.2 hty).u8_inv
            obtain ⟨e, he⟩ := callErr_ok info (idxs := [m, n]) hc.1
            exact .inl ⟨.err e, by rw [evalE, hv]; simp only [hw, he], rfl⟩
          · exact .inr (.inl ⟨l, hl, by rw [evalE, hv]; simp only [hw]⟩)
          · exact .inr (.inr ⟨by rw [evalE, hv]; simp only [hw], .snd ho⟩)
        · exact .inr (.inl ⟨l, hl, by rw [evalE, hv]⟩)
        · exact .inr (.inr ⟨by rw [evalE, hv], .fst ho⟩)
      · cases ht
    · cases ht

theorem placeTy_setDefault {p : Place V} {v : DefaultOut V} (h : defaultFits (placeTy p) v = true) :
    ∃ p', p.setDefault v = .ok p' ∧ placeTy p' = placeTy p := by
  cases p <;> cases v <;> simp only [placeTy, defaultFits, Bool.false_eq_true] at h <;> exact ⟨_, rfl, rfl⟩

theorem placeTy_parseFrom {p p' : Place V} {o : Option Bytes} (h : p.parseFrom o = .ok p') : placeTy p' = placeTy p := by
  unfold Place.parseFrom at h
  repeat' split at h
  all_goals first | cases h; rfl | cases h

theorem placeTy_setDefaultParse {p p' : Place V} {s : Str} (h : p.setDefaultParse s = .ok p') : placeTy p' = placeTy p := by
  unfold Place.setDefaultParse at h
  split at h
  · cases h; rfl
  · split at h
    · rename_i q hq
      cases h
      exact placeTy_parseFrom hq
    · cases h

/-- What may happen when statements are executed. -/
def ExecOk (Γ : Scope) (ls : List Label) (r : Except Stop (Env V)) (stops : Fail → Prop) : Prop :=
  (∃ env', r = .ok env' ∧ EnvOk Γ env') ∨ (∃ l ∈ ls, r = .error (.brk l)) ∨ (∃ f, r = .error (.fail f) ∧ stops f)

theorem ExecOk.inside {stops stops' : Fail → Prop} {r : Except Stop (Env V)} (h : ExecOk Γ ls r stops)
    (hs : ∀ f, stops f → stops' f) : ExecOk Γ ls r stops' := by
  rcases h with h | h | ⟨f, h1, h2⟩
  · exact .inl h
  · exact .inr (.inl h)
  · exact .inr (.inr ⟨f, h1, hs f h2⟩)

mutual
theorem okS_sound (info : ArgsInfo) : ∀ (s : St V) (ls : List Label) (env : Env V), EnvOk Γ env → okS Γ ls s = true →
    ExecOk Γ ls (execS info env s) (Stops info env s)
  | .letE x e, ls, env, h, ht => by rw [okS] at ht; cases ht
  | .ifE c body, ls, env, h, ht => by
    rw [okS, Bool.and_eq_true, decide_eq_true_eq] at ht
    rw [execS]
    rcases tyE_sound (info := info) h c .bool ht.1 with ⟨v, hv, hty⟩ | ⟨l, hl, hv⟩ | ⟨hv, ho⟩
    · obtain ⟨b, rfl⟩ := hty.bool_inv
      rw [hv]
      cases b with
      | true => exact (okB_sound info body ls env h ht.2).inside (fun f hf => .inside hf)
      | false => exact .inl ⟨env, rfl, h⟩
    · rw [hv]; exact .inr (.inl ⟨l, hl, rfl⟩)
    · rw [hv]; exact .inr (.inr ⟨.panic, rfl, .overflow rfl ho⟩)
  | .ifLetSome e body, ls, env, h, ht => by
    rw [okS, Bool.and_eq_true] at ht
    obtain ⟨he, hb⟩ := ht
    have hin := (okB_sound info body ls env h hb).inside (stops' := Stops info env (.ifLetSome e body)) (fun f hf => .inside hf)
    rw [execS]
    split at he
    · rename_i hte
      rcases tyE_sound (info := info) h e _ hte with ⟨v, hv, hty⟩ | ⟨l, hl, hv⟩ | ⟨hv, ho⟩
      · obtain ⟨b, rfl⟩ := hty.present_inv
        rw [hv]
        cases b with
        | true => exact hin
        | false => exact .inl ⟨env, rfl, h⟩
      · rw [hv]; exact .inr (.inl ⟨l, hl, rfl⟩)
      · rw [hv]; exact .inr (.inr ⟨.panic, rfl, .overflow rfl ho⟩)
    · rename_i hte
      rcases tyE_sound (info := info) h e _ hte with ⟨v, hv, hty⟩ | ⟨l, hl, hv⟩ | ⟨hv, ho⟩
      · obtain ⟨o, rfl, _⟩ := hty.opt_inv
        rw [hv]
        cases o with
        | some _ => exact hin
        | none => exact .inl ⟨env, rfl, h⟩
      · rw [hv]; exact .inr (.inl ⟨l, hl, rfl⟩)
      · rw [hv]; exact .inr (.inr ⟨.panic, rfl, .overflow rfl ho⟩)
    · cases he
  | .ifLetNone e body, ls, env, h, ht => by
    rw [okS, Bool.and_eq_true] at ht
    obtain ⟨he, hb⟩ := ht
    have hin := (okB_sound info body ls env h hb).inside (stops' := Stops info env (.ifLetNone e body)) (fun f hf => .inside hf)
    rw [execS]
    split at he
    · rename_i hte
      rcases tyE_sound (info := info) h e _ hte with ⟨v, hv, hty⟩ | ⟨l, hl, hv⟩ | ⟨hv, ho⟩
      · obtain ⟨b, rfl⟩ := hty.present_inv
        rw [hv]
        cases b with
        | true => exact .inl ⟨env, rfl, h⟩
        | false => exact hin
      · rw [hv]; exact .inr (.inl ⟨l, hl, rfl⟩)
      · rw [hv]; exact .inr (.inr ⟨.panic, rfl, .overflow rfl ho⟩)
    · rename_i hte
      rcases tyE_sound (info := info) h e _ hte with ⟨v, hv, hty⟩ | ⟨l, hl, hv⟩ | ⟨hv, ho⟩
      · obtain ⟨o, rfl, _⟩ := hty.opt_inv
        rw [hv]
        cases o with
        | some _ => exact .inl ⟨env, rfl, h⟩
        | none => exact hin
      · rw [hv]; exact .inr (.inl ⟨l, hl, rfl⟩)
      · rw [hv]; exact .inr (.inr ⟨.panic, rfl, .overflow rfl ho⟩)
    · cases he
  | .labeled l body, ls, env, h, ht => by
    rw [okS] at ht
    rw [execS]
    rcases okB_sound info body (l :: ls) env h ht with ⟨env', he, hok⟩ | ⟨l', hl, he⟩ | ⟨f, he, hf⟩
    · rw [he]; exact .inl ⟨env', rfl, hok⟩
    · rw [he]
      dsimp only
      split
      · exact .inl ⟨env, rfl, h⟩
      · rename_i hne
        rcases List.mem_cons.1 hl with hl | hl
        · exact absurd hl hne
        · exact .inr (.inl ⟨l', hl, rfl⟩)
    · rw [he]; exact .inr (.inr ⟨f, rfl, .inside hf⟩)
  | .ret e, ls, env, h, ht => by
    rw [okS] at ht
    rw [execS]
    split at ht
    · rename_i t hte
      rcases tyE_sound (info := info) h e _ hte with ⟨v, hv, hty⟩ | ⟨l, hl, hv⟩ | ⟨hv, ho⟩
      · obtain ⟨err, rfl⟩ := (fits_has ht hty).err_inv
        rw [hv]
        exact .inr (.inr ⟨_, rfl, .returns hv⟩)
      · rw [hv]; exact .inr (.inl ⟨l, hl, rfl⟩)
      · rw [hv]; exact .inr (.inr ⟨.panic, rfl, .overflow rfl ho⟩)
    · cases ht
  | .setDefault x v, ls, env, h, ht => by
    rw [okS] at ht
    rw [execS]
    split at ht
    · rename_i k hk
      obtain ⟨w, hw, hty⟩ := h.get hk (by simp)
      obtain ⟨p, rfl, rfl⟩ := hty.place_inv
      obtain ⟨p', hp, hpt⟩ := placeTy_setDefault ht
      rw [hw]
      simp only [hp]
      exact .inl ⟨_, rfl, h.update hk (by rw [← hpt]; rfl)⟩
    · cases ht
  | .setDefaultParse x text, ls, env, h, ht => by
    rw [okS] at ht
    rw [execS]
    split at ht
    · rename_i k hk
      obtain ⟨w, hw, hty⟩ := h.get hk (by simp)
      obtain ⟨p, rfl, rfl⟩ := hty.place_inv
      rw [hw]
      dsimp only
      cases hp : p.setDefaultParse text with
      | ok p' => exact .inl ⟨_, rfl, h.update hk (by rw [← placeTy_setDefaultParse hp]; rfl)⟩
      | error f =>
        unfold Place.setDefaultParse at hp
        split at hp
        · cases hp
        · split at hp
          · cases hp
          · rename_i e hpe
            cases hp
            exact .inr (.inr ⟨.panic, rfl, .invalid hw (fun p' hc => by rw [hpe] at hc; cases hc)⟩)
    · cases ht
  | .unreachableNounwind, ls, env, h, ht => by
    rw [execS]
    exact .inr (.inr ⟨.panic, rfl, .unreachable⟩)
theorem okB_sound (info : ArgsInfo) : ∀ (b : List (St V)) (ls : List Label) (env : Env V), EnvOk Γ env → okB Γ ls b = true →
    ExecOk Γ ls (execB info env b) (StopsIn info env b)
  | [], ls, env, h, _ => .inl ⟨env, by rw [execB], h⟩
  | s :: rest, ls, env, h, ht => by
    rw [okB, Bool.and_eq_true] at ht
    rw [execB]
    rcases okS_sound info s ls env h ht.1 with ⟨env', he, hok⟩ | ⟨l, hl, he⟩ | ⟨f, he, hf⟩
    · rw [he]
      exact (okB_sound info rest ls env' hok ht.2).inside (fun f hf => .later he hf)
    · rw [he]; exact .inr (.inl ⟨l, hl, rfl⟩)
    · rw [he]; exact .inr (.inr ⟨f, rfl, .here hf⟩)
end

/-- The statements of a function body end with variables of the types that were found, or stop for a good reason. -/
theorem tyTop_sound (info : ArgsInfo) : ∀ (b : List (St V)) (Γ Γ' : Scope) (env : Env V), EnvOk Γ env → tyTop Γ b = some Γ' →
    (∃ env', execB info env b = .ok env' ∧ EnvOk Γ' env') ∨ ∃ f, execB info env b = .error (.fail f) ∧ StopsIn info env b f := by
  intro b
  induction b with
  | nil =>
    intro Γ Γ' env h ht
    rw [tyTop] at ht
    cases ht
    exact .inl ⟨env, by rw [execB], h⟩
  | cons s rest ih =>
    intro Γ Γ' env h ht
    rw [execB]
    by_cases hlet : ∃ x e, s = .letE x e
    · obtain ⟨x, e, rfl⟩ := hlet
      rw [tyTop] at ht
      split at ht
      · rename_i t hx hte
        rcases tyE_sound (info := info) h e _ hte with ⟨v, hv, hty⟩ | ⟨l, hl, hv⟩ | ⟨hv, ho⟩
        · have hs : execS info env (.letE x e) = .ok (env.set x v) := by
            rw [execS, hv]
            simp only [h.none hx, Option.isSome_none, Bool.false_eq_true, if_false]
          rw [hs]
          rcases ih _ Γ' _ (h.set hty) ht with hr | ⟨f, hf, hst⟩
          · exact .inl hr
          · exact .inr ⟨f, hf, .later hs hst⟩
        · cases hl
        · exact .inr ⟨.panic, by rw [execS, hv], .here (.overflow rfl ho)⟩
      · cases ht
    · rw [tyTop] at ht
      · split at ht
        · rename_i hok
          rcases okS_sound info s [] env h hok with ⟨env', he, hok⟩ | ⟨l, hl, he⟩ | ⟨f, he, hf⟩
          · rw [he]
            rcases ih _ Γ' _ hok ht with hr | ⟨f, hf, hst⟩
            · exact .inl hr
            · exact .inr ⟨f, hf, .later he hst⟩
          · cases hl
          · rw [he]; exact .inr ⟨f, rfl, .here hf⟩
        · cases ht
      · intro x e he
        exact hlet ⟨x, e, he⟩

theorem Init.hasTy (i : Init V) : HasTy i.val i.ty := by
  cases i with
  | place p => rfl
  | none => exact ⟨rfl, fun _ h => by cases h⟩

theorem tyLets_sound : ∀ (lets : List (Str × Init V)) (Γ Γ' : Scope) (env : Env V), EnvOk Γ env → tyLets Γ lets = some Γ' →
    ∃ env', execLets env lets = some env' ∧ EnvOk Γ' env' := by
  intro lets
  induction lets with
  | nil =>
    intro Γ Γ' env h ht
    rw [tyLets] at ht
    cases ht
    exact ⟨env, rfl, h⟩
  | cons l rest ih =>
    obtain ⟨x, i⟩ := l
    intro Γ Γ' env h ht
    rw [tyLets] at ht
    split at ht
    · rename_i hx
      rw [execLets, h.none hx]
      simp only [Option.isSome_none, Bool.false_eq_true, if_false]
      exact ih _ _ _ (h.set i.hasTy) ht
    · cases ht

theorem params_ok : EnvOk paramScope (params : Env V) := by
  intro x
  unfold paramScope params
  by_cases hx : x = lit "__out"
  · simp only [hx, if_true]
    exact ⟨_, rfl, rfl, fun _ h => by cases h⟩
  · simp only [hx, if_false]
    by_cases hm : x ∈ [lit "__frame", lit "__parser", lit "__info", lit "__idx"]
    · simp only [hm, if_true]
    · simp only [hm, if_false]

theorem tyExtr_sound (h : EnvOk Γ env) {x : Str} {e : Extr} {t : FieldTy} (ht : tyExtr Γ x e = some t) :
    (∃ o, evalExtr env x e = .ok o ∧ OutTy o t) ∨ (evalExtr env x e = .error .panic ∧ Missing env x e) := by
  cases e with
  | plain =>
    rw [tyExtr] at ht
    split at ht
    · rename_i hx
      cases ht
      obtain ⟨v, hv, hty⟩ := h.get hx (by simp)
      obtain ⟨o, rfl, _⟩ := hty.opt_inv
      exact .inl ⟨_, by rw [evalExtr, hv], by exact rfl⟩
    · cases ht
  | unwrap =>
    rw [tyExtr] at ht
    split at ht
    · rename_i hx
      cases ht
      obtain ⟨v, hv, hty⟩ := h.get hx (by simp)
      obtain ⟨o, rfl, ho⟩ := hty.opt_inv
      cases o with
      | some out => exact .inl ⟨out, by rw [evalExtr, hv], ho out rfl⟩
      | none => exact .inr ⟨by rw [evalExtr, hv]; rfl, hv⟩
    · cases ht
  | dot0 =>
    rw [tyExtr] at ht
    split at ht
    all_goals try cases ht
    all_goals
      rename_i hx
      obtain ⟨v, hv, hty⟩ := h.get hx (by simp)
      obtain ⟨p, rfl, hp⟩ := hty.place_inv
      cases p <;> cases hp <;> exact .inl ⟨_, by rw [evalExtr, hv], by exact rfl⟩
  | dot0Unwrap =>
    rw [tyExtr] at ht
    split at ht
    all_goals try cases ht
    all_goals
      rename_i hx
      obtain ⟨v, hv, hty⟩ := h.get hx (by simp)
      obtain ⟨p, rfl, hp⟩ := hty.place_inv
      cases p <;> cases hp
    all_goals first
      | (rename_i s _ _
         cases s with
         | some w => exact .inl ⟨_, by rw [evalExtr, hv], by exact rfl⟩
         | none => exact .inr ⟨by rw [evalExtr, hv]; rfl, _, hv, rfl⟩)
      | (rename_i s _
         cases s with
         | some w => exact .inl ⟨_, by rw [evalExtr, hv], by exact rfl⟩
         | none => exact .inr ⟨by rw [evalExtr, hv]; rfl, _, hv, rfl⟩)
      | (rename_i s
         cases s with
         | some w => exact .inl ⟨_, by rw [evalExtr, hv], by exact rfl⟩
         | none => exact .inr ⟨by rw [evalExtr, hv]; rfl, _, hv, rfl⟩)
  | dot0UnwrapOrDefault =>
    rw [tyExtr] at ht
    split at ht
    all_goals try cases ht
    all_goals
      rename_i hx
      obtain ⟨v, hv, hty⟩ := h.get hx (by simp)
      obtain ⟨p, rfl, hp⟩ := hty.place_inv
      cases p <;> cases hp <;> exact .inl ⟨_, by rw [evalExtr, hv], by exact rfl⟩

theorem tyOutput_sound (h : EnvOk Γ env) : ∀ (output : List (Str × Extr)) (outs : List (Str × FieldTy)),
    tyOutput Γ output = some outs →
    (∃ fields, evalOutput env output = .ok fields ∧ OutsTy fields outs)
      ∨ (evalOutput env output = .error .panic ∧ ∃ o ∈ output, Missing env o.1 o.2) := by
  intro output
  induction output with
  | nil =>
    intro outs ht
    rw [tyOutput] at ht
    cases ht
    exact .inl ⟨[], rfl, trivial⟩
  | cons o rest ih =>
    obtain ⟨x, e⟩ := o
    intro outs ht
    rw [tyOutput] at ht
    split at ht
    · rename_i t ts h1 h2
      cases ht
      rcases tyExtr_sound h h1 with ⟨o, ho, hty⟩ | ⟨ho, hm⟩
      · rcases ih ts h2 with ⟨fields, hf, ha⟩ | ⟨hf, y, hy, hm⟩
        · exact .inl ⟨(x, o) :: fields, by rw [evalOutput, ho, hf], rfl, hty, ha⟩
        · exact .inr ⟨by rw [evalOutput, ho, hf], y, List.mem_cons_of_mem _ hy, hm⟩
      · exact .inr ⟨by rw [evalOutput, ho], _, List.mem_cons_self, hm⟩
    · cases ht

theorem EnvOk.same {env' : Env V} (h : EnvOk Γ env) (hs : SameTypes env env') : EnvOk Γ env' := by
  intro x
  have h1 := h x
  have h2 := hs x
  cases hΓ : Γ x with
  | none =>
    rw [hΓ] at h1
    rw [h1] at h2
    cases he : env' x with
    | none => rfl
    | some v => rw [he] at h2; exact h2.elim
  | some t =>
    by_cases ht : t = .param
    · subst ht
      rw [hΓ] at h1
      rw [h1] at h2
      cases he : env' x with
      | none => rfl
      | some v => rw [he] at h2; exact h2.elim
    · obtain ⟨v, hv, hty⟩ := h.get hΓ ht
      rw [hv] at h2
      have goal : ∃ w, env' x = some w ∧ HasTy w t := by
        cases he : env' x with
        | none => rw [he] at h2; cases v <;> exact h2.elim
        | some w =>
          rw [he] at h2
          refine ⟨w, rfl, ?_⟩
          cases v <;> cases w <;> first | exact h2.elim | skip
          · have h2 : placeTy _ = placeTy _ := h2
            have hty : t = .place (placeTy _) := hty
            rw [hty, h2]; rfl
          · exact ⟨hty.1, h2⟩
          · exact hty
      cases t <;> first | exact goal | exact absurd rfl ht

end Palc.Emit
