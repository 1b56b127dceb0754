import Verif.SpecSiblings
import Verif.Lemmas.Exchange
/-! Definitions that differ in unused subcommands only (C84). -/

namespace Palc

open Spec

variable {V : Type} {cx : Cx V} {T : Bytes → Prop} {d d' : ArgsDef V}

/-- The same state of the derive macro, except for the variants of the subcommand. -/
def LikeState (s s' : DState V) : Prop := s' = { s with sub := s'.sub } ∧ (s'.sub = .none ↔ s.sub = .none)

theorem likeState_step {s s' : DState V} (h : LikeState s s') (x : FieldDecl V) : LikeState (deriveStep cx s x) (deriveStep cx s' x) := by
  obtain ⟨h1, h2⟩ := h
  cases x with
  | subcommand i o vs =>
    cases e : s.sub with
    | none =>
      have e' := h2.2 e
      simp only [deriveStep, e, e']
      rw [h1]
      exact ⟨rfl, by simp⟩
    | some i1 o1 vs1 =>
      cases e' : s'.sub with
      | none => rw [h2.1 e'] at e; cases e
      | some i2 o2 vs2 =>
        simp only [deriveStep, e, e']
        rw [h1]
        exact ⟨by simp, by simp⟩
  | flatten i f =>
    simp only [deriveStep]
    rw [h1]
    exact ⟨rfl, h2⟩
  | arg i ty m =>
    simp only [deriveStep]
    rw [h1]
    generalize s'.sub = u at *
    repeat' split
    all_goals exact ⟨rfl, h2⟩

theorem likeState_foldl (ds : List (FieldDecl V)) {s s' : DState V} (h : LikeState s s') :
    LikeState (ds.foldl (deriveStep cx) s) (ds.foldl (deriveStep cx) s') := by
  induction ds generalizing s s' with
  | nil => exact h
  | cons x ds ih => exact ih (likeState_step h x)

theorem likeState_sub {s : DState V} {i : Str} {o : Bool} {vs vs' : Variants V} :
    LikeState (deriveStep cx s (.subcommand i o vs)) (deriveStep cx s (.subcommand i o vs')) := by
  cases e : s.sub with
  | none => simp only [deriveStep, e]; exact ⟨rfl, by simp⟩
  | some _ _ _ => simp only [deriveStep, e]; exact ⟨rfl, Iff.rfl⟩

/-- The two definitions differ in the variants of the subcommand only. -/
theorem derive_others {cm : Option CommandMeta} {ds more : List (FieldDecl V)} {i : Str} {o : Bool} {vs vs' : Variants V}
    (hd : deriveArgs cx cm (ds ++ .subcommand i o vs :: more) = .ok d)
    (hd' : deriveArgs cx cm (ds ++ .subcommand i o vs' :: more) = .ok d') :
    ∃ core flats, d = .mk core flats (.some i o vs) ∧ d' = .mk core flats (.some i o vs') := by
  obtain ⟨core, flats, sub⟩ := d
  obtain ⟨core', flats', sub'⟩ := d'
  have hs : ∀ {core : Core V} {flats sub vs}, deriveArgs cx cm (ds ++ .subcommand i o vs :: more) = .ok (.mk core flats sub) →
      sub = .some i o vs := by
    intro core flats sub vs h
    have := (deriveArgs_ok h).subEq
    rw [List.filterMap_append, List.filterMap_cons] at this
    simp only [declSub] at this
    cases sub with
    | none => simp [subToList] at this
    | some i1 o1 vs1 =>
      simp only [subToList] at this
      have hlen := congrArg List.length this
      simp only [List.length_cons, List.length_nil, List.length_append] at hlen
      have h0 : ds.filterMap declSub = [] := List.eq_nil_of_length_eq_zero (by omega)
      rw [h0] at this
      simp at this
      obtain ⟨⟨rfl, rfl, rfl⟩, _⟩ := this
      rfl
  have e1 := hs hd
  have e2 := hs hd'
  subst e1 e2
  have hl := likeState_foldl (cx := cx) more (likeState_sub (cx := cx) (s := ds.foldl (deriveStep cx) {}) (i := i) (o := o) (vs := vs) (vs' := vs'))
  unfold deriveArgs at hd hd'
  split at hd
  · cases hd
  split at hd'
  · cases hd'
  rw [List.foldl_append, List.foldl_cons] at hd hd'
  rw [hl.1] at hd'
  obtain ⟨_, hd⟩ := ite_ok hd
  obtain ⟨_, hd'⟩ := ite_ok hd'
  rw [ArgsDef.mk.injEq] at hd hd'
  exact ⟨core, flats, rfl, by rw [← hd.1, ← hd.2.1, hd'.1, hd'.2.1]⟩

/-- What the definitions have in common. -/
theorem Spec.OtherSubs.shape (h : OtherSubs cx T d d') : ∃ core flats sub sub', d = .mk core flats sub ∧ d' = .mk core flats sub'
    ∧ ((sub' = sub) ∨ ∃ i o vs vs', sub = .some i o vs ∧ sub' = .some i o vs') := by
  cases h with
  | same => cases d; exact ⟨_, _, _, _, rfl, rfl, .inl rfl⟩
  | struct hd hd' =>
    obtain ⟨core, flats, rfl, rfl⟩ := derive_others hd hd'
    exact ⟨_, _, _, _, rfl, rfl, .inr ⟨_, _, _, _, rfl, rfl⟩⟩

theorem Spec.OtherSubs.structs (h : OtherSubs cx T d d') : Spec.structs d' = Spec.structs d := by
  obtain ⟨core, flats, sub, sub', rfl, rfl, _⟩ := h.shape
  simp [Spec.structs]

theorem Spec.OtherSubs.core (h : OtherSubs cx T d d') : coreOf d' = coreOf d := by
  obtain ⟨core, flats, sub, sub', rfl, rfl, _⟩ := h.shape
  rfl

theorem Spec.OtherSubs.hasSub (h : OtherSubs cx T d d') : Spec.hasSub d' = Spec.hasSub d := by
  obtain ⟨core, flats, sub, sub', rfl, rfl, rfl | ⟨i, o, vs, vs', rfl, rfl⟩⟩ := h.shape <;> rfl

theorem Spec.OtherSubs.target (h : OtherSubs cx T d d') (k : Nat) : posTarget d' k = posTarget d k := by
  unfold posTarget singles varArg
  rw [h.core]

theorem Spec.OtherSubs.last (h : OtherSubs cx T d d') : lastArg d' = lastArg d := by
  unfold lastArg
  rw [h.core]

theorem Spec.OtherSubs.outArgs (h : OtherSubs cx T d d') (os : Nat → Nat → List (Option Bytes)) (s : Nat) (sub : Option (Out V)) :
    Spec.outArgs os s sub d' = Spec.outArgs os s sub d := by
  obtain ⟨core, flats, sub, sub', rfl, rfl, rfl | ⟨i, o, vs, vs', rfl, rfl⟩⟩ := h.shape
  · rfl
  · simp only [Spec.outArgs]
    have : ∀ x : Option (Out V), outSub (.some i o vs') x = outSub (.some i o vs) x := by
      intro x; cases o <;> cases x <;> rfl
    rw [this]

theorem Spec.OtherSubs.argsFail (h : OtherSubs cx T d d') (given : Nat → Nat → Bool) (s : Nat) (sub : Bool) :
    Spec.argsFail given s sub d' = Spec.argsFail given s sub d := by
  obtain ⟨core, flats, sub, sub', rfl, rfl, rfl | ⟨i, o, vs, vs', rfl, rfl⟩⟩ := h.shape
  · rfl
  · simp only [Spec.argsFail]
    rfl

theorem Spec.OtherSubs.select (h : OtherSubs cx T d d') {v : Variant V} (hv : Selected d v) (ht : T (enc v.name)) :
    ∃ v', Selected d' v' ∧ v'.name = v.name ∧ variantIdent v' = variantIdent v ∧ OtherSubs cx T (variantDef v) (variantDef v') := by
  cases h with
  | same => exact ⟨v, hv, rfl, rfl, .same⟩
  | struct hd hd' unique unique' C kept added subs =>
    obtain ⟨core, flats, rfl, rfl⟩ := derive_others hd hd'
    have hm : v ∈ variantList _ := hv.1
    obtain ⟨h1, h2, h3⟩ := kept v hm ht
    exact ⟨C v, .of_nodup unique' h1, h2, h3, subs v hm ht⟩

theorem Spec.OtherSubs.none (h : OtherSubs cx T d d') {tok : Bytes} (ht : T tok) (hn : ∀ v ∈ subVariants d, enc v.name ≠ tok) :
    ∀ v ∈ subVariants d', enc v.name ≠ tok := by
  cases h with
  | same => exact hn
  | struct hd hd' unique unique' C kept added subs =>
    obtain ⟨core, flats, rfl, rfl⟩ := derive_others hd hd'
    rintro v' hv' rfl
    obtain ⟨v, hv, e⟩ := added v' hv' ht
    exact hn v hv (by rw [e])

/-- The same commands entered. -/
inductive OtherStack (cx : Cx V) (T : Bytes → Prop) : List (Entry V) → List (Entry V) → Prop
  | nil : OtherStack cx T [] []
  | cons {i d d' st st'} (h : OtherStack cx T st st') (hd : OtherSubs cx T d d') : OtherStack cx T ((i, d) :: st) ((i, d') :: st')

variable {st st' : List (Entry V)}

theorem OtherStack.length (h : OtherStack cx T st st') : st'.length = st.length := by
  induction h with
  | nil => rfl
  | cons _ _ ih => simp [ih]

theorem OtherStack.ids (h : OtherStack cx T st st') : st'.map (·.1) = st.map (·.1) := by
  induction h with
  | nil => rfl
  | cons _ _ ih => simp [ih]

theorem OtherStack.globals (h : OtherStack cx T st st') : Spec.globals st' = Spec.globals st := by
  induction h with
  | nil => rfl
  | cons h hd ih => simp only [Spec.globals, fieldsAt, hd.structs, h.length, ih]

theorem OtherStack.visible (h : OtherStack cx T st st') : Spec.visible st' = Spec.visible st := by
  cases h with
  | nil => rfl
  | cons h hd => simp only [Spec.visible, fieldsAt, hd.structs, h.length, h.globals]

theorem OtherStack.fieldAt (h : OtherStack cx T st st') : Spec.fieldAt st' = Spec.fieldAt st := by
  funext a
  induction h with
  | nil => rfl
  | cons h hd ih => simp only [Spec.fieldAt, hd.structs, h.length, ih]

theorem OtherStack.outAll (h : OtherStack cx T st st') (evs : List Event) (sub : Option (Out V)) :
    Spec.outAll evs st' sub = Spec.outAll evs st sub := by
  induction h generalizing sub with
  | nil => rfl
  | cons h hd ih =>
    simp only [Spec.outAll, h.length, hd.outArgs]
    cases h with
    | nil => rfl
    | cons _ _ => simp only [ih]

theorem OtherStack.allFail (h : OtherStack cx T st st') (evs : List Event) (sub : Bool) :
    Spec.allFail evs st' sub = Spec.allFail evs st sub := by
  induction h generalizing sub with
  | nil => rfl
  | cons h hd ih => simp only [Spec.allFail, h.length, hd.argsFail, ih]

theorem OtherStack.acceptable (h : OtherStack cx T st st') {evs : List Event} : Acceptable st' evs ↔ Acceptable st evs := by
  unfold Acceptable
  rw [h.fieldAt]

theorem OtherStack.firstBad (h : OtherStack cx T st st') {log evs : List Event} {e : Error} : FirstBad st' log evs e ↔ FirstBad st log evs e := by
  unfold FirstBad
  rw [h.fieldAt]

theorem resolves_visible (h : visible st' = visible st) {n : Name} {a : Addr} {f : FieldInfo V} (hr : Resolves cx st n a f) : Resolves cx st' n a f := by
  unfold Resolves at *
  rwa [h]

theorem unknown_visible (h : visible st' = visible st) {n : Name} (hu : Unknown cx st n) : Unknown cx st' n := by
  unfold Unknown at *
  rwa [h]

theorem cluster_visible (h : visible st' = visible st) {next : Option Bytes} {b : Bytes} {evs : List Event} {took : Bool}
    (hc : Cluster cx st next b evs took) : Cluster cx st' next b evs took := by
  have hv := fun {n a f} (hr : Resolves cx st n a f) => resolves_visible h hr
  induction hc with
  | bare hr ht => exact .bare (hv hr) ht
  | more hr ht hq hne heq _ ih => exact .more (hv hr) ht hq hne heq ih
  | eq hr ht => exact .eq (hv hr) ht
  | attached hr ht hq hne heq => exact .attached (hv hr) ht hq hne heq
  | sep hr ht hq hn hs => exact .sep (hv hr) ht hq hn hs

/-- The same error, or a request for the help of the same command. -/
def SameOrHelp (st st' : List (Entry V)) (e e' : Error) : Prop := e' = e ∨ (e = helpRequest st ∧ e' = helpRequest st')

theorem clusterStuck_visible (h : visible st' = visible st) {next : Option Bytes} {b : Bytes} {evs : List Event} {e : Error}
    (hc : ClusterStuck cx st next b evs e) : ∃ e', ClusterStuck cx st' next b evs e' ∧ SameOrHelp st st' e e' := by
  have hv := fun {n a f} (hr : Resolves cx st n a f) => resolves_visible h hr
  induction hc with
  | more hr ht hq hne heq _ ih =>
    obtain ⟨e', h1, h2⟩ := ih
    exact ⟨e', .more (hv hr) ht hq hne heq h1, h2⟩
  | unknown hu hc => exact ⟨_, .unknown (unknown_visible h hu) hc, .inl rfl⟩
  | help hu => exact ⟨_, .help (unknown_visible h hu), .inr ⟨rfl, rfl⟩⟩
  | invalid hne hb => exact ⟨_, .invalid hne hb, .inl rfl⟩
  | missingEqAttached hr hq hne heq => exact ⟨_, .missingEqAttached (hv hr) hq hne heq, .inl rfl⟩
  | missingEq hr ht hq => exact ⟨_, .missingEq (hv hr) ht hq, .inl rfl⟩
  | missingValue hr ht hq hn => exact ⟨_, .missingValue (hv hr) ht hq hn, .inl rfl⟩
  | flagValue hr hk => exact ⟨_, .flagValue (hv hr) hk, .inl rfl⟩
  | optionalValue hr hk => exact ⟨_, .optionalValue (hv hr) hk, .inl rfl⟩

/-- The same context. -/
structure OtherCtx (cx : Cx V) (T : Bytes → Prop) (κ κ' : Ctx V) : Prop where
  stack : OtherStack cx T κ.stack κ'.stack
  npos : κ'.npos = κ.npos
  mode : κ'.mode = κ.mode

variable {κ κ' κ1 : Ctx V} {toks rest : Toks} {evs : List Event} {e : Error}

theorem step_others (h : Step cx κ toks evs κ1 rest) (c : OtherCtx cx T κ κ') (ht : ∀ t ∈ toks, T t) :
    ∃ κ2, Step cx κ' toks evs κ2 rest ∧ OtherCtx cx T κ1 κ2 := by
  obtain ⟨st', k', m'⟩ := κ'
  obtain ⟨hst, hk, hm⟩ := c
  cases h with
  | longEq hr hn hk' =>
    simp only at hst hk hm; subst hk hm
    exact ⟨_, .longEq (resolves_visible hst.visible hr) hn hk', hst, rfl, rfl⟩
  | longBare hr hn hne ht' =>
    simp only at hst hk hm; subst hk hm
    exact ⟨_, .longBare (resolves_visible hst.visible hr) hn hne ht', hst, rfl, rfl⟩
  | longSep hr hn hne ht' hq hs =>
    simp only at hst hk hm; subst hk hm
    exact ⟨_, .longSep (resolves_visible hst.visible hr) hn hne ht' hq hs, hst, rfl, rfl⟩
  | cluster hb hc =>
    simp only at hst hk hm; subst hk hm
    exact ⟨_, .cluster hb (cluster_visible hst.visible hc), hst, rfl, rfl⟩
  | clusterSep hb hc =>
    simp only at hst hk hm; subst hk hm
    exact ⟨_, .clusterSep hb (cluster_visible hst.visible hc), hst, rfl, rfl⟩
  | sub hv hp =>
    simp only at hst hk hm; subst hk hm
    cases hst with
    | cons hst hd =>
    obtain ⟨v', h1, h2, h3, h4⟩ := hd.select hv (ht _ (by simp))
    rw [← h2] at hp ⊢
    refine ⟨_, .sub h1 hp, ?_, rfl, rfl⟩
    rw [h3]
    exact .cons (.cons hst hd) h4
  | positional hp hns hx =>
    simp only at hst hk hm; subst hk hm
    cases hst with
    | cons hst hd =>
    rw [← hst.length]
    exact ⟨_, .positional hp (hd.none (ht _ (by simp)) hns) (by rw [hd.target]; exact hx), .cons hst hd, rfl, rfl⟩
  | dashdash =>
    simp only at hst hk hm; subst hk hm
    exact ⟨_, .dashdash, hst, rfl, rfl⟩
  | last hx =>
    simp only at hst hk hm; subst hk hm
    cases hst with
    | cons hst hd =>
    rw [← hst.length]
    exact ⟨_, .last (by rw [hd.last]; exact hx), .cons hst hd, rfl, rfl⟩
  | dashed hl hx =>
    simp only at hst hk hm; subst hk hm
    cases hst with
    | cons hst hd =>
    rw [← hst.length]
    exact ⟨_, .dashed (by rw [hd.last]; exact hl) (by rw [hd.target]; exact hx), .cons hst hd, rfl, rfl⟩
  | trailing =>
    simp only at hst hk hm; subst hk hm
    cases hst with
    | cons hst hd =>
    rw [← hst.length]
    exact ⟨_, .trailing, .cons hst hd, rfl, rfl⟩

theorem step_rest (h : Step cx κ toks evs κ1 rest) : ∀ t ∈ rest, t ∈ toks := by
  cases h <;> intro t ht <;> simp [ht]

theorem steps_rest (h : Steps cx κ toks evs κ1 rest) : ∀ t ∈ rest, t ∈ toks := by
  induction h with
  | refl => exact fun _ h => h
  | step h _ ih => exact fun t ht => step_rest h t (ih t ht)

theorem steps_others (h : Steps cx κ toks evs κ1 rest) (c : OtherCtx cx T κ κ') (ht : ∀ t ∈ toks, T t) :
    ∃ κ2, Steps cx κ' toks evs κ2 rest ∧ OtherCtx cx T κ1 κ2 := by
  induction h generalizing κ' with
  | refl => exact ⟨κ', .refl, c⟩
  | step h _ ih =>
    obtain ⟨κ2, h1, c1⟩ := step_others h c ht
    obtain ⟨κ3, h2, c2⟩ := ih c1 (fun t hr => ht t (step_rest h t hr))
    exact ⟨κ3, .step h1 h2, c2⟩

theorem stuck_others (h : Stuck cx κ toks evs e) (c : OtherCtx cx T κ κ') (ht : ∀ t ∈ toks, T t) :
    ∃ e', Stuck cx κ' toks evs e' ∧ SameOrHelp κ.stack κ'.stack e e' := by
  obtain ⟨st', k', m'⟩ := κ'
  obtain ⟨hst, hk, hm⟩ := c
  cases h with
  | longUnknown hd hne hn ht' hu hh =>
    simp only at hst hk hm; subst hk hm
    exact ⟨_, .longUnknown hd hne hn ht' (fun n hn => unknown_visible hst.visible (hu n hn)) hh, .inl rfl⟩
  | longHelp ht' hu =>
    simp only at hst hk hm; subst hk hm
    exact ⟨_, .longHelp ht' (unknown_visible hst.visible hu), .inr ⟨rfl, rfl⟩⟩
  | flagValue hr hn hk' =>
    simp only at hst hk hm; subst hk hm
    exact ⟨_, .flagValue (resolves_visible hst.visible hr) hn hk', .inl rfl⟩
  | missingEq hr hn hne ht' hq =>
    simp only at hst hk hm; subst hk hm
    exact ⟨_, .missingEq (resolves_visible hst.visible hr) hn hne ht' hq, .inl rfl⟩
  | missingValue hr hn hne ht' hq hv =>
    simp only at hst hk hm; subst hk hm
    exact ⟨_, .missingValue (resolves_visible hst.visible hr) hn hne ht' hq hv, .inl rfl⟩
  | cluster hb hc =>
    simp only at hst hk hm; subst hk hm
    obtain ⟨e', h1, h2⟩ := clusterStuck_visible hst.visible hc
    exact ⟨e', .cluster hb h1, h2⟩
  | surplus hp hns hx =>
    simp only at hst hk hm; subst hk hm
    cases hst with
    | cons hst hd =>
    refine ⟨_, .surplus hp (hd.none (ht _ (by simp)) hns) (by rw [hd.target]; exact hx), .inl ?_⟩
    unfold Spec.surplus
    rw [hd.hasSub]
  | dashed hl hx =>
    simp only at hst hk hm; subst hk hm
    cases hst with
    | cons hst hd =>
    refine ⟨_, .dashed (by rw [hd.last]; exact hl) (by rw [hd.target]; exact hx), .inl ?_⟩
    unfold Spec.surplus
    rw [hd.hasSub]

theorem start_others (h : OtherSubs cx T d d') (argv0 : Bytes) : OtherCtx cx T (start argv0 d) (start argv0 d') :=
  ⟨.cons .nil h, rfl, rfl⟩

end Palc
