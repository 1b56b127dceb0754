import Verif.Lemmas.Shrink
import Verif.Lemmas.Unique
/-! Two definitions that are extensions of each other fail in the same way (C81). -/

namespace Palc

open Spec

variable {V : Type} {cx : Cx V} {T : Bytes → Prop} {μ ν : Nat → Pos → Pos} {st st' : List (Entry V)}

theorem step_shorter {κ κ1 : Ctx V} {toks rest : Toks} {evs : List Event} (h : Step cx κ toks evs κ1 rest) : rest.length < toks.length := by
  cases h <;> simp only [List.length_cons] <;> omega

theorem steps_shorter {κ κ1 : Ctx V} {toks rest : Toks} {evs : List Event} (h : Steps cx κ toks evs κ1 rest) : rest.length ≤ toks.length := by
  induction h with
  | refl => exact Nat.le_refl _
  | step h _ ih => have := step_shorter h; omega

theorem steps_det {κ κ1 κ2 : Ctx V} {toks rest : Toks} {evs evs' : List Event} (h : Steps cx κ toks evs κ1 rest)
    (h' : Steps cx κ toks evs' κ2 rest) : evs = evs' ∧ κ1 = κ2 := by
  induction h generalizing evs' with
  | refl =>
    cases h' with
    | refl => exact ⟨rfl, rfl⟩
    | step g gs => have := step_shorter g; have := steps_shorter gs; omega
  | step h hs ih =>
    cases h' with
    | refl => have := step_shorter h; have := steps_shorter hs; omega
    | step g gs =>
      obtain ⟨rfl, rfl, rfl⟩ := step_det h g
      obtain ⟨rfl, rfl⟩ := ih gs
      exact ⟨rfl, rfl⟩

theorem alike_description {f g : FieldInfo V} (h : withoutIndex f = withoutIndex g) : f.description = g.description :=
  show (withoutIndex f).description = (withoutIndex g).description by rw [h]

theorem alike_about {f g : FieldInfo V} (h : withoutIndex f = withoutIndex g) (e : Error) : about f e = about g e := by
  unfold about
  rw [alike_isOption h, alike_description h]

theorem alike_badValue {f g : FieldInfo V} (h : withoutIndex f = withoutIndex g) {os : List (Option Bytes)} {o : Option Bytes} {e : Error}
    (hb : BadValue f os o e) : BadValue g os o e := by
  have h1 : BadValue (withoutIndex f) os o e := by
    cases hb with
    | flagValue hk => exact .flagValue hk
    | duplicate hm ho hne => exact .duplicate hm ho hne
    | invalid hm hk hos hv => exact .invalid hm hk hos hv
    | piece hm hps hxs hv => exact .piece hm hps hxs hv
  rw [h] at h1
  cases h1 with
  | flagValue hk => exact .flagValue hk
  | duplicate hm ho hne => exact .duplicate hm ho hne
  | invalid hm hk hos hv => exact .invalid hm hk hos hv
  | piece hm hps hxs hv => exact .piece hm hps hxs hv

theorem unknown_or_resolves (st : List (Entry V)) (n : Name) : Unknown cx st n ∨ ∃ a f, Resolves cx st n a f := by
  cases h : (visible st).find? (fun x => declares cx x.2 n) with
  | none =>
    left
    intro x hx
    simpa using List.find?_eq_none.1 h x hx
  | some y => right; exact ⟨y.1, y.2, h⟩

theorem Grown.unknown (h' : Grown cx T ν st' st) {n : Name} (hu : Unknown cx st n) : Unknown cx st' n := by
  rcases unknown_or_resolves (cx := cx) st' n with h | ⟨a, f, hr⟩
  · exact h
  · obtain ⟨g, hg, _⟩ := h'.resolves hr
    exact absurd hu (fun hu => resolves_not_unknown hg hu)

/-- The same error, or a help request in both. -/
def SameStuck (st st' : List (Entry V)) (e e' : Error) : Prop := e' = e ∨ (e = helpRequest st ∧ e' = helpRequest st')

theorem clusterStuck_mirror (h : Grown cx T μ st st') (h' : Grown cx T ν st' st) {next : Option Bytes} {b : Bytes} {evs : List Event} {e : Error}
    (hc : ClusterStuck cx st next b evs e) : ∃ e', ClusterStuck cx st' next b (evs.map (movedEvent μ)) e' ∧ SameStuck st st' e e' := by
  induction hc with
  | more hr ht hq hne heq _ ih =>
    obtain ⟨f', hr', ef⟩ := h.resolves hr
    obtain ⟨e', h1, h2⟩ := ih
    exact ⟨e', .more hr' (by rw [alike_takesValue ef]; exact ht) (by rw [alike_src ef]; exact hq) hne heq h1, h2⟩
  | unknown hu hc => exact ⟨_, .unknown (h'.unknown hu) hc, .inl rfl⟩
  | help hu => exact ⟨_, .help (h'.unknown hu), .inr ⟨rfl, rfl⟩⟩
  | invalid hne hb => exact ⟨_, .invalid hne hb, .inl rfl⟩
  | missingEqAttached hr hq hne heq =>
    obtain ⟨f', hr', ef⟩ := h.resolves hr
    exact ⟨_, .missingEqAttached hr' (by rw [alike_src ef]; exact hq) hne heq, .inl (alike_about ef _)⟩
  | missingEq hr ht hq =>
    obtain ⟨f', hr', ef⟩ := h.resolves hr
    exact ⟨_, .missingEq hr' (by rw [alike_takesValue ef]; exact ht) (by rw [alike_src ef]; exact hq), .inl (alike_about ef _)⟩
  | missingValue hr ht hq hn =>
    obtain ⟨f', hr', ef⟩ := h.resolves hr
    exact ⟨_, .missingValue hr' (by rw [alike_takesValue ef]; exact ht) (by rw [alike_src ef]; exact hq)
      (fun v hv hs => hn v hv ((alike_standalone ef v).1 hs)), .inl (alike_about ef _)⟩
  | flagValue hr hk =>
    obtain ⟨f', hr', ef⟩ := h.resolves hr
    exact ⟨_, .flagValue hr' (by rw [alike_kind ef]; exact hk), .inl (alike_about ef _)⟩
  | optionalValue hr hk =>
    obtain ⟨f', hr', ef⟩ := h.resolves hr
    exact ⟨_, .optionalValue hr' (by rw [alike_kind ef]; exact hk), .inl rfl⟩

theorem names_mirror {G : Name → Prop} {d d' : ArgsDef V} {φ : Pos → Pos} (h : Extends cx T G d' d φ) {tok : Bytes}
    (hn : ∀ v ∈ subVariants d, enc v.name ≠ tok) : ∀ v ∈ subVariants d', enc v.name ≠ tok := by
  obtain ⟨_, _, C, _, kept, _, _⟩ := h
  intro v hv
  obtain ⟨w, hw, e⟩ := selected_exists hv
  obtain ⟨h1, h2, _⟩ := kept w hw
  rw [← e, ← h2]
  exact hn _ h1.1

theorem target_mirror {G : Name → Prop} {d d' : ArgsDef V} {φ : Pos → Pos} (h : Extends cx T G d' d φ) {k : Nat}
    (hn : posTarget d k = none) : posTarget d' k = none := by
  cases hx : posTarget d' k with
  | none => rfl
  | some x => obtain ⟨y, hy, _⟩ := h.keeps.target k x hx; rw [hn] at hy; cases hy

theorem stuck_mirror {κ κ' : Ctx V} {toks : List Bytes} {evs : List Event} {e : Error} (h : Stuck cx κ toks evs e)
    (c : CtxGrown cx T μ κ κ') (c' : Grown cx T ν κ'.stack κ.stack)
    (hs : ∀ x x', κ.stack.head? = some x → κ'.stack.head? = some x' → hasSub x'.2 = hasSub x.2) :
    ∃ e', Stuck cx κ' toks (evs.map (movedEvent μ)) e' ∧ SameStuck κ.stack κ'.stack e e' := by
  obtain ⟨st', k', m'⟩ := κ'
  obtain ⟨hst, hk, hmode⟩ := c
  cases h with
  | longUnknown hd hne hn ht hu hh =>
    simp only [mvMode] at hst hk hmode c'
    subst hk; subst hmode
    exact ⟨_, .longUnknown hd hne hn ht (fun n hn => c'.unknown (hu n hn)) hh, .inl rfl⟩
  | longHelp ht hu =>
    simp only [mvMode] at hst hk hmode c'
    subst hk; subst hmode
    exact ⟨_, .longHelp ht (c'.unknown hu), .inr ⟨rfl, rfl⟩⟩
  | flagValue hr hn hk' =>
    simp only [mvMode] at hst hk hmode c'
    subst hk; subst hmode
    obtain ⟨f', hr', ef⟩ := hst.resolves hr
    exact ⟨_, .flagValue hr' hn (by rw [alike_kind ef]; exact hk'), .inl (alike_about ef _)⟩
  | missingEq hr hn hne ht hq =>
    simp only [mvMode] at hst hk hmode c'
    subst hk; subst hmode
    obtain ⟨f', hr', ef⟩ := hst.resolves hr
    exact ⟨_, .missingEq hr' hn hne (by rw [alike_takesValue ef]; exact ht) (by rw [alike_src ef]; exact hq), .inl (alike_about ef _)⟩
  | missingValue hr hn hne ht hq hv =>
    simp only [mvMode] at hst hk hmode c'
    subst hk; subst hmode
    obtain ⟨f', hr', ef⟩ := hst.resolves hr
    exact ⟨_, .missingValue hr' hn hne (by rw [alike_takesValue ef]; exact ht) (by rw [alike_src ef]; exact hq)
      (fun v hx hs => hv v hx ((alike_standalone ef v).1 hs)), .inl (alike_about ef _)⟩
  | cluster hb hc =>
    simp only [mvMode] at hst hk hmode c'
    subst hk; subst hmode
    obtain ⟨e', h1, h2⟩ := clusterStuck_mirror hst c' hc
    exact ⟨e', .cluster hb h1, h2⟩
  | @surplus i d st k tok toks hp hns hx =>
    simp only [mvMode] at hst hk hmode c'
    subst hk; subst hmode
    cases hst with
    | @cons _ _ d' _ st' hst hd =>
    cases c' with
    | cons c' hd' =>
    refine ⟨_, .surplus hp (names_mirror hd' hns) (target_mirror hd' hx), .inl ?_⟩
    unfold Spec.surplus
    rw [hs _ _ rfl rfl]
  | @dashed i d st k tok toks hl hx =>
    simp only [mvMode] at hst hk hmode c'
    subst hk; subst hmode
    cases hst with
    | @cons _ _ d' _ st' hst hd =>
    cases c' with
    | cons c' hd' =>
    refine ⟨_, .dashed (hd.keeps.noLast hl) (target_mirror hd' hx), .inl ?_⟩
    unfold Spec.surplus
    rw [hs _ _ rfl rfl]

theorem stuck_fields {κ : Ctx V} {toks : List Bytes} {evs : List Event} {e : Error} (h : Stuck cx κ toks evs e) :
    ∀ x ∈ evs, ∃ f, fieldAt κ.stack x.1 = some f := by
  cases h with
  | cluster _ hc => exact clusterStuck_fields hc
  | _ => intro x hx; cases hx

theorem firstBad_mirror (h : Grown cx T μ st st') {evs : List Event} {e : Error}
    (he : ∀ x ∈ evs, ∃ f, fieldAt st x.1 = some f) (hb : FirstBad st [] evs e) : FirstBad st' [] (evs.map (movedEvent μ)) e := by
  obtain ⟨pre, a, o, post, f, e0, rfl, h2, h3, h4, rfl⟩ := hb
  obtain ⟨f', hf', ef⟩ := h.to h2
  have hpre : ∀ x ∈ pre, ∃ f, fieldAt st x.1 = some f := fun x hx => he x (by simp [hx])
  refine ⟨pre.map (movedEvent μ), moved μ a, o, post.map (movedEvent μ), f', e0, by simp [movedEvent], hf', ?_, ?_, (alike_about ef e0).symm⟩
  · exact acceptable_grown h hpre h3
  · rw [List.nil_append, occs_grown h hpre h2]
    have hn : normalise f' = normalise f := by funext b; simp [normalise, alike_src ef]
    rw [hn]
    exact alike_badValue ef.symm h4

end Palc
