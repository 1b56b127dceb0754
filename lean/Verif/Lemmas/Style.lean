import Verif.SpecStyle
import Verif.Lemmas.Relax
import Verif.Lemmas.Outcome
import Verif.Lemmas.Run
import Verif.Lemmas.Exchange
import Verif.Lemmas.Visible
/-! The outcome for a definition that looks different. -/

namespace Palc

open Spec

variable {V : Type} {cx : Cx V}

theorem _root_.Palc.Spec.StyledArg.relaxed {m m' : ArgMeta V} (h : StyledArg m m') : RelaxedArg m m' := by
  rw [h]
  exact ⟨rfl, rfl, rfl, rfl, rfl, rfl, rfl, rfl, rfl, rfl, rfl, id, id, id, .inl, id, fun _ => id, fun _ => id⟩

/-- Changes of what is shown only. -/
class Styling (M : Str → ArgMeta V → ArgMeta V → Prop) : Prop where
  styled : ∀ {i : Str} {m m' : ArgMeta V}, M i m m' → StyledArg m m'

instance : Styling (V := V) (fun _ => StyledArg) := ⟨id⟩

instance {M : Str → ArgMeta V → ArgMeta V → Prop} [Styling M] : Relaxing M := ⟨fun h => (Styling.styled h).relaxed.butNames⟩

instance {M : Str → ArgMeta V → ArgMeta V → Prop} [Styling M] : SameDefault M :=
  ⟨fun h => ⟨(Styling.styled h).relaxed.defaultValue, (Styling.styled h).relaxed.defaultValueT⟩⟩

theorem LooseField.declares {M : Change V} [Styling M.attr] {f f' : FieldInfo V} (h : LooseField M f f') (n : Name) :
    declares cx f' n = declares cx f n := declares_same h.ident (Styling.styled h.src).relaxed n

theorem LooseField.global {M : Change V} [Styling M.attr] {f f' : FieldInfo V} (h : LooseField M f f') :
    f'.src.global = f.src.global := (Styling.styled h.src).relaxed.global

instance {M : Change V} [Styling M.attr] : Naming cx M where
  kept _ h _ := h.declares _
  scope h hg := by rw [h.global, hg]
  apart _ h _ _ h1 h2 := by rw [h.global, h1] at h2; cases h2

section
variable {M : Change V} [Relaxing M.attr]

theorem step_loose [Naming cx M] {κ κ1 : Ctx V} {toks rest : List Bytes} {evs : List Event} (h : Step cx κ toks evs κ1 rest) :
    ∀ κ', LooseCtx M κ κ' → ∃ κ1', Step cx κ' toks evs κ1' rest ∧ LooseCtx M κ1 κ1' := by
  cases h with
  | longEq hr hn ht =>
    rintro _ ⟨h1⟩
    obtain ⟨f', hr', hf⟩ := resolves_loose h1 hr
    exact ⟨_, .longEq hr' hn (by rw [hf.kind]; exact ht), ⟨h1⟩⟩
  | longBare hr hn hne ht =>
    rintro _ ⟨h1⟩
    obtain ⟨f', hr', hf⟩ := resolves_loose h1 hr
    exact ⟨_, .longBare hr' hn hne (by rw [hf.takesValue]; exact ht), ⟨h1⟩⟩
  | longSep hr hn hne ht hq hs =>
    rintro _ ⟨h1⟩
    obtain ⟨f', hr', hf⟩ := resolves_loose h1 hr
    exact ⟨_, .longSep hr' hn hne (by rw [hf.takesValue]; exact ht) (hf.requireEquals hq) (hf.standalone hs), ⟨h1⟩⟩
  | cluster hb hc =>
    rintro _ ⟨h1⟩
    exact ⟨_, .cluster hb (cluster_loose h1 hc), ⟨h1⟩⟩
  | clusterSep hb hc =>
    rintro _ ⟨h1⟩
    exact ⟨_, .clusterSep hb (cluster_loose h1 hc), ⟨h1⟩⟩
  | @sub i d st k v toks hv hp =>
    rintro _ ⟨h1⟩
    cases h1 with
    | @cons x x' l l' h t =>
      obtain ⟨i', d'⟩ := x'
      obtain ⟨rfl, hd⟩ := h
      obtain ⟨v', hv', hlv⟩ := selected_loose hd hv
      refine ⟨⟨(⟨variantIdent v', v'.name⟩, variantDef v') :: (_, d') :: l', 0, .opts⟩, ?_,
        ⟨.cons ⟨by simp [hlv.ident, hlv.name], hlv.args⟩ (.cons ⟨rfl, hd⟩ t)⟩⟩
      rw [← hlv.name]
      exact .sub hv' (by rw [hlv.name]; exact hp)
  | @positional i d st k tok x toks hp hns hx =>
    rintro _ ⟨h1⟩
    cases h1 with
    | @cons y y' l l' h t =>
      obtain ⟨i', d'⟩ := y'
      obtain ⟨rfl, hd⟩ := h
      rcases posTarget_loose hd k with ⟨e1, _⟩ | ⟨x0, x', e1, e2, e3⟩
      · rw [e1] at hx; cases hx
      · rw [e1] at hx
        cases hx
        refine ⟨⟨(_, d') :: l', k + 1, modeAfter x' .opts⟩, ?_, by rw [modeAfter_loose e3]; exact ⟨.cons ⟨rfl, hd⟩ t⟩⟩
        rw [e3.1, ← t.length]
        exact .positional hp (subNames_loose hd hns) e2
  | dashdash =>
    rintro _ ⟨h1⟩
    exact ⟨_, .dashdash, ⟨h1⟩⟩
  | @last i d st k tok x toks hx =>
    rintro _ ⟨h1⟩
    cases h1 with
    | @cons y y' l l' h t =>
      obtain ⟨i', d'⟩ := y'
      obtain ⟨rfl, hd⟩ := h
      rcases lastArg_loose hd with ⟨e1, _⟩ | ⟨x0, x', e1, e2, e3⟩
      · rw [e1] at hx; cases hx
      · rw [e1] at hx
        cases hx
        refine ⟨⟨(_, d') :: l', k, .dashed⟩, ?_, ⟨.cons ⟨rfl, hd⟩ t⟩⟩
        rw [e3.1, ← t.length]
        exact .last e2
  | @dashed i d st k tok x toks hl hx =>
    rintro _ ⟨h1⟩
    cases h1 with
    | @cons y y' l l' h t =>
      obtain ⟨i', d'⟩ := y'
      obtain ⟨rfl, hd⟩ := h
      have hl' : lastArg d' = none := by
        rcases lastArg_loose hd with ⟨_, e2⟩ | ⟨x0, x', e1, _, _⟩
        · exact e2
        · rw [e1] at hl; cases hl
      rcases posTarget_loose hd k with ⟨e1, _⟩ | ⟨x0, x', e1, e2, e3⟩
      · rw [e1] at hx; cases hx
      · rw [e1] at hx
        cases hx
        refine ⟨⟨(_, d') :: l', k + 1, modeAfter x' .dashed⟩, ?_, by rw [modeAfter_loose e3]; exact ⟨.cons ⟨rfl, hd⟩ t⟩⟩
        rw [e3.1, ← t.length]
        exact .dashed hl' e2
  | @trailing i d st k tok j toks =>
    rintro _ ⟨h1⟩
    cases h1 with
    | @cons y y' l l' h t =>
      obtain ⟨i', d'⟩ := y'
      obtain ⟨rfl, hd⟩ := h
      refine ⟨⟨(_, d') :: l', k, .trailing j⟩, ?_, ⟨.cons ⟨rfl, hd⟩ t⟩⟩
      rw [← t.length]
      exact .trailing

theorem steps_loose [Naming cx M] {κ κ1 : Ctx V} {toks rest : List Bytes} {evs : List Event} (h : Steps cx κ toks evs κ1 rest) :
    ∀ κ', LooseCtx M κ κ' → ∃ κ1', Steps cx κ' toks evs κ1' rest ∧ LooseCtx M κ1 κ1' := by
  induction h with
  | refl => exact fun κ' hl => ⟨κ', .refl, hl⟩
  | step h _ ih =>
    intro κ' hl
    obtain ⟨κ2, h2, hl2⟩ := step_loose h κ' hl
    obtain ⟨κ3, h3, hl3⟩ := ih κ2 hl2
    exact ⟨κ3, .step h2 h3, hl3⟩

theorem fieldAt_loose {st st' : List (Entry V)} (h : All₂ (LooseEntry M) st st') {a : Addr} :
    (fieldAt st a = none ∧ fieldAt st' a = none) ∨ ∃ f f', fieldAt st a = some f ∧ fieldAt st' a = some f' ∧ LooseField M f f' := by
  induction h with
  | nil => left; exact ⟨rfl, rfl⟩
  | @cons x x' l l' h t ih =>
    obtain ⟨i, d⟩ := x
    obtain ⟨i', d'⟩ := x'
    rw [fieldAt, fieldAt, t.length]
    split
    · rcases (structs_loose h.2).get a.struct with ⟨e1, e2⟩ | ⟨c, c', e1, e2, e3⟩
      · rw [e1, e2]; left; exact ⟨rfl, rfl⟩
      · rw [e1, e2]
        rcases All₂.get e3 a.field with ⟨e4, e5⟩ | ⟨f, f', e4, e5, e6⟩
        · left; exact ⟨e4, e5⟩
        · right; exact ⟨f, f', e4, e5, e6⟩
    · exact ih

theorem globals_loose [Styling M.attr] {st st' : List (Entry V)} (h : All₂ (LooseEntry M) st st') : All₂ (LooseAt M) (globals st) (globals st') := by
  induction h with
  | nil => exact .nil
  | @cons x x' l l' h t ih =>
    obtain ⟨i, d⟩ := x
    obtain ⟨i', d'⟩ := x'
    simp only [globals]
    rw [t.length]
    exact ((fieldsAt_loose h.2 _).filter (fun x x' hx => hx.2.global)).append ih

theorem visible_loose [Styling M.attr] {st st' : List (Entry V)} (h : All₂ (LooseEntry M) st st') : All₂ (LooseAt M) (visible st) (visible st') := by
  cases h with
  | nil => exact .nil
  | @cons x x' l l' h t =>
    obtain ⟨i, d⟩ := x
    obtain ⟨i', d'⟩ := x'
    simp only [visible]
    rw [t.length]
    exact (fieldsAt_loose h.2 _).append (globals_loose t)

theorem unknown_loose [Styling M.attr] {st st' : List (Entry V)} (h : All₂ (LooseEntry M) st st') {n : Name} (hu : Unknown cx st n) : Unknown cx st' n := by
  intro x' hx'
  obtain ⟨j, hj⟩ := List.mem_iff_getElem?.1 hx'
  obtain ⟨x, h1, h2⟩ := (visible_loose h).get_some' hj
  rw [h2.2.declares]
  exact hu x (List.mem_of_getElem? h1)
end

/-! ## Arguments that cannot be read -/

set_option linter.unusedSectionVars false

variable {M : Change V} [Styling M.attr] [SameParser M]

theorem LooseField.styled {f f' : FieldInfo V} (h : LooseField M f f') :
    f'.src.requireEquals = f.src.requireEquals ∧ f'.src.allowHyphenValues = f.src.allowHyphenValues
    ∧ f'.src.allowNegativeNumbers = f.src.allowNegativeNumbers ∧ f'.src.required = f.src.required ∧ f'.src.exclusive = f.src.exclusive
    ∧ f'.src.requires = f.src.requires ∧ f'.src.conflictsWith = f.src.conflictsWith := by
  have h := Styling.styled h.src
  unfold StyledArg at h
  rw [h]
  exact ⟨rfl, rfl, rfl, rfl, rfl, rfl, rfl⟩

theorem LooseField.standalone_iff {f f' : FieldInfo V} (h : LooseField M f f') {v : Bytes} : Standalone f' v ↔ Standalone f v := by
  unfold Standalone
  rw [h.styled.2.1, h.styled.2.2.1]

theorem Spec.SameError.refl {shown : FieldInfo V → Str} {st st' : List (Entry V)} (e : Error) : SameError shown st st' e e := ⟨rfl, .inl rfl, .inl rfl⟩

theorem about_same {st st' : List (Entry V)} {a : Addr} {f f' : FieldInfo V} (hf : fieldAt st a = some f) (hf' : fieldAt st' a = some f')
    (h : LooseField M f f') (e : Error) : SameError (·.description) st st' (about f e) (about f' e) := by
  unfold about
  rw [h.isOption]
  split
  · exact ⟨rfl, .inr ⟨a, f, f', hf, hf', h.ident, Styling.styled h.src, rfl, rfl⟩, .inl rfl⟩
  · exact .refl e

theorem help_same {st st' : List (Entry V)} : SameError (·.description) st st' (helpRequest st) (helpRequest st') :=
  ⟨rfl, .inl rfl, .inr ⟨rfl, rfl⟩⟩

theorem clusterStuck_styled {st st' : List (Entry V)} (h : All₂ (LooseEntry M) st st') {next : Option Bytes} {b : Bytes} {evs : List Event} {e : Error}
    (hc : ClusterStuck cx st next b evs e) : ∃ e', ClusterStuck cx st' next b evs e' ∧ SameError (·.description) st st' e e' := by
  induction hc with
  | more hr ht hq hne heq _ ih =>
    obtain ⟨f', hr', hf⟩ := resolves_loose h hr
    obtain ⟨e', h1, h2⟩ := ih
    exact ⟨e', .more hr' (by rw [hf.takesValue]; exact ht) (hf.requireEquals hq) hne heq h1, h2⟩
  | unknown hu hc => exact ⟨_, .unknown (unknown_loose h hu) hc, .refl _⟩
  | help hu => exact ⟨_, .help (unknown_loose h hu), help_same⟩
  | invalid hne hb => exact ⟨_, .invalid hne hb, .refl _⟩
  | missingEqAttached hr hq hne heq =>
    obtain ⟨f', hr', hf⟩ := resolves_loose h hr
    exact ⟨_, .missingEqAttached hr' (by rw [hf.styled.1]; exact hq) hne heq, about_same (resolves_fieldAt hr) (resolves_fieldAt hr') hf _⟩
  | missingEq hr ht hq =>
    obtain ⟨f', hr', hf⟩ := resolves_loose h hr
    exact ⟨_, .missingEq hr' (by rw [hf.takesValue]; exact ht) (by rw [hf.styled.1]; exact hq),
      about_same (resolves_fieldAt hr) (resolves_fieldAt hr') hf _⟩
  | missingValue hr ht hq hn =>
    obtain ⟨f', hr', hf⟩ := resolves_loose h hr
    exact ⟨_, .missingValue hr' (by rw [hf.takesValue]; exact ht) (by rw [hf.styled.1]; exact hq)
      (fun v hv hs => hn v hv (hf.standalone_iff.1 hs)), about_same (resolves_fieldAt hr) (resolves_fieldAt hr') hf _⟩
  | flagValue hr hk =>
    obtain ⟨f', hr', hf⟩ := resolves_loose h hr
    exact ⟨_, .flagValue hr' (by rw [hf.kind]; exact hk), about_same (resolves_fieldAt hr) (resolves_fieldAt hr') hf _⟩
  | optionalValue hr hk =>
    obtain ⟨f', hr', hf⟩ := resolves_loose h hr
    exact ⟨_, .optionalValue hr' (by rw [hf.kind]; exact hk), .refl _⟩

theorem hasSub_loose {d d' : ArgsDef V} (h : LooseArgs M d d') : hasSub d' = hasSub d := by
  cases h with
  | mk _ _ hs => cases hs <;> rfl

theorem surplus_same {d d' : ArgsDef V} (h : LooseArgs M d d') (tok : Bytes) : surplus d' tok = surplus d tok := by
  unfold surplus
  rw [hasSub_loose h]

theorem stuck_styled {κ : Ctx V} {toks : List Bytes} {evs : List Event} {e : Error} (h : Stuck cx κ toks evs e) :
    ∀ κ', LooseCtx M κ κ' → ∃ e', Stuck cx κ' toks evs e' ∧ SameError (·.description) κ.stack κ'.stack e e' := by
  cases h with
  | longUnknown hd hne hn ht hu hh =>
    rintro _ ⟨h1⟩
    exact ⟨_, .longUnknown hd hne hn ht (fun n hn => unknown_loose h1 (hu n hn)) hh, .refl _⟩
  | longHelp ht hu =>
    rintro _ ⟨h1⟩
    exact ⟨_, .longHelp ht (unknown_loose h1 hu), help_same⟩
  | flagValue hr hn hk =>
    rintro _ ⟨h1⟩
    obtain ⟨f', hr', hf⟩ := resolves_loose h1 hr
    exact ⟨_, .flagValue hr' hn (by rw [hf.kind]; exact hk), about_same (resolves_fieldAt hr) (resolves_fieldAt hr') hf _⟩
  | missingEq hr hn hne ht hq =>
    rintro _ ⟨h1⟩
    obtain ⟨f', hr', hf⟩ := resolves_loose h1 hr
    exact ⟨_, .missingEq hr' hn hne (by rw [hf.takesValue]; exact ht) (by rw [hf.styled.1]; exact hq),
      about_same (resolves_fieldAt hr) (resolves_fieldAt hr') hf _⟩
  | missingValue hr hn hne ht hq hv =>
    rintro _ ⟨h1⟩
    obtain ⟨f', hr', hf⟩ := resolves_loose h1 hr
    exact ⟨_, .missingValue hr' hn hne (by rw [hf.takesValue]; exact ht) (by rw [hf.styled.1]; exact hq)
      (fun v hx hs => hv v hx (hf.standalone_iff.1 hs)), about_same (resolves_fieldAt hr) (resolves_fieldAt hr') hf _⟩
  | cluster hb hc =>
    rintro _ ⟨h1⟩
    obtain ⟨e', h2, h3⟩ := clusterStuck_styled h1 hc
    exact ⟨e', .cluster hb h2, h3⟩
  | @surplus i d st k tok toks hp hns hx =>
    rintro _ ⟨h1⟩
    cases h1 with
    | @cons y y' l l' h t =>
      obtain ⟨i', d'⟩ := y'
      obtain ⟨rfl, hd⟩ := h
      refine ⟨_, .surplus hp (subNames_loose hd hns) ?_, by rw [surplus_same hd]; exact .refl _⟩
      rcases posTarget_loose hd k with ⟨_, e2⟩ | ⟨x0, x', e1, _, _⟩
      · exact e2
      · rw [e1] at hx; cases hx
  | @dashed i d st k tok toks hl hx =>
    rintro _ ⟨h1⟩
    cases h1 with
    | @cons y y' l l' h t =>
      obtain ⟨i', d'⟩ := y'
      obtain ⟨rfl, hd⟩ := h
      refine ⟨_, .dashed ?_ ?_, by rw [surplus_same hd]; exact .refl _⟩
      · rcases lastArg_loose hd with ⟨_, e2⟩ | ⟨x0, x', e1, _, _⟩
        · exact e2
        · rw [e1] at hl; cases hl
      · rcases posTarget_loose hd k with ⟨_, e2⟩ | ⟨x0, x', e1, _, _⟩
        · exact e2
        · rw [e1] at hx; cases hx

/-! ## Values -/

theorem acceptable_styled {st st' : List (Entry V)} (h : All₂ (LooseEntry M) st st') {evs : List Event} (ha : Acceptable st evs) : Acceptable st' evs := by
  intro a f' hf'
  rcases fieldAt_loose h (a := a) with ⟨_, e2⟩ | ⟨f, g, e1, e2, e3⟩
  · rw [e2] at hf'; cases hf'
  · rw [e2] at hf'
    cases hf'
    rw [e3.given]
    exact ha a f e1

theorem badValue_styled {f f' : FieldInfo V} (h : LooseField M f f') {os : List (Option Bytes)} {o : Option Bytes} {e : Error}
    (hb : BadValue f os o e) : BadValue f' os o e := by
  have hp : parsed f' = parsed f := by funext b; simp [parsed, h.parser]
  have hpc : pieces f' = pieces f := by funext b; simp [pieces, h.delimiter]
  cases hb with
  | flagValue hk => exact .flagValue (by rw [h.kind]; exact hk)
  | duplicate hm ho hne => exact .duplicate (by rw [h.isMulti]; exact hm) (by rw [h.kind]; exact ho) hne
  | invalid hm hk hos hv => exact .invalid (by rw [h.isMulti]; exact hm) (by rw [h.kind]; exact hk) hos (by rw [h.parser]; exact hv)
  | piece hm hps hxs hv => exact .piece (by rw [h.isMulti]; exact hm) (by rw [hpc]; exact hps) (by rw [hp]; exact hxs) (by rw [h.parser]; exact hv)

theorem firstBad_styled {st st' : List (Entry V)} (h : All₂ (LooseEntry M) st st') {log evs : List Event} {e : Error} (hb : FirstBad st log evs e) :
    ∃ e', FirstBad st' log evs e' ∧ SameError (·.description) st st' e e' := by
  obtain ⟨pre, a, o, post, f, e0, h1, h2, h3, h4, rfl⟩ := hb
  rcases fieldAt_loose h (a := a) with ⟨e1, _⟩ | ⟨f0, f', e1, e2, e3⟩
  · rw [e1] at h2; cases h2
  · rw [e1] at h2
    cases h2
    have hn : normalise f' = normalise f := by funext b; simp [normalise, e3.rel.ignoreCase]
    exact ⟨_, ⟨pre, a, o, post, f', e0, h1, e2, acceptable_styled h h3, by rw [hn]; exact badValue_styled e3 h4, rfl⟩, about_same e1 e2 e3 e0⟩

/-! ## Constraints -/

/-- Both absent, or both present and related. -/
inductive ORel {α : Type} (R : α → α → Prop) : Option α → Option α → Prop
  | none : ORel R none none
  | some {x x'} (h : R x x') : ORel R (some x) (some x')

namespace ORel
variable {α β : Type} {R S : α → α → Prop} {o o' p p' : Option α}

theorem or (h : ORel R o o') (hp : ORel R p p') : ORel R (o.or p) (o'.or p') := by
  cases h with
  | none => exact hp
  | some h => exact .some h

theorem mono (h : ORel R o o') (hi : ∀ x x', R x x' → S x x') : ORel S o o' := by
  cases h with
  | none => exact .none
  | some h => exact .some (hi _ _ h)

theorem map {T : β → β → Prop} {g g' : α → β} (h : ORel R o o') (hi : ∀ x x', R x x' → T (g x) (g' x')) : ORel T (o.map g) (o'.map g') := by
  cases h with
  | none => exact .none
  | some h => exact .some (hi _ _ h)

theorem findSome {T : β → β → Prop} {l l' : List β} (h : All₂ T l l') {g g' : β → Option α} (hg : ∀ x x', T x x' → ORel R (g x) (g' x')) :
    ORel R (l.findSome? g) (l'.findSome? g') := by
  induction h with
  | nil => exact .none
  | @cons x x' l l' h t ih =>
    rw [List.findSome?_cons, List.findSome?_cons]
    have := hg _ _ h
    generalize g x = y at this
    generalize g' x' = y' at this
    cases this with
    | none => exact ih
    | some h => exact .some h
end ORel

/-- The same failure, where related fields are shown. -/
inductive FRel (R : FieldInfo V → FieldInfo V → Prop) : Fail → Fail → Prop
  | same {x} : FRel R x x
  | field {k f f'} (h : R f f') : FRel R (.error { kind := k, argDesc := some f.description }) (.error { kind := k, argDesc := some f'.description })

theorem FRel.mono {R S : FieldInfo V → FieldInfo V → Prop} {x x' : Fail} (h : FRel R x x') (hi : ∀ f f', R f f' → S f f') : FRel S x x' := by
  cases h with
  | same => exact .same
  | field h => exact .field (hi _ _ h)

/-- Fields at the same place of a struct. -/
def InCore (M : Change V) (c c' : Core V) (f f' : FieldInfo V) : Prop :=
  LooseField M f f' ∧ ∃ i : Nat, c.fields[i]? = some f ∧ c'.fields[i]? = some f'

/-- A field with its index in the struct. -/
def InCoreAt (M : Change V) (c c' : Core V) (x x' : FieldInfo V × Nat) : Prop :=
  x.2 = x'.2 ∧ LooseField M x.1 x'.1 ∧ c.fields[x.2]? = some x.1 ∧ c'.fields[x.2]? = some x'.1

theorem zipIdx_core {c c' : Core V} (h : LooseCore M c c') : All₂ (InCoreAt M c c') c.fields.zipIdx c'.fields.zipIdx := by
  have key : ∀ {l l' : List (FieldInfo V)}, All₂ (LooseField M) l l' → ∀ (k : Nat),
      (∀ i, c.fields[k + i]? = l[i]?) → (∀ i, c'.fields[k + i]? = l'[i]?) → All₂ (InCoreAt M c c') (l.zipIdx k) (l'.zipIdx k) := by
    intro l l' hl
    induction hl with
    | nil => intro k _ _; exact .nil
    | cons h _ ih =>
      intro k h1 h2
      rw [List.zipIdx_cons, List.zipIdx_cons]
      refine .cons ⟨rfl, h, by simpa using h1 0, by simpa using h2 0⟩ (ih (k + 1) (fun i => ?_) (fun i => ?_))
      · have := h1 (i + 1); rw [show k + 1 + i = k + (i + 1) by omega]; simpa using this
      · have := h2 (i + 1); rw [show k + 1 + i = k + (i + 1) by omega]; simpa using this
  exact key h 0 (by simp) (by simp)

theorem all₂_any {α : Type} {R : α → α → Prop} {l l' : List α} (h : All₂ R l l') {p p' : α → Bool} (hp : ∀ x x', R x x' → p' x' = p x) : l'.any p' = l.any p := by
  induction h with
  | nil => rfl
  | cons h _ ih => rw [List.any_cons, List.any_cons, hp _ _ h, ih]

theorem setError_styled {c c' : Core V} (h : LooseCore M c c') (given : Nat → Bool) (sub : Bool) {x x' : FieldInfo V × Nat}
    (hx : InCoreAt M c c' x x') :
    ORel (FRel (InCore M c c')) ((setError c given sub x.2 x.1).map .error) ((setError c' given sub x'.2 x'.1).map .error) := by
  obtain ⟨f, i⟩ := x
  obtain ⟨f', i'⟩ := x'
  obtain ⟨h1, h2, h3, h4⟩ := hx
  dsimp only at h1 h2 h3 h4 ⊢
  subst h1
  have hin : InCore M c c' f f' := ⟨h2, i, h3, h4⟩
  have hlen : c'.fields.length = c.fields.length := All₂.length h
  have hz := zipIdx_core h
  unfold setError
  rw [h2.styled.2.2.2.2.1, h2.styled.2.2.2.2.2.1, h2.styled.2.2.2.2.2.2, hlen]
  split
  · exact .some (.field hin)
  · have hreq : ORel (InCoreAt M c c') (f.src.requires.findSome? (fun x => c.fields.zipIdx.find? (fun y => decide (y.1.ident = x) && !given y.2)))
        (f.src.requires.findSome? (fun x => c'.fields.zipIdx.find? (fun y => decide (y.1.ident = x) && !given y.2))) := by
      refine ORel.findSome (T := Eq) (All₂.refl (fun _ => rfl) _) ?_
      rintro x _ rfl
      rcases hz.find (p := fun (y : FieldInfo V × Nat) => decide (y.1.ident = x) && !given y.2) (fun y y' hy => by rw [hy.2.1.ident, hy.1]) with ⟨e1, e2⟩ | ⟨y, y', e1, e2, e3⟩
      · rw [e1, e2]; exact .none
      · rw [e1, e2]; exact .some e3
    revert hreq
    generalize (f.src.requires.findSome? (fun x => c.fields.zipIdx.find? (fun y => decide (y.1.ident = x) && !given y.2))) = o
    generalize (f.src.requires.findSome? (fun x => c'.fields.zipIdx.find? (fun y => decide (y.1.ident = x) && !given y.2))) = o'
    intro hreq
    cases hreq with
    | some hg => exact .some (.field ⟨hg.2.1, _, hg.2.2⟩)
    | none =>
      have hany : (f.src.conflictsWith.any (fun x => c'.fields.zipIdx.any (fun y => decide (y.1.ident = x) && given y.2)))
          = f.src.conflictsWith.any (fun x => c.fields.zipIdx.any (fun y => decide (y.1.ident = x) && given y.2)) := by
        refine all₂_any (All₂.refl (R := Eq) (fun _ => rfl) _) ?_
        rintro x _ rfl
        exact all₂_any hz (fun y y' hy => by rw [hy.2.1.ident, hy.1])
      dsimp only
      rw [hany]
      split
      · exact .some (.field hin)
      · exact .none

theorem LooseField.isRequired_eq {f f' : FieldInfo V} (h : LooseField M f f') : Spec.isRequired f' = Spec.isRequired f := by
  unfold Spec.isRequired
  rw [h.default, h.kind, h.styled.2.2.2.1]

theorem structFail_styled {c c' : Core V} (h : LooseCore M c c') (given : Nat → Bool) (sub needSub : Bool) :
    ORel (FRel (InCore M c c')) (structFail c given sub needSub) (structFail c' given sub needSub) := by
  have hz := zipIdx_core h
  unfold structFail
  refine .or ?_ (.or ?_ ?_)
  · have push : ∀ {α β γ : Type} (l : List α) (g : α → Option β) (k : β → γ), (l.findSome? g).map k = l.findSome? (fun x => (g x).map k) := by
      intro α β γ l g k
      induction l with
      | nil => rfl
      | cons x l ih =>
        rw [List.findSome?_cons, List.findSome?_cons]
        cases g x with
        | none => exact ih
        | some y => rfl
    rw [push, push]
    refine ORel.findSome hz ?_
    intro x x' hx
    rw [← hx.1]
    split
    · have := setError_styled h given sub hx
      rw [← hx.1] at this
      exact this
    · exact .none
  · refine ORel.findSome hz ?_
    intro x x' hx
    rw [← hx.1]
    split
    · exact .none
    · unfold unsetFail
      rw [hx.2.1.isRequired_eq, hx.2.1.fieldOut]
      split
      · exact .some (.field ⟨hx.2.1, _, hx.2.2⟩)
      · split
        · exact .some .same
        · exact .none
  · split
    · exact .some .same
    · exact .none

/-- Fields at the same place of some structs. -/
def InStructs (M : Change V) (cs cs' : List (Core V)) (f f' : FieldInfo V) : Prop :=
  ∃ (s : Nat) (c c' : Core V), cs[s]? = some c ∧ cs'[s]? = some c' ∧ InCore M c c' f f'

theorem getElem?_append_some {α : Type} {l l' : List α} {i : Nat} {x : α} (h : l[i]? = some x) : (l ++ l')[i]? = some x := by
  rw [List.getElem?_append_left (List.getElem?_eq_some_iff.1 h).1, h]

mutual
theorem argsFail_styled {d d' : ArgsDef V} : LooseArgs M d d' → ∀ (given : Nat → Nat → Bool) (s : Nat) (sub : Bool),
    ORel (FRel (InStructs M (structs d) (structs d'))) (argsFail given s sub d) (argsFail given s sub d')
  | .mk (c := c) (c' := c') (fl := fl) (fl' := fl') (s := sf) (s' := sf') hc hf hs, given, s, sub => by
    have hr : subRequired (.mk c' fl' sf') = subRequired (.mk c fl sf) := subRequired_loose (LooseArgs.mk hc hf hs)
    rw [argsFail, argsFail, hr, structs, structs]
    refine .or ?_ ?_
    · exact (flatsFail_styled hf given (s + 1)).mono (fun x x' hx => hx.mono (fun f f' ⟨k, c, c', h1, h2, h3⟩ => ⟨k + 1, c, c', h1, h2, h3⟩))
    · exact (structFail_styled hc (given s) sub _).mono (fun x x' hx => hx.mono (fun f f' h => ⟨0, c, c', rfl, rfl, h⟩))
theorem flatsFail_styled {fl fl' : Flats V} : LooseFlats M fl fl' → ∀ (given : Nat → Nat → Bool) (s : Nat),
    ORel (FRel (InStructs M (flatStructs fl) (flatStructs fl'))) (flatsFail given s fl) (flatsFail given s fl')
  | .nil, _, _ => .none
  | .cons (d := d) (d' := d') (r := r) (r' := r') h hr, given, s => by
    have hlen := (structs_loose h).length
    rw [flatsFail, flatsFail, flatStructs, flatStructs, hlen]
    refine .or ?_ ?_
    · refine (argsFail_styled h given s false).mono (fun x x' hx => hx.mono ?_)
      rintro f f' ⟨k, c, c', h1, h2, h3⟩
      exact ⟨k, c, c', getElem?_append_some h1, getElem?_append_some h2, h3⟩
    · refine (flatsFail_styled hr given _).mono (fun x x' hx => hx.mono ?_)
      rintro f f' ⟨k, c, c', h1, h2, h3⟩
      refine ⟨(structs d).length + k, c, c', ?_, ?_, h3⟩
      · rw [List.getElem?_append_right (by omega), Nat.add_sub_cancel_left]; exact h1
      · rw [List.getElem?_append_right (by omega), hlen, Nat.add_sub_cancel_left]; exact h2
end

/-- Fields at the same address. -/
def InStack (M : Change V) (st st' : List (Entry V)) (f f' : FieldInfo V) : Prop := LooseField M f f' ∧ ∃ a, fieldAt st a = some f ∧ fieldAt st' a = some f'

theorem allFail_styled {st st' : List (Entry V)} (h : All₂ (LooseEntry M) st st') (evs : List Event) (sub : Bool) :
    ORel (FRel (InStack M st st')) (allFail evs st sub) (allFail evs st' sub) := by
  induction h generalizing sub with
  | nil => exact .none
  | @cons x x' l l' h t ih =>
    obtain ⟨i, d⟩ := x
    obtain ⟨i', d'⟩ := x'
    rw [allFail, allFail, t.length]
    refine .or ?_ ?_
    · refine (argsFail_styled h.2 _ 0 sub).mono (fun x x' hx => hx.mono ?_)
      rintro f f' ⟨k, c, c', h1, h2, h3, j, h4, h5⟩
      refine ⟨h3, ⟨l.length, k, j⟩, ?_, ?_⟩
      · rw [fieldAt, if_pos rfl, h1]; exact h4
      · rw [fieldAt, if_pos t.length.symm, h2]; exact h5
    · refine (ih true).mono (fun x x' hx => hx.mono ?_)
      rintro f f' ⟨h3, a, h4, h5⟩
      have := fieldAt_lt h4
      refine ⟨h3, a, ?_, ?_⟩
      · rw [fieldAt, if_neg (by omega)]; exact h4
      · rw [fieldAt, if_neg (by rw [t.length]; omega)]; exact h5

theorem FRel.sameFail {st st' : List (Entry V)} {x x' : Fail} (h : FRel (InStack M st st') x x') : SameFail (·.description) st st' x x' := by
  cases h with
  | @same x =>
    cases x with
    | panic => exact .panic
    | error e => exact .error (.refl e)
  | field h =>
    obtain ⟨h1, a, h2, h3⟩ := h
    exact .error ⟨rfl, .inr ⟨a, _, _, h2, h3, h1.ident, Styling.styled h1.src, rfl, rfl⟩, .inl rfl⟩

/-! ## The outcome -/

theorem outcome_styled {d d' : ArgsDef V} (wf : WFArgs cx d) (wf' : WFArgs cx d') (h : LooseArgs M d d') (argv0 : Bytes) (toks : List Bytes) :
    (∃ out, tryParseFrom d (argv0 :: toks) = .ok out ∧ tryParseFrom d' (argv0 :: toks) = .ok out)
    ∨ ∃ x x' evs κ κ' rest, tryParseFrom d (argv0 :: toks) = .error x ∧ tryParseFrom d' (argv0 :: toks) = .error x'
      ∧ Steps cx (start argv0 d) toks evs κ rest ∧ Steps cx (start argv0 d') toks evs κ' rest ∧ LooseCtx M κ κ' ∧ SameFail (·.description) κ.stack κ'.stack x x' := by
  have hstart : LooseCtx M (start argv0 d) (start argv0 d') := ⟨.cons ⟨rfl, h⟩ .nil⟩
  rcases run_cases (root_sim wf argv0) toks with ⟨evs, κ, hr⟩ | ⟨evs, κ, e, hh⟩ | ⟨evs, κ, rest, e, hst, _, hb⟩
  · obtain ⟨κ', hr', hl⟩ := reads_loose hr _ hstart
    rcases outcome_reads wf hr with ⟨_, ha, _, h2⟩ | ⟨e1, h1, h2⟩
    · have ha' := acceptable_styled hl.stack ha
      rcases outcome_reads wf' hr' with ⟨_, _, _, h2'⟩ | ⟨e1, h1, _⟩
      · have hrel := allFail_styled hl.stack evs false
        revert h2 h2' hrel
        generalize allFail evs κ.stack false = x
        generalize allFail evs κ'.stack false = x'
        intro h2 h2' hrel
        cases hrel with
        | none =>
          obtain ⟨o, q1, q2⟩ := h2
          obtain ⟨o', q1', q2'⟩ := h2'
          rw [outAll_loose hl.stack, q1] at q1'
          cases q1'
          exact .inl ⟨o, q2, q2'⟩
        | some hx => exact .inr ⟨_, _, evs, κ, κ', [], h2, h2', reads_steps hr, reads_steps hr', hl, hx.sameFail⟩
      · exact absurd ha' h1.not_acceptable
    · obtain ⟨e', hb', hsame⟩ := firstBad_styled hl.stack h1
      exact .inr ⟨_, _, evs, κ, κ', [], h2, outcome_steps wf' (reads_steps hr') hb', reads_steps hr, reads_steps hr', hl, .error hsame⟩
  · obtain ⟨e1, e2, rest, hst, hstk, rfl⟩ := hh
    obtain ⟨κ', hst', hl⟩ := steps_loose hst _ hstart
    obtain ⟨e', hstk', hsame⟩ := stuck_styled hstk κ' hl
    have hh : Halts cx (start argv0 d) toks (e1 ++ e2) κ e := ⟨_, _, _, hst, hstk, rfl⟩
    have hh' : Halts cx (start argv0 d') toks (e1 ++ e2) κ' e' := ⟨_, _, _, hst', hstk', rfl⟩
    rcases outcome_halts wf hh with ⟨ha, h1⟩ | ⟨x, hb, h1⟩
    · rcases outcome_halts wf' hh' with ⟨_, h1'⟩ | ⟨x', hb', _⟩
      · exact .inr ⟨_, _, e1, κ, κ', rest, h1, h1', hst, hst', hl, .error hsame⟩
      · exact absurd (acceptable_styled hl.stack ha) hb'.not_acceptable
    · obtain ⟨x', hb', hs'⟩ := firstBad_styled hl.stack hb
      rcases outcome_halts wf' hh' with ⟨ha', _⟩ | ⟨x'', hb'', h1'⟩
      · exact absurd ha' hb'.not_acceptable
      · rw [← hb'.unique hb''] at h1'
        exact .inr ⟨_, _, e1, κ, κ', rest, h1, h1', hst, hst', hl, .error hs'⟩
  · obtain ⟨κ', hst', hl⟩ := steps_loose hst _ hstart
    obtain ⟨e', hb', hsame⟩ := firstBad_styled hl.stack hb
    exact .inr ⟨_, _, evs, κ, κ', rest, outcome_steps wf hst hb, outcome_steps wf' hst' hb', hst, hst', hl, .error hsame⟩

end Palc
