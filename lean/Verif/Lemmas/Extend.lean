import Verif.SpecExtend
import Verif.Lemmas.Inline
/-! Extended definitions read the same command lines (C66). -/

namespace Palc

open Spec

variable {V : Type} {cx : Cx V} {T : Bytes → Prop}

namespace Spec.Extends

variable {G G' : Name → Prop} {d d' : ArgsDef V} {φ : Pos → Pos}

theorem mono (hG : ∀ n, G' n → G n) (h : Extends cx T G d d' φ) : Extends cx T G' d d' φ := by
  induction h generalizing G' with
  | @mk G d d' φ args required C Φ kept added subs ih =>
    refine .mk ⟨args.to, args.inj, args.struct, args.order, ?_, args.target, args.last, args.noLast⟩ required C Φ kept added ?_
    · intro q f' hq
      rcases args.added q f' hq with h | ⟨h1, h2⟩
      · exact .inl h
      · exact .inr ⟨h1, fun n hn => ⟨fun hg => (h2 n hn).1 (hG n hg), (h2 n hn).2⟩⟩
    · intro v hv
      refine ih v hv fun n hn => ?_
      rcases hn with h | h
      · exact .inl (hG n h)
      · exact .inr h

theorem keeps (h : Extends cx T G d d' φ) : KeepsArgs cx G d d' φ := by cases h; assumption
theorem req (h : Extends cx T G d d' φ) : subRequired d' = true → subRequired d = true := by cases h; assumption

end Spec.Extends

/-- Names of global arguments of the entered commands. -/
def takenBy (cx : Cx V) (st : List (Entry V)) (n : Name) : Prop :=
  ∃ a f, fieldAt st a = some f ∧ f.src.global = true ∧ declares cx f n = true

/-- The same commands have been entered. -/
inductive Grown (cx : Cx V) (T : Bytes → Prop) (μ : Nat → Pos → Pos) : List (Entry V) → List (Entry V) → Prop
  | nil : Grown cx T μ [] []
  | cons {i d d' st st'} (h : Grown cx T μ st st') (hd : Extends cx T (takenBy cx st) d d' (μ st.length)) :
      Grown cx T μ ((i, d) :: st) ((i, d') :: st')

namespace Grown

variable {μ : Nat → Pos → Pos} {st st' : List (Entry V)}

theorem length (h : Grown cx T μ st st') : st'.length = st.length := by
  induction h with
  | nil => rfl
  | cons _ _ ih => simp [ih]

theorem ids (h : Grown cx T μ st st') : st'.map (·.1) = st.map (·.1) := by
  induction h with
  | nil => rfl
  | cons _ _ ih => rw [List.map_cons, List.map_cons, ih]

theorem congr {μ' : Nat → Pos → Pos} (hμ : ∀ n < st.length, μ' n = μ n) (h : Grown cx T μ st st') : Grown cx T μ' st st' := by
  induction h with
  | nil => exact .nil
  | @cons i d d' st st' h hd ih =>
    refine .cons (ih (fun n hn => hμ n ?_)) ?_
    · simp; omega
    · rw [hμ _ (by simp)]; exact hd

theorem to (h : Grown cx T μ st st') {a : Addr} {f : FieldInfo V} (hf : fieldAt st a = some f) :
    ∃ f', fieldAt st' (moved μ a) = some f' ∧ withoutIndex f' = withoutIndex f := by
  induction h with
  | nil => simp [fieldAt] at hf
  | @cons i d d' st st' h hd ih =>
    rw [fieldAt_argAt] at hf
    split at hf
    · rename_i hl
      have hs := hd.keeps
      rw [fieldAt_argAt, if_pos (by rw [h.length]; exact hl)]
      rw [← hl] at hs
      exact hs.to _ _ hf
    · rename_i hl
      rw [fieldAt_argAt, if_neg (by rw [h.length]; exact hl)]
      exact ih hf

theorem inj (h : Grown cx T μ st st') {a b : Addr} {f g : FieldInfo V} (ha : fieldAt st a = some f) (hb : fieldAt st b = some g)
    (he : moved μ a = moved μ b) : a = b := by
  have hlev : a.level = b.level := congrArg Addr.level (a₁ := moved μ a) (a₂ := moved μ b) he
  induction h with
  | nil => simp [fieldAt] at ha
  | @cons i d d' st st' h hd ih =>
    rw [fieldAt_argAt] at ha hb
    rw [← hlev] at hb
    split at ha
    · rename_i hl
      rw [if_pos hl] at hb
      have hs := hd.keeps
      rw [← hl] at hs
      have h1 := congrArg Addr.struct he
      have h2 := congrArg Addr.field he
      unfold moved at h1 h2
      rw [← hlev] at h1 h2
      have := hs.inj _ _ f g ha hb (Prod.ext h1 h2)
      obtain ⟨l, s, k⟩ := a
      obtain ⟨l', s', k'⟩ := b
      simp only [Prod.mk.injEq] at this hlev
      simp [this.1, this.2, hlev]
    · rename_i hl
      rw [if_neg hl] at hb
      exact ih ha hb

theorem order (h : Grown cx T μ st st') {a b : Addr} {f g : FieldInfo V} {n : Name} (ha : fieldAt st a = some f) (hb : fieldAt st b = some g)
    (hf : declares cx f n = true) (hg : declares cx g n = true) (hab : Addr.precedes a b) : Addr.precedes (moved μ a) (moved μ b) := by
  induction h with
  | nil => simp [fieldAt] at ha
  | @cons i d d' st st' h hd ih =>
    rw [fieldAt_argAt] at ha hb
    rcases hab with hab | ⟨hab, hlt⟩
    · exact .inl hab
    · rw [← hab] at hb
      split at ha
      · rename_i hl
        rw [if_pos hl] at hb
        have hs := hd.keeps
        rw [← hl] at hs
        have := hs.order _ _ f g n ha hb hf hg hlt
        refine .inr ⟨hab, ?_⟩
        unfold moved
        rw [← hab]
        exact this
      · rename_i hl
        rw [if_neg hl] at hb
        exact ih ha hb

/-- Every argument of the extension is an old one, or can be left out; the latter take no name from visible old arguments of the same
command or an enclosing one. -/
theorem back (h : Grown cx T μ st st') {b : Addr} {g : FieldInfo V} (hb : fieldAt st' b = some g) :
    (∃ a f, fieldAt st a = some f ∧ moved μ a = b) ∨ (Omissible g ∧ (∀ a f, fieldAt st a = some f → moved μ a ≠ b) ∧ ∀ n, declares cx g n = true →
      ∀ a f, fieldAt st a = some f → a.level = b.level ∨ (a.level < b.level ∧ f.src.global = true) → declares cx f n = false) := by
  induction h with
  | nil => simp [fieldAt] at hb
  | @cons i d d' st st' h hd ih =>
    rw [fieldAt_argAt] at hb
    split at hb
    · rename_i hl
      rw [h.length] at hl
      have hs := hd.keeps
      rw [← hl] at hs
      have hback : (∃ a f, fieldAt ((i, d) :: st) a = some f ∧ moved μ a = b) ↔ ∃ p f, argAt d p = some f ∧ μ b.level p = (b.struct, b.field) := by
        constructor
        · rintro ⟨a, f, ha, he⟩
          have hla : a.level = b.level := congrArg Addr.level (a₁ := moved μ a) he
          rw [fieldAt_argAt, if_pos (by rw [hla, hl])] at ha
          refine ⟨_, f, ha, ?_⟩
          rw [← he]
          unfold moved
          rfl
        · rintro ⟨p, f, hp, he⟩
          refine ⟨⟨b.level, p.1, p.2⟩, f, ?_, ?_⟩
          · rw [fieldAt_argAt, if_pos hl]; exact hp
          · unfold moved
            simp only [he]
      rcases hs.added _ _ hb with h1 | ⟨h1, h2⟩
      · exact .inl (hback.2 h1)
      · by_cases hold : ∃ a f, fieldAt ((i, d) :: st) a = some f ∧ moved μ a = b
        · exact .inl hold
        · refine .inr ⟨h1, fun a f ha he => hold ⟨a, f, ha, he⟩, fun n hn a f ha hla => ?_⟩
          rw [fieldAt_argAt] at ha
          split at ha
          · exact (h2 n hn).2 _ f ha
          · rename_i hne
            rcases hla with hla | ⟨hla, hg⟩
            · exact absurd (hla.trans hl) hne
            · cases hf : declares cx f n with
              | false => rfl
              | true =>
                exact absurd ⟨a, f, ha, hg, hf⟩ (h2 n hn).1
    · rename_i hl
      have hlt := fieldAt_lt hb
      rw [h.length] at hl hlt
      rcases ih hb with ⟨a, f, ha, he⟩ | ⟨h1, h2, h3⟩
      · exact .inl ⟨a, f, fieldAt_ext_some (ext := [(i, d)]) ha, he⟩
      · refine .inr ⟨h1, fun a f ha he => ?_, fun n hn a f ha hla => ?_⟩
        · rw [fieldAt_argAt] at ha
          split at ha
          · have := congrArg Addr.level he
            unfold moved at this
            simp only at this
            omega
          · exact h2 a f ha he
        · rw [fieldAt_argAt] at ha
          split at ha
          · omega
          · exact h3 n hn a f ha hla

theorem resolves (h : Grown cx T μ st st') {n : Name} {a : Addr} {f : FieldInfo V} (hr : Resolves cx st n a f) :
    ∃ f', Resolves cx st' n (moved μ a) f' ∧ withoutIndex f' = withoutIndex f := by
  rw [resolves_iff] at hr
  obtain ⟨h1, h2, h3, h4⟩ := hr
  obtain ⟨f', hf', ef⟩ := h.to h1
  refine ⟨f', ?_, ef⟩
  rw [resolves_iff]
  refine ⟨hf', ?_, by rw [alike_declares ef]; exact h3, ?_⟩
  · rw [h.length, alike_src ef]; exact h2
  · intro b g hb hv hg
    rcases h.back hb with ⟨b0, g0, hb0, rfl⟩ | ⟨_, _, hnew⟩
    · obtain ⟨g1, hg1, eg⟩ := h.to hb0
      rw [hb] at hg1
      cases hg1
      rw [h.length] at hv
      have hdg : declares cx g0 n = true := by rw [← alike_declares eg]; exact hg
      rcases h4 _ g0 hb0 (by rw [← alike_src eg]; exact hv) hdg with e | e
      · left; rw [e]
      · right; exact h.order h1 hb0 h3 hdg e
    · right
      have hlb := fieldAt_lt hb
      rw [h.length] at hlb
      refine .inl ?_
      show b.level < a.level
      apply Classical.byContradiction
      intro hle
      have := hnew n hg a f h1 (by
        rcases h2 with h2 | h2
        · exact .inl (by omega)
        · by_cases he : a.level = b.level
          · exact .inl he
          · exact .inr ⟨by omega, h2⟩)
      rw [h3] at this
      cases this

theorem cluster (h : Grown cx T μ st st') {next : Option Bytes} {b : Bytes} {evs : List Event} {took : Bool}
    (hc : Cluster cx st next b evs took) : Cluster cx st' next b (evs.map (movedEvent μ)) took := by
  induction hc with
  | bare hr ht =>
    obtain ⟨f', hr', e⟩ := h.resolves hr
    exact .bare hr' (by rw [alike_takesValue e]; exact ht)
  | more hr ht hq hne heq _ ih =>
    obtain ⟨f', hr', e⟩ := h.resolves hr
    exact .more hr' (by rw [alike_takesValue e]; exact ht) (by rw [alike_src e]; exact hq) hne heq ih
  | eq hr ht =>
    obtain ⟨f', hr', e⟩ := h.resolves hr
    exact .eq hr' (by rw [alike_takesValue e]; exact ht)
  | attached hr ht hq hne heq =>
    obtain ⟨f', hr', e⟩ := h.resolves hr
    exact .attached hr' (by rw [alike_takesValue e]; exact ht) (by rw [alike_src e]; exact hq) hne heq
  | sep hr ht hq hn hs =>
    obtain ⟨f', hr', e⟩ := h.resolves hr
    exact .sep hr' (by rw [alike_takesValue e]; exact ht) (by rw [alike_src e]; exact hq) hn ((alike_standalone e _).2 hs)

end Grown

/-! ## Reading -/

/-- The context in the extension. -/
structure CtxGrown (cx : Cx V) (T : Bytes → Prop) (μ : Nat → Pos → Pos) (κ κ' : Ctx V) : Prop where
  stack : Grown cx T μ κ.stack κ'.stack
  npos : κ'.npos = κ.npos
  mode : κ'.mode = mvMode (μ (κ.stack.length - 1)) κ.mode

theorem step_grown {μ : Nat → Pos → Pos} {κ κ' κ1 : Ctx V} {toks rest : Toks} {evs : List Event} (hs : Step cx κ toks evs κ1 rest)
    (hT : ∀ t ∈ toks, T t) (hm : ModeOk κ) (h : CtxGrown cx T μ κ κ') :
    ∃ μ' κ1', (∀ n < κ.stack.length, μ' n = μ n)
      ∧ Step cx κ' toks (evs.map (movedEvent μ)) κ1' rest ∧ CtxGrown cx T μ' κ1 κ1' := by
  obtain ⟨st', k', m'⟩ := κ'
  obtain ⟨hst, hk, hmode⟩ := h
  cases hs with
  | longEq hr hn ht =>
    simp only [mvMode] at hst hk hmode
    subst hk; subst hmode
    obtain ⟨f', hr', e⟩ := hst.resolves hr
    exact ⟨μ, _, fun _ _ => rfl, .longEq hr' hn (by rw [alike_kind e]; exact ht), ⟨hst, rfl, rfl⟩⟩
  | longBare hr hn hne ht =>
    simp only [mvMode] at hst hk hmode
    subst hk; subst hmode
    obtain ⟨f', hr', e⟩ := hst.resolves hr
    exact ⟨μ, _, fun _ _ => rfl, .longBare hr' hn hne (by rw [alike_takesValue e]; exact ht), ⟨hst, rfl, rfl⟩⟩
  | longSep hr hn hne ht hq hsv =>
    simp only [mvMode] at hst hk hmode
    subst hk; subst hmode
    obtain ⟨f', hr', e⟩ := hst.resolves hr
    exact ⟨μ, _, fun _ _ => rfl, .longSep hr' hn hne (by rw [alike_takesValue e]; exact ht)
      (by rw [alike_src e]; exact hq) ((alike_standalone e _).2 hsv), ⟨hst, rfl, rfl⟩⟩
  | cluster hb hc =>
    simp only [mvMode] at hst hk hmode
    subst hk; subst hmode
    exact ⟨μ, _, fun _ _ => rfl, .cluster hb (hst.cluster hc), ⟨hst, rfl, rfl⟩⟩
  | clusterSep hb hc =>
    simp only [mvMode] at hst hk hmode
    subst hk; subst hmode
    exact ⟨μ, _, fun _ _ => rfl, .clusterSep hb (hst.cluster hc), ⟨hst, rfl, rfl⟩⟩
  | @sub i d st k v toks hv hp =>
    simp only [mvMode] at hst hk hmode
    subst hk; subst hmode
    cases hst with
    | @cons _ _ d' _ st' hst hd =>
    have hd0 := hd
    obtain ⟨args, req, C, Φ, kept, added, subs⟩ := hd
    obtain ⟨hv', hn, hi⟩ := kept v hv
    let μ' : Nat → Pos → Pos := fun n => if n = st.length + 1 then Φ v else μ n
    have e1 : ∀ n < st.length + 1, μ' n = μ n := fun n hn => if_neg (by omega)
    refine ⟨μ', ⟨(⟨variantIdent (C v), (C v).name⟩, variantDef (C v)) :: (i, d') :: st', 0, .opts⟩, e1, ?_, ?_, rfl, rfl⟩
    · rw [← hn]
      exact .sub hv' (by rw [hn]; exact hp)
    · rw [hi, hn]
      refine .cons (Grown.congr e1 (.cons hst hd0)) ?_
      show Extends cx T _ _ _ (if st.length + 1 = st.length + 1 then Φ v else _)
      rw [if_pos rfl]
      refine (subs v hv).mono ?_
      rintro n ⟨a, f, hf, hg, hdecl⟩
      rw [fieldAt_argAt] at hf
      split at hf
      · exact .inr ⟨_, f, hf, hg, hdecl⟩
      · exact .inl ⟨a, f, hf, hg, hdecl⟩
  | @positional i d st k tok x toks hp hns hx =>
    simp only [mvMode] at hst hk hmode
    subst hk; subst hmode
    have hall := hst
    cases hst with
    | @cons _ _ d' _ st' hst hd =>
    obtain ⟨y, hy, hp1⟩ := hd.keeps.target k' x hx
    have hns' : ∀ v ∈ subVariants d', enc v.name ≠ tok := by
      intro v hv he
      obtain ⟨args, req, C, Φ, kept, added, subs⟩ := hd
      obtain ⟨w, hw, e⟩ := added v hv (by rw [he]; exact hT tok (by simp))
      exact hns w hw (by rw [e]; exact he)
    refine ⟨μ, ⟨(i, d') :: st', k' + 1, modeAfter y .opts⟩, fun _ _ => rfl, ?_, hall, rfl, ?_⟩
    · have : movedEvent μ (⟨st.length, 0, x.2⟩, some tok) = (⟨st'.length, 0, y.2⟩, some tok) := by
        unfold movedEvent moved
        simp only [hp1.2, hst.length]
      rw [List.map_singleton, this]
      exact .positional hp hns' hy
    · unfold modeAfter
      rw [alike_src hp1.1]
      simp only [List.length_cons, Nat.add_sub_cancel]
      split
      · simp only [mvMode, hp1.2]
      · rfl
  | dashdash =>
    simp only [mvMode] at hst hk hmode
    subst hk; subst hmode
    exact ⟨μ, _, fun _ _ => rfl, .dashdash, ⟨hst, rfl, rfl⟩⟩
  | @last i d st k tok x toks hx =>
    simp only [mvMode] at hst hk hmode
    subst hk; subst hmode
    have hall := hst
    cases hst with
    | @cons _ _ d' _ st' hst hd =>
    obtain ⟨y, hy, hp1⟩ := hd.keeps.last x hx
    refine ⟨μ, ⟨(i, d') :: st', k', .dashed⟩, fun _ _ => rfl, ?_, hall, rfl, rfl⟩
    have : movedEvent μ (⟨st.length, 0, x.2⟩, some tok) = (⟨st'.length, 0, y.2⟩, some tok) := by
      unfold movedEvent moved
      simp only [hp1.2, hst.length]
    rw [List.map_singleton, this]
    exact .last hy
  | @dashed i d st k tok x toks hl hx =>
    simp only [mvMode] at hst hk hmode
    subst hk; subst hmode
    have hall := hst
    cases hst with
    | @cons _ _ d' _ st' hst hd =>
    obtain ⟨y, hy, hp1⟩ := hd.keeps.target k' x hx
    refine ⟨μ, ⟨(i, d') :: st', k' + 1, modeAfter y .dashed⟩, fun _ _ => rfl, ?_, hall, rfl, ?_⟩
    · have : movedEvent μ (⟨st.length, 0, x.2⟩, some tok) = (⟨st'.length, 0, y.2⟩, some tok) := by
        unfold movedEvent moved
        simp only [hp1.2, hst.length]
      rw [List.map_singleton, this]
      exact .dashed (hd.keeps.noLast hl) hy
    · unfold modeAfter
      rw [alike_src hp1.1]
      simp only [List.length_cons, Nat.add_sub_cancel]
      split
      · simp only [mvMode, hp1.2]
      · rfl
  | @trailing i d st k tok j toks =>
    simp only [mvMode] at hst hk hmode
    subst hk; subst hmode
    have hall := hst
    cases hst with
    | @cons _ _ d' _ st' hst hd =>
    obtain ⟨i0, d0, st0, x, k0, h1, h2, _, hx⟩ := hm j rfl
    simp only at h1
    cases h1
    obtain ⟨y, hy, hp1⟩ := hd.keeps.target k0 x hx
    have hp1 := hp1.2
    rw [h2] at hp1
    refine ⟨μ, ⟨(i, d') :: st', k', .trailing (μ st.length (0, j)).2⟩, fun _ _ => rfl, ?_, hall, rfl, rfl⟩
    have : movedEvent μ (⟨st.length, 0, j⟩, some tok) = (⟨st'.length, 0, (μ st.length (0, j)).2⟩, some tok) := by
      unfold movedEvent moved
      simp only [hp1, hst.length]
    rw [List.map_singleton, this]
    exact .trailing

theorem step_rest {κ κ1 : Ctx V} {toks rest : Toks} {evs : List Event} (h : Step cx κ toks evs κ1 rest) : ∀ t ∈ rest, t ∈ toks := by
  cases h <;> intro t ht <;> simp [ht]

theorem steps_grown {μ : Nat → Pos → Pos} {κ κ' κ1 : Ctx V} {toks rest : Toks} {evs : List Event} (hs : Steps cx κ toks evs κ1 rest)
    (hT : ∀ t ∈ toks, T t) (hm : ModeOk κ) (h : CtxGrown cx T μ κ κ') :
    ∃ μ' κ1', (∀ n < κ.stack.length, μ' n = μ n)
      ∧ Steps cx κ' toks (evs.map (movedEvent μ')) κ1' rest ∧ CtxGrown cx T μ' κ1 κ1' := by
  induction hs generalizing μ κ' with
  | refl => exact ⟨μ, κ', fun _ _ => rfl, .refl, h⟩
  | @step κ toks evs1 κ1 rest1 evs2 κ2 rest2 h1 h2 ih =>
    obtain ⟨μ1, κ1', a1, s1, c1⟩ := step_grown h1 hT hm h
    obtain ⟨μ2, κ2', a2, s2, c2⟩ := ih (fun t ht => hT t (step_rest h1 t ht)) (step_mode h1 hm) c1
    have hlen : κ.stack.length ≤ κ1.stack.length := by
      obtain ⟨ext, he⟩ := step_stack h1
      rw [he]; simp
    refine ⟨μ2, κ2', fun n hn => ?_, ?_, c2⟩
    · rw [a2 n (by omega), a1 n hn]
    · rw [List.map_append]
      refine .step ?_ s2
      have : evs1.map (movedEvent μ2) = evs1.map (movedEvent μ) := by
        refine List.map_congr_left fun x hx => ?_
        obtain ⟨f, hf⟩ := step_fields h1 hm x hx
        have hl := fieldAt_lt hf
        unfold movedEvent moved
        rw [a2 _ (by omega), a1 _ hl]
      rw [this]
      exact s1

/-! ## Constraints -/

theorem occs_grown {μ : Nat → Pos → Pos} {st st' : List (Entry V)} (h : Grown cx T μ st st') {evs : List Event}
    (he : ∀ x ∈ evs, ∃ f, fieldAt st x.1 = some f) {a : Addr} {f : FieldInfo V} (hf : fieldAt st a = some f) :
    occs (evs.map (movedEvent μ)) (moved μ a) = occs evs a := by
  unfold occs
  rw [List.filter_map, List.map_map]
  have : evs.filter ((fun e => decide (e.1 = moved μ a)) ∘ movedEvent μ) = evs.filter (fun e => decide (e.1 = a)) := by
    refine List.filter_congr fun x hx => ?_
    obtain ⟨g, hg⟩ := he x hx
    simp only [Function.comp_apply, movedEvent]
    refine decide_eq_decide.2 ?_
    constructor
    · intro e
      exact h.inj hg hf e
    · intro e; rw [e]
  rw [this]
  rfl

/-- Added arguments do not occur. -/
theorem occs_added {μ : Nat → Pos → Pos} {st : List (Entry V)} {evs : List Event}
    (he : ∀ x ∈ evs, ∃ f, fieldAt st x.1 = some f) {b : Addr} (hb : ∀ a f, fieldAt st a = some f → moved μ a ≠ b) :
    occs (evs.map (movedEvent μ)) b = [] := by
  unfold occs
  rw [List.map_eq_nil_iff, List.filter_eq_nil_iff]
  intro x hx
  obtain ⟨e, hem, rfl⟩ := List.mem_map.1 hx
  obtain ⟨f, hf⟩ := he e hem
  exact fun h => hb _ f hf (of_decide_eq_true h)

theorem acceptable_grown {μ : Nat → Pos → Pos} {st st' : List (Entry V)} (h : Grown cx T μ st st') {evs : List Event}
    (he : ∀ x ∈ evs, ∃ f, fieldAt st x.1 = some f) (ha : Acceptable st evs) : Acceptable st' (evs.map (movedEvent μ)) := by
  intro b g hb
  rcases h.back hb with ⟨a, f, hf, rfl⟩ | ⟨_, h2, _⟩
  · obtain ⟨g', hg', eg⟩ := h.to hf
    rw [hb] at hg'
    cases hg'
    rw [occs_grown h he hf, alike_given eg]
    exact ha _ _ hf
  · rw [occs_added he h2]
    rw [given_nil]
    exact Option.some_ne_none _

theorem argsOk_grown {G : Name → Prop} {d d' : ArgsDef V} {φ : Pos → Pos} (wf : WFArgs cx d) (wf' : WFArgs cx d') (h : KeepsArgs cx G d d' φ)
    (hreq : subRequired d' = true → subRequired d = true) {os os' : Pos → List (Option Bytes)} {sub : Bool}
    (ho : ∀ p f, argAt d p = some f → os' (φ p) = os p) (ho' : ∀ q, (∀ p f, argAt d p = some f → φ p ≠ q) → os' q = [])
    (k : ArgsOk d os sub) : ArgsOk d' os' sub := by
  have hc : SameConstraints d φ := by
    refine ⟨fun p q f g hp hq he => ?_, fun p f hp _ => ⟨fun q g hq he => ?_, ?_⟩⟩
    · rw [h.struct p f hp, h.struct q g hq]; exact he
    · rw [h.struct p f hp, h.struct q g hq] at he; exact he
    · rw [h.struct p f hp]
  have back : ∀ q f', argAt d' q = some f' → (∃ p f, argAt d p = some f ∧ φ p = q ∧ withoutIndex f' = withoutIndex f) ∨ (Omissible f' ∧ os' q = []) := by
    intro q f' hq
    by_cases hold : ∃ p f, argAt d p = some f ∧ φ p = q
    · obtain ⟨p, f, hp, rfl⟩ := hold
      obtain ⟨f1, hf1, ef⟩ := h.to p f hp
      rw [hq] at hf1
      cases hf1
      exact .inl ⟨p, f, hp, rfl, ef⟩
    · rcases h.added q f' hq with h1 | ⟨h1, _⟩
      · exact absurd h1 hold
      · exact .inr ⟨h1, ho' q (fun p f hp he => hold ⟨p, f, hp, he⟩)⟩
  have refs : ∀ p f x, argAt d p = some f → x ∈ f.src.requires ∨ x ∈ f.src.conflictsWith →
      ∃ q g, p.1 = q.1 ∧ argAt d q = some g ∧ g.ident = x := by
    intro p f x hp hx
    obtain ⟨c, hcc, hcf⟩ := argAt_core hp
    have cwf := WFArgs.structs d wf c (List.mem_of_getElem? hcc)
    have hmem := List.mem_of_getElem? hcf
    have fwf := cwf.fields _ _ hcf
    have : ∃ (n : Nat) (g : FieldInfo V), c.fields[n]? = some g ∧ g.ident = x := by
      rcases hx with hx | hx
      · exact resolved_get (cwf.depsOk f hmem) (by rw [fwf.deps]; exact hx)
      · exact resolved_get (cwf.confsOk f hmem) (by rw [fwf.confs]; exact hx)
    obtain ⟨n, g, h1, h2⟩ := this
    exact ⟨(p.1, n), g, rfl, by rw [argAt_eq hcc]; exact h1, h2⟩
  constructor
  · intro p f hp hr
    rcases back p f hp with ⟨p, f', hf', rfl, ef⟩ | ⟨h1, _⟩
    · rw [ho p f' hf']
      exact k.required _ _ hf' (by rw [← alike_isRequired ef]; exact hr)
    · rw [h1.optional] at hr; cases hr
  · intro p f hp hne x hx
    rcases back p f hp with ⟨p, f', hf', rfl, ef⟩ | ⟨_, h1⟩
    · rw [ho p f' hf'] at hne
      obtain ⟨q, g, h1, h2, h3, h4⟩ := k.requires _ _ hf' hne x (by rw [← alike_src ef]; exact hx)
      obtain ⟨g', hg', eg⟩ := h.to q g h2
      exact ⟨φ q, g', hc.together q _ g _ h2 hf' h1, hg', by rw [alike_ident eg]; exact h3, by rw [ho q g h2]; exact h4⟩
    · exact absurd h1 hne
  · intro p f hp hne x hx q g hs hq hi
    rcases back p f hp with ⟨p, f', hf', rfl, ef⟩ | ⟨_, h1⟩
    · rw [ho p f' hf'] at hne
      have hx' : x ∈ f'.src.conflictsWith := by rw [← alike_src ef]; exact hx
      obtain ⟨r, g1, h1, h2, h3⟩ := refs _ _ x hf' (.inr hx')
      obtain ⟨g2, hg2, eg⟩ := h.to r g1 h2
      have hrq : φ r = q := by
        refine argAt_unique wf' hg2 hq ?_ (by rw [alike_ident eg, h3, hi])
        rw [hs, ← hc.together _ _ _ _ hf' h2 h1]
      rw [← hrq, ho r g1 h2]
      exact k.conflicts _ _ hf' hne x hx' r g1 h1.symm h2 h3
    · exact absurd h1 hne
  · intro p f hp hne hx
    rcases back p f hp with ⟨p, f', hf', rfl, ef⟩ | ⟨_, h1⟩
    · rw [ho p f' hf'] at hne
      have hx' : f'.src.exclusive = true := by rw [← alike_src ef]; exact hx
      obtain ⟨h1, h2⟩ := k.exclusive _ _ hf' hne hx'
      obtain ⟨e1, e2⟩ := hc.exclusive _ _ hf' hx'
      refine ⟨fun q g hs hq hqo => ?_, ?_⟩
      · rcases back q g hq with ⟨q, g', hg', rfl, eg⟩ | ⟨_, h3⟩
        · rw [ho q g' hg'] at hqo
          rw [h1 q g' (e1 q g' hg' hs.symm).symm hg' hqo]
        · exact absurd h3 hqo
      · simp only [e2]; exact h2
    · exact absurd h1 hne
  · intro p f hp hne
    rcases back p f hp with ⟨p, f', hf', rfl, ef⟩ | ⟨h1, _⟩
    · rw [ho p f' hf'] at hne
      rw [alike_fieldOut ef]
      exact k.unset _ _ hf' hne
    · exact h1.value
  · exact fun hs => k.subcommand (hreq hs)

theorem allFail_grown {μ : Nat → Pos → Pos} {st st' : List (Entry V)} (h : Grown cx T μ st st') (wf : StackWF cx st) (wf' : StackWF cx st')
    {evs evs' : List Event} (ho : ∀ a f, fieldAt st a = some f → occs evs' (moved μ a) = occs evs a)
    (ho' : ∀ b, b.level < st.length → (∀ a f, fieldAt st a = some f → moved μ a ≠ b) → occs evs' b = []) (sub : Bool)
    (hok : allFail evs st sub = none) : allFail evs' st' sub = none := by
  induction h generalizing sub with
  | nil => simp [allFail]
  | @cons i d d' st st' h hd ih =>
    rw [allFail, Option.or_eq_none_iff] at hok
    rw [allFail, Option.or_eq_none_iff]
    refine ⟨?_, ih (fun y hy => wf y (by simp [hy])) (fun y hy => wf' y (by simp [hy])) (fun a f ha => ?_) (fun b hl hb => ?_) true hok.2⟩
    · have hok := hok.1
      have e1 := argsFail_none d (wf (i, d) (by simp)) (os := fun s i => occs evs ⟨st.length, s, i⟩) (s := 0) (sub := sub)
      have e2 := argsFail_none d' (wf' (i, d') (by simp)) (os := fun s i => occs evs' ⟨st'.length, s, i⟩) (s := 0) (sub := sub)
      simp only [Nat.zero_add] at e1 e2
      change argsFail (fun s => present (fun i => occs evs ⟨st.length, s, i⟩)) 0 sub d = none at hok
      change argsFail (fun s => present (fun i => occs evs' ⟨st'.length, s, i⟩)) 0 sub d' = none
      rw [e1, argsOk_iff (os := fun s i => occs evs ⟨st.length, s, i⟩)] at hok
      rw [e2, argsOk_iff (os := fun s i => occs evs' ⟨st'.length, s, i⟩)]
      refine argsOk_grown (wf (i, d) (by simp)) (wf' (i, d') (by simp)) hd.keeps hd.req ?_ ?_ hok
      · intro p f hp
        rw [h.length]
        exact ho _ _ (argAt_fieldAt hp)
      · intro q hq
        refine ho' _ (by rw [h.length]; simp) ?_
        intro a f ha he
        have hla := congrArg Addr.level he
        simp only [moved, h.length] at hla
        rw [fieldAt_argAt, if_pos hla] at ha
        have h1 := congrArg Addr.struct he
        have h2 := congrArg Addr.field he
        simp only [moved, hla] at h1 h2
        exact hq _ f ha (Prod.ext h1 h2)
    · exact ho a f (fieldAt_ext_some (ext := [(i, d)]) ha)
    · refine ho' b (by simp; omega) fun a f ha he => ?_
      have hla : a.level = b.level := congrArg Addr.level (a₁ := moved μ a) he
      rw [fieldAt_argAt, if_neg (by omega)] at ha
      exact hb a f ha he

theorem Grown.struct {μ : Nat → Pos → Pos} {st st' : List (Entry V)} (h : Grown cx T μ st st') {a : Addr} {f : FieldInfo V}
    (hf : fieldAt st a = some f) : (moved μ a).struct = a.struct := by
  induction h with
  | nil => simp [fieldAt] at hf
  | @cons i d d' st st' h hd ih =>
    rw [fieldAt_argAt] at hf
    split at hf
    · rename_i hl
      show (μ a.level (a.struct, a.field)).1 = a.struct
      rw [hl]
      exact hd.keeps.struct _ _ hf
    · exact ih hf

theorem fieldAt_unique {st : List (Entry V)} (wf : StackWF cx st) {l s k k' : Nat} {f g : FieldInfo V}
    (hf : fieldAt st ⟨l, s, k⟩ = some f) (hg : fieldAt st ⟨l, s, k'⟩ = some g) (he : f.ident = g.ident) : k = k' := by
  induction st with
  | nil => simp [fieldAt] at hf
  | cons e st ih =>
    obtain ⟨i, d⟩ := e
    rw [fieldAt_argAt] at hf hg
    split at hf
    · rename_i hl
      rw [if_pos hl] at hg
      exact congrArg Prod.snd (argAt_unique (wf _ List.mem_cons_self) hf hg rfl he)
    · rename_i hl
      rw [if_neg hl] at hg
      exact ih (fun x hx => wf x (List.mem_cons_of_mem _ hx)) hf hg

/-! ## Parsing -/

section parsing

variable {d d' : ArgsDef V} {argv0 : Bytes} {toks : List Bytes} {evs : List Event} {κ : Ctx V} {out : Out V} {φ : Pos → Pos}

theorem reads_grown (h : Extends cx T (fun _ => False) d d' φ) (hT : ∀ t ∈ toks, T t) (hr : Reads cx (start argv0 d) toks evs κ) :
    ∃ μ κ', μ 0 = φ ∧ Reads cx (start argv0 d') toks (evs.map (movedEvent μ)) κ' ∧ Grown cx T μ κ.stack κ'.stack := by
  obtain ⟨μ, κ', h1, h3, h4⟩ := steps_grown (reads_steps hr) hT (start_mode argv0 d) (μ := fun _ => φ) (κ' := start argv0 d')
    ⟨.cons .nil (h.mono (by rintro n ⟨a, f, hf, _⟩; simp [fieldAt] at hf)), rfl, rfl⟩
  exact ⟨μ, κ', h1 0 (by simp [start]), reads_iff_steps.2 h3, h4.stack⟩

theorem values_grown (hd' : DerivedArgs cx d') (h : Extends cx T (fun _ => False) d d' φ) (hT : ∀ t ∈ toks, T t)
    (hp : Parsed cx d argv0 toks evs κ out) :
    ∃ μ κ' out', μ 0 = φ ∧ Parsed cx d' argv0 toks (evs.map (movedEvent μ)) κ' out' ∧ Grown cx T μ κ.stack κ'.stack
      ∧ (∀ a f, fieldAt κ.stack a = some f → outAt κ'.stack out' (moved μ a) = outAt κ.stack out a)
      ∧ ∀ b g, fieldAt κ'.stack b = some g → (∀ a f, fieldAt κ.stack a = some f → moved μ a ≠ b) →
        ∃ v, fieldOut g [] = some v ∧ outAt κ'.stack out' b = some (g.ident, .field v) := by
  obtain ⟨μ, κ', h1, hr', hst⟩ := reads_grown h hT hp.reads
  have hev := steps_fields (reads_steps hp.reads) (start_mode argv0 d)
  have wf := (stack_wf hp.derived.wf (reads_steps hp.reads)).1
  have wf' := (stack_wf hd'.wf (reads_steps hr')).1
  have hocc : ∀ a f, fieldAt κ.stack a = some f → occs (evs.map (movedEvent μ)) (moved μ a) = occs evs a :=
    fun a f hf => occs_grown hst hev hf
  have hacc : Acceptable κ'.stack (evs.map (movedEvent μ)) := acceptable_grown hst hev hp.acceptable
  have hfail0 : allFail evs κ.stack false = none := by
    rcases outcome_reads hp.derived.wf hp.reads with ⟨_, _, _, h1⟩ | ⟨e, _, h2⟩
    · cases hf : allFail evs κ.stack false with
      | none => rfl
      | some x => rw [hf] at h1; simp only at h1; have := hp.ok; rw [h1] at this; cases this
    · have := hp.ok; rw [h2] at this; cases this
  have hfail := allFail_grown hst wf wf' hocc (fun b _ hb => occs_added hev hb) false hfail0
  have hok : ∃ out', tryParseFrom d' (argv0 :: toks) = .ok out' := by
    rcases outcome_reads hd'.wf hr' with ⟨_, _, _, h3⟩ | ⟨e, h3, _⟩
    · rw [hfail] at h3
      obtain ⟨o, _, ho⟩ := h3
      exact ⟨o, ho⟩
    · exact absurd hacc (by simpa using h3.not_acceptable)
  obtain ⟨out', ho'⟩ := hok
  have hp' : Parsed cx d' argv0 toks (evs.map (movedEvent μ)) κ' out' := ⟨hd', hr', ho'⟩
  refine ⟨μ, κ', out', h1, hp', hst, ?_, ?_⟩
  · intro a f hf
    obtain ⟨f', hf', ef⟩ := hst.to hf
    obtain ⟨v, hv, e⟩ := hp.field hf
    obtain ⟨v', hv', e'⟩ := hp'.field hf'
    rw [hocc a f hf, alike_fieldOut ef, hv] at hv'
    cases hv'
    rw [e, e', alike_ident ef]
  · intro b g hb hnew
    obtain ⟨v, hv, e⟩ := hp'.field hb
    rw [occs_added hev hnew] at hv
    exact ⟨v, hv, e⟩

end parsing

end Palc
