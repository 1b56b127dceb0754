import Verif.Lemmas.Extend
import Verif.SpecUnused
/-! Command lines that do not use the extension (C68). -/

namespace Palc

open Spec

variable {V : Type} {cx : Cx V} {T : Bytes → Prop}

theorem singles_nodup (d : ArgsDef V) : ((singles d).map (·.2)).Nodup := by
  have h : (((coreOf d).fields.zipIdx).map (·.2)).Nodup := by
    rw [List.zipIdx_map_snd]
    exact List.nodup_range'
  exact h.sublist (List.Sublist.map _ List.filter_sublist)

theorem Spec.KeepsArgs.target_back {G : Name → Prop} {d d' : ArgsDef V} {φ : Pos → Pos} (h : KeepsArgs cx G d d' φ) {k : Nat}
    {y : FieldInfo V × Nat} (hy : posTarget d' k = some y) (hp : ∃ p f, argAt d p = some f ∧ φ p = (0, y.2)) :
    ∃ x, posTarget d k = some x ∧ withoutIndex y.1 = withoutIndex x.1 ∧ φ (0, x.2) = (0, y.2) := by
  cases hx : posTarget d k with
  | some x =>
    obtain ⟨y', hy', h1, h2⟩ := h.target k x hx
    rw [hy] at hy'
    cases hy'
    exact ⟨x, rfl, h1, h2⟩
  | none =>
    exfalso
    obtain ⟨⟨s, j⟩, f, hf, he⟩ := hp
    have hs : (0 : Nat) = s := by have := h.struct _ _ hf; rw [he] at this; exact this
    subst hs
    obtain ⟨hl, ho, hyf⟩ := posTarget_field hy
    obtain ⟨f', hf', ef⟩ := h.to _ _ hf
    rw [he, argAt_main, hyf] at hf'
    cases hf'
    rw [argAt_main] at hf
    have hmem : (f, j) ∈ (coreOf d).fields.zipIdx := List.mem_zipIdx_iff_getElem?.2 hf
    have hl' : f.src.last = false := by rw [← alike_src ef]; exact hl
    have ho' : isOption f = false := by rw [← alike_isOption ef]; exact ho
    unfold posTarget at hx
    cases hs : (singles d)[k]? with
    | some x => rw [hs] at hx; cases hx
    | none =>
    rw [hs] at hx
    have hm : isMulti f = false := by
      cases hm : isMulti f with
      | false => rfl
      | true =>
        have := List.find?_eq_none.1 hx (f, j) hmem
        simp [ho', hm, hl'] at this
    have hin : (f, j) ∈ singles d := by
      unfold singles
      rw [List.mem_filter]
      exact ⟨hmem, by simp [ho', hm, hl']⟩
    obtain ⟨m, hm'⟩ := List.mem_iff_getElem?.1 hin
    have htm : posTarget d m = some (f, j) := by unfold posTarget; rw [hm']
    obtain ⟨y2, hy2, e2, he2⟩ := h.target m _ htm
    have hyy : y2 = y := by
      have h1 := (posTarget_field hy2).2.2
      have h2 : y2.2 = y.2 := by
        have := he2.symm.trans he
        exact (Prod.mk.injEq .. ▸ this).2
      rw [h2, hyf] at h1
      exact Prod.ext (Option.some.inj h1).symm h2
    subst hyy
    have hym : isMulti y2.1 = false := by
      have : isMulti y2.1 = isMulti f := by
        show isMulti (withoutIndex y2.1) = isMulti (withoutIndex f)
        rw [e2]
      rw [this]; exact hm
    have hsing : ∀ n, posTarget d' n = some y2 → (singles d')[n]? = some y2 := by
      intro n hn
      unfold posTarget at hn
      cases hc : (singles d')[n]? with
      | some z => rw [hc] at hn; exact hn
      | none =>
        rw [hc] at hn
        have := List.find?_some hn
        simp [hym] at this
    have h1 := hsing m hy2
    have h2 := hsing k hy
    have hmk : m = k := by
      have hlt : m < ((singles d').map (·.2)).length := by rw [List.length_map]; exact (List.getElem?_eq_some_iff.1 h1).1
      refine (List.getElem?_inj hlt (singles_nodup d')).1 ?_
      rw [List.getElem?_map, List.getElem?_map, h1, h2]
    subst hmk
    rw [hs] at hm'
    cases hm'

namespace Grown

variable {μ : Nat → Pos → Pos} {st st' : List (Entry V)}

theorem resolves_back (h : Grown cx T μ st st') {n : Name} {a : Addr} {f f' : FieldInfo V} (hf : fieldAt st a = some f)
    (hr : Resolves cx st' n (moved μ a) f') : Resolves cx st n a f ∧ withoutIndex f' = withoutIndex f := by
  obtain ⟨f1, hf1, ef⟩ := h.to hf
  have h1 := resolves_fieldAt hr
  rw [hf1] at h1
  cases h1
  refine ⟨?_, ef⟩
  rcases resolves_or_unknown cx st n with ⟨b, g, hb⟩ | hu
  · obtain ⟨g', hg', _⟩ := h.resolves hb
    have : moved μ b = moved μ a := by
      unfold Resolves at hr hg'
      rw [hr] at hg'
      exact (congrArg Prod.fst (Option.some.inj hg')).symm
    have := h.inj (resolves_fieldAt hb) hf this
    subst this
    rw [resolves_fieldAt hb] at hf
    cases hf
    exact hb
  · exfalso
    rw [resolves_iff] at hr
    obtain ⟨_, h2, h3, _⟩ := hr
    have hv : (a, f) ∈ visible st := by
      rw [visible_mem_iff]
      refine ⟨hf, ?_⟩
      rw [h.length, alike_src ef] at h2
      exact h2
    have := hu _ hv
    rw [alike_declares ef] at h3
    simp only at this
    rw [h3] at this
    cases this

theorem cluster_back (h : Grown cx T μ st st') {next : Option Bytes} {b : Bytes} {evs' : List Event} {took : Bool}
    (hc : Cluster cx st' next b evs' took) (hu : ∀ e ∈ evs', ∃ a f, fieldAt st a = some f ∧ moved μ a = e.1) :
    ∃ evs, Cluster cx st next b evs took ∧ evs' = evs.map (movedEvent μ) := by
  induction hc with
  | bare hr ht =>
    obtain ⟨a, f, hf, he⟩ := hu _ List.mem_cons_self
    subst he
    obtain ⟨hr', e⟩ := h.resolves_back hf hr
    exact ⟨_, .bare hr' (by rw [← alike_takesValue e]; exact ht), rfl⟩
  | more hr ht hq hne heq _ ih =>
    obtain ⟨a, f, hf, he⟩ := hu _ List.mem_cons_self
    subst he
    obtain ⟨hr', e⟩ := h.resolves_back hf hr
    obtain ⟨evs, h1, h2⟩ := ih (fun e he => hu e (List.mem_cons_of_mem _ he))
    exact ⟨_, .more hr' (by rw [← alike_takesValue e]; exact ht) (by rw [← alike_src e]; exact hq) hne heq h1, by rw [h2]; rfl⟩
  | eq hr ht =>
    obtain ⟨a, f, hf, he⟩ := hu _ List.mem_cons_self
    subst he
    obtain ⟨hr', e⟩ := h.resolves_back hf hr
    exact ⟨_, .eq hr' (by rw [← alike_takesValue e]; exact ht), rfl⟩
  | attached hr ht hq hne heq =>
    obtain ⟨a, f, hf, he⟩ := hu _ List.mem_cons_self
    subst he
    obtain ⟨hr', e⟩ := h.resolves_back hf hr
    exact ⟨_, .attached hr' (by rw [← alike_takesValue e]; exact ht) (by rw [← alike_src e]; exact hq) hne heq, rfl⟩
  | sep hr ht hq hn hs =>
    obtain ⟨a, f, hf, he⟩ := hu _ List.mem_cons_self
    subst he
    obtain ⟨hr', e⟩ := h.resolves_back hf hr
    exact ⟨_, .sep hr' (by rw [← alike_takesValue e]; exact ht) (by rw [← alike_src e]; exact hq) hn ((alike_standalone e _).1 hs), rfl⟩

end Grown

/-! ## Reading -/

theorem mvMode_opts {φ : Pos → Pos} {m : Mode} (h : Mode.opts = mvMode φ m) : m = .opts := by cases m <;> simp_all [mvMode]
theorem mvMode_dashed {φ : Pos → Pos} {m : Mode} (h : Mode.dashed = mvMode φ m) : m = .dashed := by cases m <;> simp_all [mvMode]
theorem mvMode_trailing {φ : Pos → Pos} {m : Mode} {j : Nat} (h : Mode.trailing j = mvMode φ m) : ∃ i, m = .trailing i ∧ j = (φ (0, i)).2 := by
  cases m <;> simp_all [mvMode]

theorem step_shrunk {μ : Nat → Pos → Pos} {κ κ' κ1' : Ctx V} {toks rest : Toks} {evs' : List Event} (hs : Step cx κ' toks evs' κ1' rest)
    (hT : ∀ t ∈ toks, T t) (hm : ModeOk κ) (h : CtxGrown cx T μ κ κ')
    (hu : ∀ e ∈ evs', ∃ a f, fieldAt κ.stack a = some f ∧ moved μ a = e.1) :
    ∃ μ' evs κ1, (∀ n < κ.stack.length, μ' n = μ n) ∧ evs' = evs.map (movedEvent μ)
      ∧ Step cx κ toks evs κ1 rest ∧ CtxGrown cx T μ' κ1 κ1' := by
  obtain ⟨st, k, m⟩ := κ
  obtain ⟨hst, hk, hmode⟩ := h
  cases hs with
  | longEq hr hn ht =>
    simp only at hst hk hmode hu
    have hmode := mvMode_opts hmode
    subst hk; subst hmode
    obtain ⟨a, f, hf, he⟩ := hu _ List.mem_cons_self
    subst he
    obtain ⟨hr', e⟩ := hst.resolves_back hf hr
    exact ⟨μ, _, _, fun _ _ => rfl, rfl, .longEq hr' hn (by rw [← alike_kind e]; exact ht), ⟨hst, rfl, rfl⟩⟩
  | longBare hr hn hne ht =>
    simp only at hst hk hmode hu
    have hmode := mvMode_opts hmode
    subst hk; subst hmode
    obtain ⟨a, f, hf, he⟩ := hu _ List.mem_cons_self
    subst he
    obtain ⟨hr', e⟩ := hst.resolves_back hf hr
    exact ⟨μ, _, _, fun _ _ => rfl, rfl, .longBare hr' hn hne (by rw [← alike_takesValue e]; exact ht), ⟨hst, rfl, rfl⟩⟩
  | longSep hr hn hne ht hq hsv =>
    simp only at hst hk hmode hu
    have hmode := mvMode_opts hmode
    subst hk; subst hmode
    obtain ⟨a, f, hf, he⟩ := hu _ List.mem_cons_self
    subst he
    obtain ⟨hr', e⟩ := hst.resolves_back hf hr
    exact ⟨μ, _, _, fun _ _ => rfl, rfl, .longSep hr' hn hne (by rw [← alike_takesValue e]; exact ht)
      (by rw [← alike_src e]; exact hq) ((alike_standalone e _).1 hsv), ⟨hst, rfl, rfl⟩⟩
  | cluster hb hc =>
    simp only at hst hk hmode hu
    have hmode := mvMode_opts hmode
    subst hk; subst hmode
    obtain ⟨evs, h1, h2⟩ := hst.cluster_back hc hu
    exact ⟨μ, evs, _, fun _ _ => rfl, h2, .cluster hb h1, ⟨hst, rfl, rfl⟩⟩
  | clusterSep hb hc =>
    simp only at hst hk hmode hu
    have hmode := mvMode_opts hmode
    subst hk; subst hmode
    obtain ⟨evs, h1, h2⟩ := hst.cluster_back hc hu
    exact ⟨μ, evs, _, fun _ _ => rfl, h2, .clusterSep hb h1, ⟨hst, rfl, rfl⟩⟩
  | @sub i d' st' k' v' toks hv' hp =>
    simp only at hst hk hmode hu
    have hmode := mvMode_opts hmode
    subst hk; subst hmode
    cases hst with
    | @cons _ d _ st _ hst hd =>
    have hd0 := hd
    obtain ⟨args, req, C, Φ, kept, added, subs⟩ := hd
    obtain ⟨w, hw, hwn⟩ := added v' hv'.mem (hT _ List.mem_cons_self)
    obtain ⟨v, hv, hvn⟩ := selected_exists hw
    obtain ⟨hc, hn, hi⟩ := kept v hv
    have hvv : C v = v' := selected_unique hc hv' (by rw [hn, hvn, hwn])
    subst hvv
    let μ' : Nat → Pos → Pos := fun n => if n = st.length + 1 then Φ v else μ n
    have e1 : ∀ n < st.length + 1, μ' n = μ n := fun n hn => if_neg (by omega)
    refine ⟨μ', [], ⟨(⟨variantIdent v, v.name⟩, variantDef v) :: (i, d) :: st, 0, .opts⟩, e1, rfl, ?_, ?_, rfl, rfl⟩
    · rw [hn]
      exact .sub hv (by rw [← hn]; exact hp)
    · rw [hi, hn]
      refine .cons (Grown.congr e1 (.cons hst hd0)) ?_
      show Extends cx T _ _ _ (if st.length + 1 = st.length + 1 then Φ v else _)
      rw [if_pos rfl]
      refine (subs v hv).mono ?_
      rintro n ⟨a, f, hf, hg, hdecl⟩
      rw [fieldAt_argAt] at hf
      split at hf
      · exact .inr ⟨_, f, hf, hg, hdecl⟩
      · exact .inl ⟨a, f, hf, hg, hdecl⟩
  | @positional i d' st' k' tok y toks hp hns hy =>
    simp only at hst hk hmode hu
    have hmode := mvMode_opts hmode
    subst hk; subst hmode
    have hall := hst
    cases hst with
    | @cons _ d _ st _ hst hd =>
    obtain ⟨a, f, hf, he⟩ := hu _ List.mem_cons_self
    have hla : a.level = st.length := by rw [← hst.length]; exact congrArg Addr.level (a₁ := moved μ a) he
    rw [fieldAt_argAt, if_pos hla] at hf
    obtain ⟨x, hx, e, hφ⟩ := hd.keeps.target_back hy ⟨_, f, hf, by
      have h1 := congrArg Addr.struct he
      have h2 := congrArg Addr.field he
      simp only [moved, hla] at h1 h2
      exact Prod.ext h1 h2⟩
    have hns' : ∀ v ∈ subVariants d, enc v.name ≠ tok := by
      intro v hv he
      obtain ⟨args, req, C, Φ, kept, added, subs⟩ := hd
      obtain ⟨w, hw, hwn⟩ := selected_exists hv
      obtain ⟨hc, hn, _⟩ := kept w hw
      exact hns _ hc.mem (by rw [hn, hwn]; exact he)
    refine ⟨μ, _, ⟨(i, d) :: st, k' + 1, modeAfter x .opts⟩, fun _ _ => rfl, ?_, .positional hp hns' hx, hall, rfl, ?_⟩
    · have : movedEvent μ (⟨st.length, 0, x.2⟩, some tok) = (⟨st'.length, 0, y.2⟩, some tok) := by
        unfold movedEvent moved
        simp only [hφ, hst.length]
      rw [List.map_singleton, this]
    · unfold modeAfter
      rw [alike_src e]
      simp only [List.length_cons, Nat.add_sub_cancel]
      split
      · simp only [mvMode, hφ]
      · rfl
  | dashdash =>
    simp only at hst hk hmode hu
    have hmode := mvMode_opts hmode
    subst hk; subst hmode
    exact ⟨μ, [], _, fun _ _ => rfl, rfl, .dashdash, ⟨hst, rfl, rfl⟩⟩
  | @last i d' st' k' tok y toks hy =>
    simp only at hst hk hmode hu
    have hmode := mvMode_dashed hmode
    subst hk; subst hmode
    have hall := hst
    cases hst with
    | @cons _ d _ st _ hst hd =>
    cases hx : lastArg d with
    | none => rw [hd.keeps.noLast hx] at hy; cases hy
    | some x =>
    obtain ⟨y', hy', e, hφ⟩ := hd.keeps.last x hx
    rw [hy] at hy'
    cases hy'
    refine ⟨μ, _, ⟨(i, d) :: st, k', .dashed⟩, fun _ _ => rfl, ?_, .last hx, hall, rfl, rfl⟩
    have : movedEvent μ (⟨st.length, 0, x.2⟩, some tok) = (⟨st'.length, 0, y.2⟩, some tok) := by
      unfold movedEvent moved
      simp only [hφ, hst.length]
    rw [List.map_singleton, this]
  | @dashed i d' st' k' tok y toks hl hy =>
    simp only at hst hk hmode hu
    have hmode := mvMode_dashed hmode
    subst hk; subst hmode
    have hall := hst
    cases hst with
    | @cons _ d _ st _ hst hd =>
    obtain ⟨a, f, hf, he⟩ := hu _ List.mem_cons_self
    have hla : a.level = st.length := by rw [← hst.length]; exact congrArg Addr.level (a₁ := moved μ a) he
    rw [fieldAt_argAt, if_pos hla] at hf
    obtain ⟨x, hx, e, hφ⟩ := hd.keeps.target_back hy ⟨_, f, hf, by
      have h1 := congrArg Addr.struct he
      have h2 := congrArg Addr.field he
      simp only [moved, hla] at h1 h2
      exact Prod.ext h1 h2⟩
    have hl0 : lastArg d = none := by
      cases hx : lastArg d with
      | none => rfl
      | some x =>
        obtain ⟨y', hy', _⟩ := hd.keeps.last x hx
        rw [hl] at hy'
        cases hy'
    refine ⟨μ, _, ⟨(i, d) :: st, k' + 1, modeAfter x .dashed⟩, fun _ _ => rfl, ?_, .dashed hl0 hx, hall, rfl, ?_⟩
    · have : movedEvent μ (⟨st.length, 0, x.2⟩, some tok) = (⟨st'.length, 0, y.2⟩, some tok) := by
        unfold movedEvent moved
        simp only [hφ, hst.length]
      rw [List.map_singleton, this]
    · unfold modeAfter
      rw [alike_src e]
      simp only [List.length_cons, Nat.add_sub_cancel]
      split
      · simp only [mvMode, hφ]
      · rfl
  | @trailing i d' st' k' tok j toks =>
    simp only at hst hk hmode hu
    obtain ⟨j0, hm0, hj⟩ := mvMode_trailing hmode
    subst hk; subst hm0
    have hall := hst
    cases hst with
    | @cons _ d _ st _ hst hd =>
    simp only [List.length_cons, Nat.add_sub_cancel] at hj
    obtain ⟨i0, d0, st0, x, k0, h1, h2, _, hx⟩ := hm j0 rfl
    simp only at h1
    cases h1
    obtain ⟨y, hy, _, hφ⟩ := hd.keeps.target k0 x hx
    rw [h2] at hφ
    refine ⟨μ, _, ⟨(i, d) :: st, k', .trailing j0⟩, fun _ _ => rfl, ?_, .trailing, hall, rfl, ?_⟩
    · have : movedEvent μ (⟨st.length, 0, j0⟩, some tok) = (⟨st'.length, 0, j⟩, some tok) := by
        unfold movedEvent moved
        simp only [hφ, hst.length, hj]
      rw [List.map_singleton, this]
    · show Mode.trailing j = mvMode _ (.trailing j0)
      simp only [List.length_cons, Nat.add_sub_cancel, mvMode, hj]

/-! ## Which arguments the old version has -/

theorem command_unique {d e e' : ArgsDef V} {ns : List Str} (h : CommandAt d ns e) (h' : CommandAt d ns e') : e = e' := by
  induction h with
  | here => cases h'; rfl
  | sub hv _ ih =>
    generalize hn : (_ :: _ : List Str) = l at h'
    cases h' with
    | here => cases hn
    | sub hw h2 =>
      simp only [List.cons.injEq] at hn
      obtain ⟨h1, rfl⟩ := hn
      cases selected_unique hv hw h1
      exact ih h2

theorem command_append {d e f : ArgsDef V} {ns ms : List Str} (h : CommandAt d ns e) (h' : CommandAt e ms f) : CommandAt d (ns ++ ms) f := by
  induction h with
  | here => exact h'
  | sub hv _ ih => exact .sub hv (ih h')

theorem fieldAt_get {st : List (Entry V)} {a : Addr} :
    fieldAt st a = (st.reverse[a.level]?).bind (fun x => argAt x.2 (a.struct, a.field)) := by
  induction st with
  | nil => simp [fieldAt]
  | cons x st ih =>
    obtain ⟨i, d⟩ := x
    rw [fieldAt_argAt, List.reverse_cons]
    split
    · rename_i h
      rw [h, List.getElem?_append_right (by simp)]
      simp
    · rename_i h
      rw [ih]
      by_cases hl : a.level < st.length
      · rw [List.getElem?_append_left (by simpa using hl)]
      · rw [List.getElem?_eq_none (by simp; omega), List.getElem?_eq_none (by simp; omega)]

theorem entered_ext {ext st : List (Entry V)} {l : Nat} (h : l < st.length) : entered (ext ++ st) l = entered st l := by
  unfold entered
  congr 1
  cases hr : st.reverse with
  | nil => simp at hr; subst hr; simp at h
  | cons x xs =>
    have : st.length = xs.length + 1 := by rw [← List.length_reverse, hr]; rfl
    rw [List.reverse_append, hr]
    simp only [List.cons_append, List.drop_succ_cons, List.drop_zero]
    rw [List.take_append_of_le_length (by omega)]

/-- The entered commands are those given by the names. -/
def Along (d : ArgsDef V) (st : List (Entry V)) : Prop :=
  ∀ (l : Nat) (x : Entry V), st.reverse[l]? = some x → CommandAt d (entered st l) x.2

theorem along_start (argv0 : Bytes) (d : ArgsDef V) : Along d (start argv0 d).stack := by
  intro l x hx
  cases l with
  | zero => simp [start] at hx; subst hx; exact .here
  | succ l => simp [start] at hx

theorem along_step {d : ArgsDef V} {κ κ1 : Ctx V} {toks rest : Toks} {evs : List Event} (hs : Step cx κ toks evs κ1 rest)
    (h : Along d κ.stack) : Along d κ1.stack := by
  cases hs with
  | @sub i d1 st k v toks hv hp =>
    intro l x hx
    simp only at h hx ⊢
    by_cases hl : l < st.length + 1
    · rw [List.reverse_cons, List.getElem?_append_left (by simpa using hl)] at hx
      have := h l x hx
      rw [← entered_ext (ext := [(⟨variantIdent v, v.name⟩, variantDef v)]) (by simpa using hl)] at this
      exact this
    · have hl2 : l = st.length + 1 := by
        have := (List.getElem?_eq_some_iff.1 hx).1
        simp at this
        omega
      subst hl2
      rw [List.reverse_cons, List.getElem?_append_right (by simp)] at hx
      simp at hx
      subst hx
      have h1 := h st.length (i, d1) (by rw [List.reverse_cons, List.getElem?_append_right (by simp)]; simp)
      have : entered ((⟨variantIdent v, v.name⟩, variantDef v) :: (i, d1) :: st) (st.length + 1) = entered ((i, d1) :: st) st.length ++ [v.name] := by
        unfold entered
        cases hr : ((i, d1) :: st).reverse with
        | nil => simp at hr
        | cons y ys =>
          have hlen : ys.length = st.length := by
            have := congrArg List.length hr
            simp at this
            exact this.symm
          rw [List.reverse_cons, hr]
          simp only [List.cons_append, List.drop_succ_cons, List.drop_zero]
          rw [List.take_of_length_le (by simp; omega), List.take_of_length_le (by omega)]
          simp
      rw [this]
      exact command_append h1 (.sub hv .here)
  | _ => exact h

theorem along_steps {d : ArgsDef V} {κ κ1 : Ctx V} {toks rest : Toks} {evs : List Event} (hs : Steps cx κ toks evs κ1 rest)
    (h : Along d κ.stack) : Along d κ1.stack := by
  induction hs with
  | refl => exact h
  | step h1 _ ih => exact ih (along_step h1 h)

theorem entered_ids {st st' : List (Entry V)} (h : st'.map (·.1) = st.map (·.1)) (l : Nat) : entered st' l = entered st l := by
  have e : ∀ s : List (Entry V), entered s l = ((((s.map (·.1)).reverse.drop 1).take l).map (·.name)) := by
    intro s
    unfold entered
    rw [← List.map_reverse, ← List.map_drop, ← List.map_take, List.map_map]
    rfl
  rw [e, e, h]

/-- An argument that the old version has. -/
theorem had_moved {μ : Nat → Pos → Pos} {d : ArgsDef V} {st st' : List (Entry V)} (h : Grown cx T μ st st') (wf' : StackWF cx st')
    (ha : Along d st) {b : Addr} {f' : FieldInfo V} (hb : fieldAt st' b = some f')
    (hh : Has d (entered st b.level) b.struct f'.ident) : ∃ a f, fieldAt st a = some f ∧ moved μ a = b := by
  obtain ⟨o, k, f, ho, hf, hi⟩ := hh
  have hlt := fieldAt_lt hb
  rw [h.length] at hlt
  have hx : ∃ x, st.reverse[b.level]? = some x := ⟨_, List.getElem?_eq_getElem (by simpa using hlt)⟩
  obtain ⟨x, hx⟩ := hx
  have := command_unique ho (ha _ _ hx)
  subst this
  have hfa : fieldAt st ⟨b.level, b.struct, k⟩ = some f := by
    rw [fieldAt_get]
    simp only [hx, Option.bind_some]
    exact hf
  refine ⟨_, f, hfa, ?_⟩
  obtain ⟨f1, hf1, ef⟩ := h.to hfa
  have hs := h.struct hfa
  obtain ⟨l, s, k'⟩ := b
  have hm : moved μ ⟨l, s, k⟩ = ⟨l, s, (moved μ ⟨l, s, k⟩).field⟩ := by rw [Addr.mk.injEq]; exact ⟨rfl, hs, rfl⟩
  rw [hm] at hf1 ⊢
  rw [fieldAt_unique wf' hf1 hb (by rw [alike_ident ef]; exact hi)]

theorem steps_shrunk {μ : Nat → Pos → Pos} {d : ArgsDef V} {κ κ' κ1' : Ctx V} {toks rest : Toks} {evs' : List Event}
    (hs : Steps cx κ' toks evs' κ1' rest) (hT : ∀ t ∈ toks, T t) (hm : ModeOk κ) (hm' : ModeOk κ') (wf : StackWF cx κ1'.stack)
    (ha : Along d κ.stack) (h : CtxGrown cx T μ κ κ')
    (hu : ∀ e ∈ evs', ∀ f, fieldAt κ1'.stack e.1 = some f → Has d (entered κ1'.stack e.1.level) e.1.struct f.ident) :
    ∃ μ' evs κ1, (∀ n < κ.stack.length, μ' n = μ n) ∧ evs' = evs.map (movedEvent μ')
      ∧ Steps cx κ toks evs κ1 rest ∧ CtxGrown cx T μ' κ1 κ1' := by
  induction hs generalizing μ κ with
  | refl => exact ⟨μ, [], κ, fun _ _ => rfl, rfl, .refl, h⟩
  | @step κ' toks evs1' κ1' rest1 evs2' κ2' rest2 h1 h2 ih =>
    obtain ⟨ext, hext⟩ := steps_stack (.step h1 h2)
    have hold : ∀ e ∈ evs1', ∃ a f, fieldAt κ.stack a = some f ∧ moved μ a = e.1 := by
      intro e he
      obtain ⟨f', hf'⟩ := step_fields h1 hm' e he
      have hlt := fieldAt_lt hf'
      have := hu e (List.mem_append_left _ he) f' (by rw [hext]; exact fieldAt_ext_some hf')
      rw [hext, entered_ext hlt, entered_ids h.stack.ids] at this
      exact had_moved h.stack (fun x hx => wf x (by rw [hext]; exact List.mem_append_right _ hx)) ha hf' this
    obtain ⟨μ1, evs1, κ1, a1, e1, s1, c1⟩ := step_shrunk h1 hT hm h hold
    obtain ⟨μ2, evs2, κ2, a2, e2, s2, c2⟩ := ih (fun t ht => hT t (step_rest h1 t ht)) (step_mode s1 hm) (step_mode h1 hm') wf
      (along_step s1 ha) c1 (fun e he => hu e (List.mem_append_right _ he))
    have hlen : κ.stack.length ≤ κ1.stack.length := by
      obtain ⟨ext, he⟩ := step_stack s1
      rw [he]; simp
    refine ⟨μ2, evs1 ++ evs2, κ2, fun n hn => ?_, ?_, .step s1 s2, c2⟩
    · rw [a2 n (by omega), a1 n hn]
    · rw [List.map_append, e2, e1]
      congr 1
      refine List.map_congr_left fun x hx => ?_
      obtain ⟨f, hf⟩ := step_fields s1 hm x hx
      have hl := fieldAt_lt hf
      unfold movedEvent moved
      rw [a2 _ (by omega), a1 _ hl]

/-! ## Constraints -/

theorem acceptable_shrunk {μ : Nat → Pos → Pos} {st st' : List (Entry V)} (h : Grown cx T μ st st') {evs : List Event}
    (he : ∀ x ∈ evs, ∃ f, fieldAt st x.1 = some f) (ha : Acceptable st' (evs.map (movedEvent μ))) : Acceptable st evs := by
  intro a f hf
  obtain ⟨f', hf', ef⟩ := h.to hf
  rw [← occs_grown h he hf, ← alike_given ef]
  exact ha _ _ hf'

/-- The constraints of a command other than that a subcommand must be given. -/
structure FieldsOk (d : ArgsDef V) (os : Pos → List (Option Bytes)) (sub : Bool) : Prop where
  required : ∀ p f, argAt d p = some f → isRequired f = true → os p ≠ []
  requires : ∀ p f, argAt d p = some f → os p ≠ [] → ∀ x ∈ f.src.requires,
    ∃ q g, q.1 = p.1 ∧ argAt d q = some g ∧ g.ident = x ∧ os q ≠ []
  conflicts : ∀ p f, argAt d p = some f → os p ≠ [] → ∀ x ∈ f.src.conflictsWith,
    ∀ q g, q.1 = p.1 → argAt d q = some g → g.ident = x → os q = []
  exclusive : ∀ p f, argAt d p = some f → os p ≠ [] → f.src.exclusive = true →
    (∀ q g, q.1 = p.1 → argAt d q = some g → os q ≠ [] → q = p) ∧ (sub && decide (p.1 = 0)) = false
  unset : ∀ p f, argAt d p = some f → os p = [] → fieldOut f [] ≠ none

theorem fieldsOk_structs {d : ArgsDef V} {os : Nat → Nat → List (Option Bytes)} {sub : Bool} (h : FieldsOk d (fun p => os p.1 p.2) sub) :
    ∀ (k : Nat) (c : Core V), (structs d)[k]? = some c → StructOk c (os k) (sub && decide (k = 0))
      ∧ ∀ (i : Nat) (f : FieldInfo V), c.fields[i]? = some f → os k i = [] → fieldOut f [] ≠ none := by
  refine fun s c hc => ⟨⟨?_, ?_, ?_, ?_⟩, ?_⟩
  · intro i f hf
    exact h.required (s, i) f (by rw [argAt_eq hc]; exact hf)
  · intro i f hf ho x hx
    obtain ⟨⟨s', j⟩, g, h1, h2, h3, h4⟩ := h.requires (s, i) f (by rw [argAt_eq hc]; exact hf) ho x hx
    simp only at h1
    subst h1
    rw [argAt_eq hc] at h2
    exact ⟨j, g, h2, h3, h4⟩
  · intro i f hf ho x hx j g hg hi
    exact h.conflicts (s, i) f (by rw [argAt_eq hc]; exact hf) ho x hx (s, j) g rfl (by rw [argAt_eq hc]; exact hg) hi
  · intro i f hf ho hx
    obtain ⟨h1, h2⟩ := h.exclusive (s, i) f (by rw [argAt_eq hc]; exact hf) ho hx
    refine ⟨fun j hj hoj => ?_, h2⟩
    have := h1 (s, j) _ rfl (by rw [argAt_eq hc]; exact List.getElem?_eq_getElem hj) hoj
    simpa using this
  · intro i f hf ho
    exact h.unset (s, i) f (by rw [argAt_eq hc]; exact hf) ho

/-- If nothing else is wrong, only a subcommand can be missing. -/
theorem argsFail_fields {d : ArgsDef V} (wf : WFArgs cx d) {os : Nat → Nat → List (Option Bytes)} {sub : Bool}
    (h : FieldsOk d (fun p => os p.1 p.2) sub) : argsFail (fun s => present (os s)) 0 sub d
      = if subRequired d && !sub then some (.error { kind := .missingRequiredSubcommand }) else none := by
  have h := fieldsOk_structs h
  obtain ⟨core, flats, subF⟩ := d
  rw [WFArgs] at wf
  have h1 : flatsFail (fun s => present (os s)) (0 + 1) flats = none := by
    rw [flatsFail_none flats wf.2.1]
    intro k c hc
    have := h (k + 1) c (by simpa [structs] using hc)
    rw [show 0 + 1 + k = k + 1 by omega]
    simpa using this
  have h2 : structFail core (present (os 0)) sub false = none := by
    rw [structFail_none wf.1]
    have := h 0 core (by simp [structs])
    refine ⟨?_, by simp, this.2⟩
    simpa using this.1
  rw [argsFail, h1, Option.none_or]
  unfold structFail at h2 ⊢
  rw [Option.or_eq_none_iff, Option.or_eq_none_iff] at h2
  rw [h2.1, h2.2.1]
  rfl

theorem fieldsOk_shrunk {G : Name → Prop} {d d' : ArgsDef V} {φ : Pos → Pos} (wf : WFArgs cx d) (wf' : WFArgs cx d') (h : KeepsArgs cx G d d' φ)
    {os os' : Pos → List (Option Bytes)} {sub : Bool} (ho : ∀ p f, argAt d p = some f → os' (φ p) = os p) (k : ArgsOk d' os' sub) :
    FieldsOk d os sub := by
  constructor
  · intro p f hp hr
    obtain ⟨f', hf', ef⟩ := h.to p f hp
    rw [← ho p f hp]
    exact k.required _ _ hf' (by rw [alike_isRequired ef]; exact hr)
  · intro p f hp hne x hx
    obtain ⟨f', hf', ef⟩ := h.to p f hp
    rw [← ho p f hp] at hne
    obtain ⟨q', g', h1, h2, h3, h4⟩ := k.requires _ _ hf' hne x (by rw [alike_src ef]; exact hx)
    obtain ⟨c, hcc, hcf⟩ := argAt_core hp
    have cwf := WFArgs.structs d wf c (List.mem_of_getElem? hcc)
    have hmem := List.mem_of_getElem? hcf
    obtain ⟨n, g, hg, hi⟩ := resolved_get (cwf.depsOk f hmem) (x := x) (by rw [(cwf.fields _ _ hcf).deps]; exact hx)
    have hq : argAt d (p.1, n) = some g := by rw [argAt_eq hcc]; exact hg
    obtain ⟨g2, hg2, eg⟩ := h.to _ g hq
    have : φ (p.1, n) = q' := argAt_unique wf' hg2 h2 (by rw [h1, h.struct _ g hq, h.struct p f hp]) (by rw [alike_ident eg, hi, h3])
    exact ⟨(p.1, n), g, rfl, hq, hi, by rw [← ho _ g hq, this]; exact h4⟩
  · intro p f hp hne x hx q g hs hq hi
    obtain ⟨f', hf', ef⟩ := h.to p f hp
    obtain ⟨g', hg', eg⟩ := h.to q g hq
    rw [← ho p f hp] at hne
    rw [← ho q g hq]
    exact k.conflicts _ _ hf' hne x (by rw [alike_src ef]; exact hx) _ g' (by rw [h.struct q g hq, h.struct p f hp, hs]) hg'
      (by rw [alike_ident eg]; exact hi)
  · intro p f hp hne hx
    obtain ⟨f', hf', ef⟩ := h.to p f hp
    rw [← ho p f hp] at hne
    obtain ⟨h1, h2⟩ := k.exclusive _ _ hf' hne (by rw [alike_src ef]; exact hx)
    rw [h.struct p f hp] at h2
    refine ⟨fun q g hs hq hqo => ?_, h2⟩
    obtain ⟨g', hg', _⟩ := h.to q g hq
    exact h.inj q p g f hq hp (h1 _ g' (by rw [h.struct q g hq, h.struct p f hp, hs]) hg' (by rw [ho q g hq]; exact hqo))
  · intro p f hp hne
    obtain ⟨f', hf', ef⟩ := h.to p f hp
    rw [← alike_fieldOut ef]
    exact k.unset _ _ hf' (by rw [ho p f hp]; exact hne)

/-- Does the innermost command want a subcommand? -/
def topRequired : List (Entry V) → Bool
  | [] => false
  | x :: _ => subRequired x.2

theorem allFail_shrunk {μ : Nat → Pos → Pos} {st st' : List (Entry V)} (h : Grown cx T μ st st') (wf : StackWF cx st) (wf' : StackWF cx st')
    {evs evs' : List Event} (ho : ∀ a f, fieldAt st a = some f → occs evs' (moved μ a) = occs evs a) (sub : Bool)
    (hok : allFail evs' st' sub = none) :
    allFail evs st sub = if topRequired st && !sub
      then some (.error { kind := .missingRequiredSubcommand }) else none := by
  induction h generalizing sub with
  | nil => simp [allFail, topRequired]
  | @cons i d d' st st' h hd ih =>
    rw [allFail, Option.or_eq_none_iff] at hok
    have hr := ih (fun y hy => wf y (by simp [hy])) (fun y hy => wf' y (by simp [hy]))
      (fun a f ha => ho a f (fieldAt_ext_some (ext := [(i, d)]) ha)) true hok.2
    simp only [Bool.not_true, Bool.and_false, Bool.false_eq_true, if_false] at hr
    rw [allFail, hr, Option.or_none]
    have hok := hok.1
    have e2 := argsFail_none d' (wf' (i, d') (by simp)) (os := fun s i => occs evs' ⟨st'.length, s, i⟩) (s := 0) (sub := sub)
    simp only [Nat.zero_add] at e2
    change argsFail (fun s => present (fun i => occs evs' ⟨st'.length, s, i⟩)) 0 sub d' = none at hok
    change argsFail (fun s => present (fun i => occs evs ⟨st.length, s, i⟩)) 0 sub d = _
    rw [e2, argsOk_iff (os := fun s i => occs evs' ⟨st'.length, s, i⟩)] at hok
    refine argsFail_fields (wf (i, d) (by simp)) (os := fun s i => occs evs ⟨st.length, s, i⟩) ?_
    refine fieldsOk_shrunk (wf (i, d) (by simp)) (wf' (i, d') (by simp)) hd.keeps ?_ hok
    intro p f hp
    rw [h.length]
    exact ho _ _ (argAt_fieldAt hp)

end Palc
