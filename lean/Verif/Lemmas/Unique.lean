import Verif.Lemmas.Outcome
/-! The grammar is unambiguous: a list of arguments can be read in at most one way. -/

namespace Palc

open Spec

variable {V : Type}

theorem resolves_unique {cx : Cx V} {st : List (Entry V)} {n : Name} {a a' : Addr} {f f' : FieldInfo V}
    (h : Resolves cx st n a f) (h' : Resolves cx st n a' f') : a = a' ∧ f = f' := by
  unfold Resolves at h h'
  rw [h] at h'
  cases h'
  exact ⟨rfl, rfl⟩

theorem resolves_not_unknown {cx : Cx V} {st : List (Entry V)} {n : Name} {a : Addr} {f : FieldInfo V}
    (h : Resolves cx st n a f) : ¬ Unknown cx st n := by
  intro hu
  have h1 := resolves_declares h
  have h2 := hu (a, f) (List.mem_of_find?_eq_some h)
  simp only at h2
  rw [h1] at h2
  simp at h2

theorem encChar_self_append {c d : Char} {r : Bytes} (h : encChar c = encChar d ++ r) : c = d ∧ r = [] := by
  have := encChar_append_inj (c := c) (d := d) (r := []) (s := r) (by simpa using h)
  exact ⟨this.1, this.2.symm⟩

theorem cluster_det {cx : Cx V} {st : List (Entry V)} {next : Option Bytes} {b : Bytes} {evs : List Event} {took : Bool}
    (h : Cluster cx st next b evs took) {evs' : List Event} {took' : Bool} (h' : Cluster cx st next b evs' took') :
    evs = evs' ∧ took = took' := by
  induction h generalizing evs' took' with
  | @bare c a f hr ht =>
    generalize hb : encChar c = b at h'
    cases h' with
    | bare hr' => cases encChar_injective hb; obtain ⟨rfl, rfl⟩ := resolves_unique hr hr'; exact ⟨rfl, rfl⟩
    | more hr' _ _ hne => exact absurd (encChar_self_append hb).2 hne
    | eq => exact absurd (encChar_self_append hb).2 (by simp)
    | attached hr' _ _ hne => exact absurd (encChar_self_append hb).2 hne
    | sep hr' ht' =>
      cases encChar_injective hb
      obtain ⟨rfl, rfl⟩ := resolves_unique hr hr'
      rw [ht] at ht'; simp at ht'
  | @more c a f rest evs took hr ht hq hne heq h ih =>
    generalize hb : encChar c ++ rest = b at h'
    cases h' with
    | bare hr' => exact absurd (encChar_self_append hb.symm).2 hne
    | more hr' _ _ _ _ h' =>
      obtain ⟨rfl, rfl⟩ := encChar_append_inj hb
      obtain ⟨rfl, rfl⟩ := resolves_unique hr hr'
      obtain ⟨rfl, rfl⟩ := ih h'
      exact ⟨rfl, rfl⟩
    | eq hr' ht' =>
      obtain ⟨rfl, rfl⟩ := encChar_append_inj hb
      simp at heq
    | attached hr' ht' =>
      obtain ⟨rfl, rfl⟩ := encChar_append_inj hb
      obtain ⟨rfl, rfl⟩ := resolves_unique hr hr'
      rw [ht] at ht'; simp at ht'
    | sep hr' => exact absurd (encChar_self_append hb.symm).2 hne
  | @eq c a f v hr ht =>
    generalize hb : encChar c ++ eqSign :: v = b at h'
    cases h' with
    | bare hr' => exact absurd (encChar_self_append hb.symm).2 (by simp)
    | more hr' _ _ _ heq =>
      obtain ⟨rfl, rfl⟩ := encChar_append_inj hb
      simp at heq
    | eq hr' =>
      obtain ⟨rfl, hv⟩ := encChar_append_inj hb
      cases hv
      obtain ⟨rfl, rfl⟩ := resolves_unique hr hr'
      exact ⟨rfl, rfl⟩
    | attached hr' _ _ _ heq =>
      obtain ⟨rfl, rfl⟩ := encChar_append_inj hb
      simp at heq
    | sep hr' => exact absurd (encChar_self_append hb.symm).2 (by simp)
  | @attached c a f v hr ht hq hne heq =>
    generalize hb : encChar c ++ v = b at h'
    cases h' with
    | bare hr' => exact absurd (encChar_self_append hb.symm).2 hne
    | more hr' ht' =>
      obtain ⟨rfl, rfl⟩ := encChar_append_inj hb
      obtain ⟨rfl, rfl⟩ := resolves_unique hr hr'
      rw [ht] at ht'; simp at ht'
    | eq hr' =>
      obtain ⟨rfl, rfl⟩ := encChar_append_inj hb
      simp at heq
    | attached hr' =>
      obtain ⟨rfl, rfl⟩ := encChar_append_inj hb
      obtain ⟨rfl, rfl⟩ := resolves_unique hr hr'
      exact ⟨rfl, rfl⟩
    | sep hr' => exact absurd (encChar_self_append hb.symm).2 hne
  | @sep c a f v hr ht hq hn hs =>
    generalize hb : encChar c = b at h'
    cases h' with
    | bare hr' ht' =>
      cases encChar_injective hb
      obtain ⟨rfl, rfl⟩ := resolves_unique hr hr'
      rw [ht] at ht'; simp at ht'
    | more hr' _ _ hne => exact absurd (encChar_self_append hb).2 hne
    | eq => exact absurd (encChar_self_append hb).2 (by simp)
    | attached hr' _ _ hne => exact absurd (encChar_self_append hb).2 hne
    | sep hr' _ _ hn' =>
      cases encChar_injective hb
      obtain ⟨rfl, rfl⟩ := resolves_unique hr hr'
      rw [hn] at hn'
      cases hn'
      exact ⟨rfl, rfl⟩

/-- A token of the form `--..` other than `--`. -/
theorem long_tok (n : Str) (t : Bytes) : enc ('-' :: '-' :: n) ++ t = dash :: dash :: (enc n ++ t) := by
  rw [enc_dashdash]; rfl

theorem plain_not_dash {b : Bytes} (h : Plain (dash :: b)) : b = [] := by
  rcases h with h | h
  · simp at h
  · simpa using h

theorem long_split {n n' : Str} {v v' : Bytes} (hn : '=' ∉ n) (hn' : '=' ∉ n')
    (h : enc ('-' :: '-' :: n) ++ eqSign :: v = enc ('-' :: '-' :: n') ++ eqSign :: v') : n = n' ∧ v = v' := by
  have e1 : eqSign ∉ enc ('-' :: '-' :: n) := by rw [eqSign_mem_enc]; simpa using hn
  have e2 : eqSign ∉ enc ('-' :: '-' :: n') := by rw [eqSign_mem_enc]; simpa using hn'
  have := splitOnceEq_app (v := v) e1
  rw [h, splitOnceEq_app e2] at this
  simp only [Option.some.injEq, Prod.mk.injEq] at this
  have := enc_injective this.1
  simp only [List.cons.injEq, true_and] at this
  exact ⟨this.symm, by simp_all⟩

theorem long_eq_bare {n n' : Str} {v : Bytes} (hn' : '=' ∉ n')
    (h : enc ('-' :: '-' :: n) ++ eqSign :: v = enc ('-' :: '-' :: n')) : False := by
  have e2 : eqSign ∉ enc ('-' :: '-' :: n') := by rw [eqSign_mem_enc]; simpa using hn'
  rw [← h] at e2
  simp at e2

theorem long_bare_inj {n n' : Str} (h : enc ('-' :: '-' :: n) = enc ('-' :: '-' :: n')) : n = n' := by
  have := enc_injective h
  simpa using this

theorem long_ne_dashdash {n : Str} (hne : n ≠ []) : enc ('-' :: '-' :: n) ≠ [dash, dash] := by
  rw [enc_dashdash]
  simpa [enc_eq_nil] using hne

theorem long_eq_ne_dashdash {n : Str} {v : Bytes} : enc ('-' :: '-' :: n) ++ eqSign :: v ≠ [dash, dash] := by
  rw [long_tok]; simp

theorem enc_dashdash_plain {n : Str} {t : Bytes} (h : Plain (enc ('-' :: '-' :: n) ++ t)) : False := by
  rw [long_tok] at h
  exact absurd (plain_not_dash h) (by simp)

theorem cluster_not_long {b : Bytes} {n : Str} {t : Bytes} (hb : b.head? ≠ some dash)
    (h : enc ('-' :: '-' :: n) ++ t = dash :: b) : False := by
  rw [long_tok] at h
  simp only [List.cons.injEq, true_and] at h
  rw [← h] at hb
  simp at hb

theorem step_det {cx : Cx V} {κ κ1 κ2 : Ctx V} {toks rest rest' : Toks} {evs evs' : List Event}
    (h : Step cx κ toks evs κ1 rest) (h' : Step cx κ toks evs' κ2 rest') :
    evs = evs' ∧ κ1 = κ2 ∧ rest = rest' := by
  cases h with
  | @longEq st k n v a f toks hr hn ht =>
    generalize hT : (enc ('-' :: '-' :: n) ++ eqSign :: v) :: rest = T at h'
    cases h' with
    | longEq hr' hn' =>
      rw [List.cons.injEq] at hT
      obtain ⟨h1, rfl⟩ := hT
      obtain ⟨rfl, rfl⟩ := long_split hn hn' h1
      obtain ⟨rfl, rfl⟩ := resolves_unique hr hr'
      exact ⟨rfl, rfl, rfl⟩
    | longBare _ hn' => rw [List.cons.injEq] at hT; exact (long_eq_bare hn' hT.1).elim
    | longSep _ hn' => rw [List.cons.injEq] at hT; exact (long_eq_bare hn' hT.1).elim
    | cluster hb => rw [List.cons.injEq] at hT; exact (cluster_not_long hb hT.1).elim
    | clusterSep hb => rw [List.cons.injEq] at hT; exact (cluster_not_long hb hT.1).elim
    | sub _ hp => rw [List.cons.injEq] at hT; rw [← hT.1] at hp; exact (enc_dashdash_plain hp).elim
    | positional hp => rw [List.cons.injEq] at hT; rw [← hT.1] at hp; exact (enc_dashdash_plain hp).elim
    | dashdash => rw [List.cons.injEq] at hT; exact (long_eq_ne_dashdash hT.1).elim
  | @longBare st k n a f toks hr hn hne ht =>
    generalize hT : enc ('-' :: '-' :: n) :: rest = T at h'
    have hl : ∀ {x}, enc ('-' :: '-' :: n) = x → enc ('-' :: '-' :: n) ++ [] = x := by simp
    cases h' with
    | longEq hr' hn' => rw [List.cons.injEq] at hT; exact (long_eq_bare hn hT.1.symm).elim
    | longBare hr' _ =>
      rw [List.cons.injEq] at hT
      obtain ⟨h1, rfl⟩ := hT
      cases long_bare_inj h1
      obtain ⟨rfl, rfl⟩ := resolves_unique hr hr'
      exact ⟨rfl, rfl, rfl⟩
    | longSep hr' _ _ ht' =>
      rw [List.cons.injEq] at hT
      obtain ⟨h1, rfl⟩ := hT
      cases long_bare_inj h1
      obtain ⟨rfl, rfl⟩ := resolves_unique hr hr'
      rw [ht] at ht'; simp at ht'
    | cluster hb => rw [List.cons.injEq] at hT; exact (cluster_not_long hb (hl hT.1)).elim
    | clusterSep hb => rw [List.cons.injEq] at hT; exact (cluster_not_long hb (hl hT.1)).elim
    | sub _ hp => rw [List.cons.injEq] at hT; rw [← hl hT.1] at hp; exact (enc_dashdash_plain hp).elim
    | positional hp => rw [List.cons.injEq] at hT; rw [← hl hT.1] at hp; exact (enc_dashdash_plain hp).elim
    | dashdash => rw [List.cons.injEq] at hT; exact (long_ne_dashdash hne hT.1).elim
  | @longSep st k n v a f toks hr hn hne ht hq hs =>
    generalize hT : enc ('-' :: '-' :: n) :: v :: rest = T at h'
    have hl : ∀ {x}, enc ('-' :: '-' :: n) = x → enc ('-' :: '-' :: n) ++ [] = x := by simp
    cases h' with
    | longEq hr' hn' => rw [List.cons.injEq] at hT; exact (long_eq_bare hn hT.1.symm).elim
    | longBare hr' _ _ ht' =>
      rw [List.cons.injEq] at hT
      obtain ⟨h1, rfl⟩ := hT
      cases long_bare_inj h1
      obtain ⟨rfl, rfl⟩ := resolves_unique hr hr'
      rw [ht] at ht'; simp at ht'
    | longSep hr' =>
      rw [List.cons.injEq, List.cons.injEq] at hT
      obtain ⟨h1, rfl, rfl⟩ := hT
      cases long_bare_inj h1
      obtain ⟨rfl, rfl⟩ := resolves_unique hr hr'
      exact ⟨rfl, rfl, rfl⟩
    | cluster hb => rw [List.cons.injEq] at hT; exact (cluster_not_long hb (hl hT.1)).elim
    | clusterSep hb => rw [List.cons.injEq] at hT; exact (cluster_not_long hb (hl hT.1)).elim
    | sub _ hp => rw [List.cons.injEq] at hT; rw [← hl hT.1] at hp; exact (enc_dashdash_plain hp).elim
    | positional hp => rw [List.cons.injEq] at hT; rw [← hl hT.1] at hp; exact (enc_dashdash_plain hp).elim
    | dashdash => rw [List.cons.injEq] at hT; exact (long_ne_dashdash hne hT.1).elim
  | @cluster st k b toks evs hb hc =>
    generalize hT : (dash :: b) :: rest = T at h'
    cases h' with
    | longEq => rw [List.cons.injEq] at hT; exact (cluster_not_long hb hT.1.symm).elim
    | longBare => rw [List.cons.injEq] at hT; exact (cluster_not_long (t := []) hb (by simpa using hT.1.symm)).elim
    | longSep => rw [List.cons.injEq] at hT; exact (cluster_not_long (t := []) hb (by simpa using hT.1.symm)).elim
    | cluster hb' hc' =>
      rw [List.cons.injEq, List.cons.injEq] at hT
      obtain ⟨⟨_, rfl⟩, rfl⟩ := hT
      exact ⟨(cluster_det hc hc').1, rfl, rfl⟩
    | clusterSep hb' hc' =>
      rw [List.cons.injEq, List.cons.injEq] at hT
      obtain ⟨⟨_, rfl⟩, rfl⟩ := hT
      have := (cluster_det hc hc').2
      simp at this
    | sub _ hp => rw [List.cons.injEq] at hT; rw [← hT.1] at hp; exact absurd (plain_not_dash hp) (cluster_ne hc)
    | positional hp => rw [List.cons.injEq] at hT; rw [← hT.1] at hp; exact absurd (plain_not_dash hp) (cluster_ne hc)
    | dashdash =>
      rw [List.cons.injEq, List.cons.injEq] at hT
      rw [hT.1.2] at hb
      simp at hb
  | @clusterSep st k b v toks evs hb hc =>
    generalize hT : (dash :: b) :: v :: rest = T at h'
    cases h' with
    | longEq => rw [List.cons.injEq] at hT; exact (cluster_not_long hb hT.1.symm).elim
    | longBare => rw [List.cons.injEq] at hT; exact (cluster_not_long (t := []) hb (by simpa using hT.1.symm)).elim
    | longSep => rw [List.cons.injEq] at hT; exact (cluster_not_long (t := []) hb (by simpa using hT.1.symm)).elim
    | cluster hb' hc' =>
      rw [List.cons.injEq, List.cons.injEq] at hT
      obtain ⟨⟨_, rfl⟩, rfl⟩ := hT
      have := (cluster_det hc hc').2
      simp at this
    | clusterSep hb' hc' =>
      rw [List.cons.injEq, List.cons.injEq, List.cons.injEq] at hT
      obtain ⟨⟨_, rfl⟩, rfl, rfl⟩ := hT
      exact ⟨(cluster_det hc hc').1, rfl, rfl⟩
    | sub _ hp => rw [List.cons.injEq] at hT; rw [← hT.1] at hp; exact absurd (plain_not_dash hp) (cluster_ne hc)
    | positional hp => rw [List.cons.injEq] at hT; rw [← hT.1] at hp; exact absurd (plain_not_dash hp) (cluster_ne hc)
    | dashdash =>
      rw [List.cons.injEq, List.cons.injEq] at hT
      rw [hT.1.2] at hb
      simp at hb
  | @sub i d st k v toks hv hp =>
    generalize hT : enc v.name :: rest = T at h'
    cases h' with
    | longEq => rw [List.cons.injEq] at hT; rw [hT.1] at hp; exact (enc_dashdash_plain hp).elim
    | longBare => rw [List.cons.injEq] at hT; rw [hT.1] at hp; exact (enc_dashdash_plain (t := []) (by simpa using hp)).elim
    | longSep => rw [List.cons.injEq] at hT; rw [hT.1] at hp; exact (enc_dashdash_plain (t := []) (by simpa using hp)).elim
    | cluster _ hc => rw [List.cons.injEq] at hT; rw [hT.1] at hp; exact absurd (plain_not_dash hp) (cluster_ne hc)
    | clusterSep _ hc => rw [List.cons.injEq] at hT; rw [hT.1] at hp; exact absurd (plain_not_dash hp) (cluster_ne hc)
    | sub hv' =>
      rw [List.cons.injEq] at hT
      obtain ⟨h1, rfl⟩ := hT
      cases selected_unique hv hv' (enc_injective h1)
      exact ⟨rfl, rfl, rfl⟩
    | positional _ hns => rw [List.cons.injEq] at hT; exact absurd hT.1 (hns v hv.mem)
    | dashdash =>
      rw [List.cons.injEq] at hT; rw [hT.1] at hp
      exact absurd (plain_not_dash hp) (by simp)
  | @positional i d st k tok x toks hp hns hx =>
    cases h' with
    | longEq => exact (enc_dashdash_plain hp).elim
    | longBare => exact (enc_dashdash_plain (t := []) (by simpa using hp)).elim
    | longSep => exact (enc_dashdash_plain (t := []) (by simpa using hp)).elim
    | cluster _ hc => exact absurd (plain_not_dash hp) (cluster_ne hc)
    | clusterSep _ hc => exact absurd (plain_not_dash hp) (cluster_ne hc)
    | sub hv' => exact absurd rfl (hns _ hv'.mem)
    | positional _ _ hx' => rw [hx] at hx'; cases hx'; exact ⟨rfl, rfl, rfl⟩
    | dashdash => exact absurd (plain_not_dash hp) (by simp)
  | @dashdash st k toks =>
    generalize hT : [dash, dash] :: rest = T at h'
    cases h' with
    | longEq => rw [List.cons.injEq] at hT; exact (long_eq_ne_dashdash hT.1.symm).elim
    | longBare _ _ hne => rw [List.cons.injEq] at hT; exact (long_ne_dashdash hne hT.1.symm).elim
    | longSep _ _ hne => rw [List.cons.injEq] at hT; exact (long_ne_dashdash hne hT.1.symm).elim
    | cluster hb => rw [List.cons.injEq, List.cons.injEq] at hT; rw [← hT.1.2] at hb; simp at hb
    | clusterSep hb => rw [List.cons.injEq, List.cons.injEq] at hT; rw [← hT.1.2] at hb; simp at hb
    | sub _ hp => rw [List.cons.injEq] at hT; rw [← hT.1] at hp; exact absurd (plain_not_dash hp) (by simp)
    | positional hp => rw [List.cons.injEq] at hT; rw [← hT.1] at hp; exact absurd (plain_not_dash hp) (by simp)
    | dashdash => cases hT; exact ⟨rfl, rfl, rfl⟩
  | last hx =>
    cases h' with
    | last hx' => rw [hx] at hx'; cases hx'; exact ⟨rfl, rfl, rfl⟩
    | dashed hl => rw [hx] at hl; cases hl
  | dashed hl hx =>
    cases h' with
    | last hx' => rw [hl] at hx'; cases hx'
    | dashed _ hx' => rw [hx] at hx'; cases hx'; exact ⟨rfl, rfl, rfl⟩
  | trailing => cases h'; exact ⟨rfl, rfl, rfl⟩

theorem steps_reads_det {cx : Cx V} {κ κ1 κ2 : Ctx V} {toks rest : Toks} {evs E : List Event}
    (h : Steps cx κ toks evs κ1 rest) (hr : Reads cx κ toks E κ2) :
    ∃ evs', E = evs ++ evs' ∧ Reads cx κ1 rest evs' κ2 := by
  induction h generalizing E with
  | refl => exact ⟨E, rfl, hr⟩
  | @step κ toks evs κ1 rest evs' κ' toks' h hs ih =>
    have hr := reads_steps hr
    generalize hnil : ([] : Toks) = e0 at hr
    cases hr with
    | refl => subst hnil; cases h
    | step g gs =>
      obtain ⟨rfl, rfl, rfl⟩ := step_det h g
      subst hnil
      obtain ⟨evs'', rfl, h2⟩ := ih (reads_iff_steps.2 gs)
      exact ⟨evs'', by rw [List.append_assoc], h2⟩

/-- At most one reading. -/
theorem reads_det {cx : Cx V} {κ κ1 κ2 : Ctx V} {toks : Toks} {evs evs' : List Event}
    (h : Reads cx κ toks evs κ1) (h' : Reads cx κ toks evs' κ2) : evs = evs' ∧ κ1 = κ2 := by
  obtain ⟨E, rfl, h2⟩ := steps_reads_det (reads_steps h) h'
  generalize hnil : ([] : Toks) = e0 at h2
  cases h2 <;> simp at hnil ⊢

/-! ## Errors are unambiguous -/

theorem cluster_not_stuck {cx : Cx V} {st : List (Entry V)} {next : Option Bytes} {b : Bytes} {evs : List Event} {took : Bool}
    (h : Cluster cx st next b evs took) {evs' : List Event} {e : Error} (h' : ClusterStuck cx st next b evs' e) : False := by
  induction h generalizing evs' with
  | @bare c a f hr ht =>
    generalize hb : encChar c = b at h'
    cases h' with
    | more hr' _ _ hne => exact absurd (encChar_self_append hb).2 hne
    | unknown hu => rw [(encChar_self_append hb).1] at hr; exact resolves_not_unknown hr hu
    | help hu => rw [(encChar_self_append hb).1] at hr; exact resolves_not_unknown hr hu
    | invalid _ hi => exact hi c [] (by simp [hb])
    | missingEqAttached _ _ hne => exact absurd (encChar_self_append hb).2 hne
    | missingEq hr' ht' =>
      cases encChar_injective hb
      obtain ⟨rfl, rfl⟩ := resolves_unique hr hr'
      rw [ht] at ht'; simp at ht'
    | missingValue hr' ht' =>
      cases encChar_injective hb
      obtain ⟨rfl, rfl⟩ := resolves_unique hr hr'
      rw [ht] at ht'; simp at ht'
    | flagValue => exact absurd (encChar_self_append hb).2 (by simp)
    | optionalValue => exact absurd (encChar_self_append hb).2 (by simp)
  | @more c a f rest evs took hr ht hq hne heq h ih =>
    generalize hb : encChar c ++ rest = b at h'
    cases h' with
    | more hr' _ _ hne' _ h' => obtain ⟨rfl, rfl⟩ := encChar_append_inj hb; exact ih h'
    | unknown hu => rw [(encChar_append_inj hb).1] at hr; exact resolves_not_unknown hr hu
    | help hu => rw [(encChar_append_inj hb).1] at hr; exact resolves_not_unknown hr hu
    | invalid _ hi => exact hi c rest (by simp [hb])
    | missingEqAttached hr' hq' _ =>
      obtain ⟨rfl, rfl⟩ := encChar_append_inj hb
      obtain ⟨rfl, rfl⟩ := resolves_unique hr hr'
      rw [hq] at hq'; simp at hq'
    | missingEq hr' ht' => exact absurd (encChar_self_append hb.symm).2 hne
    | missingValue hr' ht' => exact absurd (encChar_self_append hb.symm).2 hne
    | flagValue => rw [(encChar_append_inj hb).2] at heq; simp at heq
    | optionalValue => rw [(encChar_append_inj hb).2] at heq; simp at heq
  | @eq c a f v hr ht =>
    generalize hb : encChar c ++ eqSign :: v = b at h'
    cases h' with
    | more hr' _ _ hne' heq => rw [← (encChar_append_inj hb).2] at heq; simp at heq
    | unknown hu => rw [(encChar_append_inj hb).1] at hr; exact resolves_not_unknown hr hu
    | help hu => rw [(encChar_append_inj hb).1] at hr; exact resolves_not_unknown hr hu
    | invalid _ hi => exact hi c _ hb.symm
    | missingEqAttached hr' hq' _ heq => rw [← (encChar_append_inj hb).2] at heq; simp at heq
    | missingEq hr' ht' => exact absurd (encChar_self_append hb.symm).2 (by simp)
    | missingValue hr' ht' => exact absurd (encChar_self_append hb.symm).2 (by simp)
    | flagValue hr' hk =>
      cases (encChar_append_inj hb).1
      obtain ⟨rfl, rfl⟩ := resolves_unique hr hr'
      simp [takesValue, hk] at ht
    | optionalValue hr' hk =>
      cases (encChar_append_inj hb).1
      obtain ⟨rfl, rfl⟩ := resolves_unique hr hr'
      simp [takesValue, hk] at ht
  | @attached c a f v hr ht hq hne heq =>
    generalize hb : encChar c ++ v = b at h'
    cases h' with
    | more hr' ht' =>
      cases (encChar_append_inj hb).1
      obtain ⟨rfl, rfl⟩ := resolves_unique hr hr'
      rw [ht] at ht'; simp at ht'
    | unknown hu => rw [(encChar_append_inj hb).1] at hr; exact resolves_not_unknown hr hu
    | help hu => rw [(encChar_append_inj hb).1] at hr; exact resolves_not_unknown hr hu
    | invalid _ hi => exact hi c _ hb.symm
    | missingEqAttached hr' hq' =>
      cases (encChar_append_inj hb).1
      obtain ⟨rfl, rfl⟩ := resolves_unique hr hr'
      rw [hq] at hq'; simp at hq'
    | missingEq hr' ht' => exact absurd (encChar_self_append hb.symm).2 hne
    | missingValue hr' ht' => exact absurd (encChar_self_append hb.symm).2 hne
    | flagValue hr' hk => rw [(encChar_append_inj hb).2] at heq; simp at heq
    | optionalValue hr' hk => rw [(encChar_append_inj hb).2] at heq; simp at heq
  | @sep c a f v hr ht hq hn hs =>
    generalize hb : encChar c = b at h'
    cases h' with
    | more hr' _ _ hne => exact absurd (encChar_self_append hb).2 hne
    | unknown hu => rw [(encChar_self_append hb).1] at hr; exact resolves_not_unknown hr hu
    | help hu => rw [(encChar_self_append hb).1] at hr; exact resolves_not_unknown hr hu
    | invalid _ hi => exact hi c [] (by simp [hb])
    | missingEqAttached _ _ hne => exact absurd (encChar_self_append hb).2 hne
    | missingEq hr' _ hq' =>
      cases encChar_injective hb
      obtain ⟨rfl, rfl⟩ := resolves_unique hr hr'
      rw [hq] at hq'; simp at hq'
    | missingValue hr' _ _ hn' =>
      cases encChar_injective hb
      obtain ⟨rfl, rfl⟩ := resolves_unique hr hr'
      exact hn' v hn hs
    | flagValue => exact absurd (encChar_self_append hb).2 (by simp)
    | optionalValue => exact absurd (encChar_self_append hb).2 (by simp)

theorem clusterStuck_det {cx : Cx V} {st : List (Entry V)} {next : Option Bytes} {b : Bytes} {evs : List Event} {e : Error}
    (h : ClusterStuck cx st next b evs e) {evs' : List Event} {e' : Error} (h' : ClusterStuck cx st next b evs' e') :
    evs = evs' ∧ e = e' := by
  induction h generalizing evs' with
  | @more c a f rest evs e hr ht hq hne heq h ih =>
    generalize hb : encChar c ++ rest = b at h'
    cases h' with
    | more hr' _ _ hne' _ h' =>
      obtain ⟨rfl, rfl⟩ := encChar_append_inj hb
      obtain ⟨rfl, rfl⟩ := resolves_unique hr hr'
      obtain ⟨rfl, rfl⟩ := ih h'
      exact ⟨rfl, rfl⟩
    | unknown hu => rw [(encChar_append_inj hb).1] at hr; exact (resolves_not_unknown hr hu).elim
    | help hu => rw [(encChar_append_inj hb).1] at hr; exact (resolves_not_unknown hr hu).elim
    | invalid _ hi => exact (hi c rest (by simp [hb])).elim
    | missingEqAttached hr' hq' _ =>
      obtain ⟨rfl, rfl⟩ := encChar_append_inj hb
      obtain ⟨rfl, rfl⟩ := resolves_unique hr hr'
      rw [hq] at hq'; simp at hq'
    | missingEq hr' ht' => exact absurd (encChar_self_append hb.symm).2 hne
    | missingValue hr' ht' => exact absurd (encChar_self_append hb.symm).2 hne
    | flagValue => rw [(encChar_append_inj hb).2] at heq; simp at heq
    | optionalValue => rw [(encChar_append_inj hb).2] at heq; simp at heq
  | @unknown c rest hu hc =>
    generalize hb : encChar c ++ rest = b at h'
    have hx : ∀ {c' r a f}, encChar c ++ rest = encChar c' ++ r → Resolves cx st (.short c') a f → False := by
      intro c' r a f he hr
      rw [← (encChar_append_inj he).1] at hr
      exact resolves_not_unknown hr hu
    have hx0 : ∀ {c' a f}, encChar c ++ rest = encChar c' → Resolves cx st (.short c') a f → False := by
      intro c' a f he hr
      exact hx (r := []) (by simpa using he) hr
    cases h' with
    | more hr' => exact (hx hb hr').elim
    | unknown => cases (encChar_append_inj hb).1; exact ⟨rfl, rfl⟩
    | help => exact absurd (encChar_append_inj hb).1 hc
    | invalid _ hi => exact (hi c rest (by simp [hb])).elim
    | missingEqAttached hr' => exact (hx hb hr').elim
    | missingEq hr' => exact (hx0 hb hr').elim
    | missingValue hr' => exact (hx0 hb hr').elim
    | flagValue hr' => exact (hx hb hr').elim
    | optionalValue hr' => exact (hx hb hr').elim
  | @help rest hu =>
    generalize hb : encChar 'h' ++ rest = b at h'
    have hx : ∀ {c' r a f}, encChar 'h' ++ rest = encChar c' ++ r → Resolves cx st (.short c') a f → False := by
      intro c' r a f he hr
      rw [← (encChar_append_inj he).1] at hr
      exact resolves_not_unknown hr hu
    have hx0 : ∀ {c' a f}, encChar 'h' ++ rest = encChar c' → Resolves cx st (.short c') a f → False := by
      intro c' a f he hr
      exact hx (r := []) (by simpa using he) hr
    cases h' with
    | more hr' => exact (hx hb hr').elim
    | unknown _ hc => exact absurd (encChar_append_inj hb).1.symm hc
    | help => exact ⟨rfl, rfl⟩
    | invalid _ hi => exact (hi _ rest hb.symm).elim
    | missingEqAttached hr' => exact (hx hb hr').elim
    | missingEq hr' => exact (hx0 hb hr').elim
    | missingValue hr' => exact (hx0 hb hr').elim
    | flagValue hr' => exact (hx hb hr').elim
    | optionalValue hr' => exact (hx hb hr').elim
  | @invalid b hne hi =>
    cases h' with
    | invalid => exact ⟨rfl, rfl⟩
    | missingEq => exact (hi _ [] (List.append_nil _).symm).elim
    | missingValue => exact (hi _ [] (List.append_nil _).symm).elim
    | _ => exact (hi _ _ rfl).elim
  | @missingEqAttached c a f rest hr hq hne heq =>
    generalize hb : encChar c ++ rest = b at h'
    cases h' with
    | more hr' _ hq' =>
      obtain ⟨rfl, rfl⟩ := encChar_append_inj hb
      obtain ⟨rfl, rfl⟩ := resolves_unique hr hr'
      rw [hq] at hq'; simp at hq'
    | unknown hu => rw [(encChar_append_inj hb).1] at hr; exact (resolves_not_unknown hr hu).elim
    | help hu => rw [(encChar_append_inj hb).1] at hr; exact (resolves_not_unknown hr hu).elim
    | invalid _ hi => exact (hi c rest (by simp [hb])).elim
    | missingEqAttached hr' hq' _ =>
      obtain ⟨rfl, rfl⟩ := encChar_append_inj hb
      obtain ⟨rfl, rfl⟩ := resolves_unique hr hr'
      exact ⟨rfl, rfl⟩
    | missingEq hr' ht' => exact absurd (encChar_self_append hb.symm).2 hne
    | missingValue hr' ht' => exact absurd (encChar_self_append hb.symm).2 hne
    | flagValue => rw [(encChar_append_inj hb).2] at heq; simp at heq
    | optionalValue => rw [(encChar_append_inj hb).2] at heq; simp at heq
  | @missingEq c a f hr ht hq =>
    generalize hb : encChar c = b at h'
    cases h' with
    | more hr' _ _ hne => exact absurd (encChar_self_append hb).2 hne
    | unknown hu => rw [(encChar_self_append hb).1] at hr; exact (resolves_not_unknown hr hu).elim
    | help hu => rw [(encChar_self_append hb).1] at hr; exact (resolves_not_unknown hr hu).elim
    | invalid _ hi => exact (hi c [] (by simp [hb])).elim
    | missingEqAttached _ _ hne => exact absurd (encChar_self_append hb).2 hne
    | missingEq hr' _ hq' =>
      cases encChar_injective hb
      obtain ⟨rfl, rfl⟩ := resolves_unique hr hr'
      exact ⟨rfl, rfl⟩
    | missingValue hr' _ hq' hn' =>
      cases encChar_injective hb
      obtain ⟨rfl, rfl⟩ := resolves_unique hr hr'
      rw [hq] at hq'; simp at hq'
    | flagValue => exact absurd (encChar_self_append hb).2 (by simp)
    | optionalValue => exact absurd (encChar_self_append hb).2 (by simp)
  | @missingValue c a f hr ht hq hn =>
    generalize hb : encChar c = b at h'
    cases h' with
    | more hr' _ _ hne => exact absurd (encChar_self_append hb).2 hne
    | unknown hu => rw [(encChar_self_append hb).1] at hr; exact (resolves_not_unknown hr hu).elim
    | help hu => rw [(encChar_self_append hb).1] at hr; exact (resolves_not_unknown hr hu).elim
    | invalid _ hi => exact (hi c [] (by simp [hb])).elim
    | missingEqAttached _ _ hne => exact absurd (encChar_self_append hb).2 hne
    | missingEq hr' _ hq' =>
      cases encChar_injective hb
      obtain ⟨rfl, rfl⟩ := resolves_unique hr hr'
      rw [hq] at hq'; simp at hq'
    | missingValue hr' _ hq' hn' =>
      cases encChar_injective hb
      obtain ⟨rfl, rfl⟩ := resolves_unique hr hr'
      exact ⟨rfl, rfl⟩
    | flagValue => exact absurd (encChar_self_append hb).2 (by simp)
    | optionalValue => exact absurd (encChar_self_append hb).2 (by simp)
  | @flagValue c a f v hr hk =>
    generalize hb : encChar c ++ eqSign :: v = b at h'
    cases h' with
    | more hr' _ _ hne' heq => rw [← (encChar_append_inj hb).2] at heq; simp at heq
    | unknown hu => rw [(encChar_append_inj hb).1] at hr; exact (resolves_not_unknown hr hu).elim
    | help hu => rw [(encChar_append_inj hb).1] at hr; exact (resolves_not_unknown hr hu).elim
    | invalid _ hi => exact (hi c _ hb.symm).elim
    | missingEqAttached hr' hq' _ heq => rw [← (encChar_append_inj hb).2] at heq; simp at heq
    | missingEq hr' ht' => exact absurd (encChar_self_append hb.symm).2 (by simp)
    | missingValue hr' ht' => exact absurd (encChar_self_append hb.symm).2 (by simp)
    | flagValue hr' hk =>
      obtain ⟨rfl, hv⟩ := encChar_append_inj hb
      cases hv
      obtain ⟨rfl, rfl⟩ := resolves_unique hr hr'
      exact ⟨rfl, rfl⟩
    | optionalValue hr' hk' =>
      cases (encChar_append_inj hb).1
      obtain ⟨rfl, rfl⟩ := resolves_unique hr hr'
      rw [hk] at hk'; cases hk'
  | @optionalValue c a f v hr hk =>
    generalize hb : encChar c ++ eqSign :: v = b at h'
    cases h' with
    | more hr' _ _ hne' heq => rw [← (encChar_append_inj hb).2] at heq; simp at heq
    | unknown hu => rw [(encChar_append_inj hb).1] at hr; exact (resolves_not_unknown hr hu).elim
    | help hu => rw [(encChar_append_inj hb).1] at hr; exact (resolves_not_unknown hr hu).elim
    | invalid _ hi => exact (hi c _ hb.symm).elim
    | missingEqAttached hr' hq' _ heq => rw [← (encChar_append_inj hb).2] at heq; simp at heq
    | missingEq hr' ht' => exact absurd (encChar_self_append hb.symm).2 (by simp)
    | missingValue hr' ht' => exact absurd (encChar_self_append hb.symm).2 (by simp)
    | flagValue hr' hk' =>
      cases (encChar_append_inj hb).1
      obtain ⟨rfl, rfl⟩ := resolves_unique hr hr'
      rw [hk] at hk'; cases hk'
    | optionalValue hr' hk' =>
      obtain ⟨rfl, hv⟩ := encChar_append_inj hb
      cases hv
      obtain ⟨rfl, rfl⟩ := resolves_unique hr hr'
      exact ⟨rfl, rfl⟩

/-- Cutting at the first '=' is unique. -/
theorem cut_unique {n n' t t' : Bytes} (hn : eqSign ∉ n) (hn' : eqSign ∉ n') (ht : t = [] ∨ t.head? = some eqSign)
    (ht' : t' = [] ∨ t'.head? = some eqSign) (h : n ++ t = n' ++ t') : n = n' ∧ t = t' := by
  have key : ∀ {n n' t t' : Bytes}, eqSign ∉ n' → (t = [] ∨ t.head? = some eqSign) → ∀ zs, n' = n ++ zs → t = zs ++ t' → zs = [] := by
    intro n n' t t' hn' ht zs h1 h2
    cases zs with
    | nil => rfl
    | cons z zs =>
      subst h1 h2
      rcases ht with ht | ht
      · simp at ht
      · simp at ht; subst ht; simp at hn'
  rcases List.append_eq_append_iff.1 h with ⟨zs, h1, h2⟩ | ⟨zs, h1, h2⟩
  · have := key hn' ht zs h1 h2; subst this; simp at h1 h2; exact ⟨h1.symm, h2⟩
  · have := key hn ht' zs h1 h2; subst this; simp at h1 h2; exact ⟨h1, h2.symm⟩

theorem eq_not_long {n : Str} (h : '=' ∉ n) : eqSign ∉ enc ('-' :: '-' :: n) := by
  rw [eqSign_mem_enc]; simpa using h

theorem eq_not_help : eqSign ∉ blit "--help" := by decide

theorem prefix_dashdash {name : Bytes} (h : [dash, dash] <+: name) : ∃ r, name = dash :: dash :: r := by
  obtain ⟨r, rfl⟩ := h
  exact ⟨r, rfl⟩

theorem help_name {n : Str} (h : enc ('-' :: '-' :: n) = blit "--help") : n = lit "help" := by
  rw [blit_help] at h
  exact long_bare_inj h

theorem step_not_stuck {cx : Cx V} {κ κ1 : Ctx V} {toks rest : Toks} {evs evs' : List Event} {e : Error}
    (h : Step cx κ toks evs κ1 rest) (h' : Stuck cx κ toks evs' e) : False := by
  have hcut : ∀ {n : Str} {v : Bytes} {name tail : Bytes}, '=' ∉ n → eqSign ∉ name → (tail = [] ∨ tail.head? = some eqSign) →
      enc ('-' :: '-' :: n) ++ eqSign :: v = name ++ tail → enc ('-' :: '-' :: n) = name := by
    intro n v name tail h1 h2 h3 h4
    exact (cut_unique (eq_not_long h1) h2 (.inr rfl) h3 h4).1
  have hcut0 : ∀ {n : Str} {name tail : Bytes}, '=' ∉ n → eqSign ∉ name → (tail = [] ∨ tail.head? = some eqSign) →
      enc ('-' :: '-' :: n) = name ++ tail → enc ('-' :: '-' :: n) = name := by
    intro n name tail h1 h2 h3 h4
    exact (cut_unique (t := []) (eq_not_long h1) h2 (.inl rfl) h3 (by simpa using h4)).1
  cases h with
  | @longEq st k n v a f toks hr hn ht =>
    generalize hT : (enc ('-' :: '-' :: n) ++ eqSign :: v) :: rest = T at h'
    cases h' with
    | longUnknown _ _ hn' ht' hu =>
      rw [List.cons.injEq] at hT
      exact resolves_not_unknown hr (hu n (hcut hn hn' ht' hT.1).symm)
    | longHelp ht' hu =>
      rw [List.cons.injEq] at hT
      cases help_name (hcut hn eq_not_help ht' hT.1)
      exact resolves_not_unknown hr hu
    | flagValue hr' hn' hk =>
      rw [List.cons.injEq] at hT
      obtain ⟨rfl, rfl⟩ := long_split hn hn' hT.1
      obtain ⟨rfl, rfl⟩ := resolves_unique hr hr'
      exact ht hk
    | missingEq _ hn' => rw [List.cons.injEq] at hT; exact long_eq_bare hn' hT.1
    | missingValue _ hn' => rw [List.cons.injEq] at hT; exact long_eq_bare hn' hT.1
    | cluster hb => rw [List.cons.injEq] at hT; exact cluster_not_long hb hT.1
    | surplus hp => rw [List.cons.injEq] at hT; rw [← hT.1] at hp; exact enc_dashdash_plain hp
  | @longBare st k n a f toks hr hn hne ht =>
    generalize hT : enc ('-' :: '-' :: n) :: rest = T at h'
    have hl : ∀ {x}, enc ('-' :: '-' :: n) = x → enc ('-' :: '-' :: n) ++ [] = x := by simp
    cases h' with
    | longUnknown _ _ hn' ht' hu =>
      rw [List.cons.injEq] at hT
      exact resolves_not_unknown hr (hu n (hcut0 hn hn' ht' hT.1).symm)
    | longHelp ht' hu =>
      rw [List.cons.injEq] at hT
      cases help_name (hcut0 hn eq_not_help ht' hT.1)
      exact resolves_not_unknown hr hu
    | flagValue hr' hn' hk => rw [List.cons.injEq] at hT; exact long_eq_bare hn hT.1.symm
    | missingEq hr' hn' _ ht' =>
      rw [List.cons.injEq] at hT
      cases long_bare_inj hT.1
      obtain ⟨rfl, rfl⟩ := resolves_unique hr hr'
      rw [ht] at ht'; simp at ht'
    | missingValue hr' hn' _ ht' =>
      rw [List.cons.injEq] at hT
      cases long_bare_inj hT.1
      obtain ⟨rfl, rfl⟩ := resolves_unique hr hr'
      rw [ht] at ht'; simp at ht'
    | cluster hb => rw [List.cons.injEq] at hT; exact cluster_not_long hb (hl hT.1)
    | surplus hp => rw [List.cons.injEq] at hT; rw [← hl hT.1] at hp; exact enc_dashdash_plain hp
  | @longSep st k n v a f toks hr hn hne ht hq hs =>
    generalize hT : enc ('-' :: '-' :: n) :: v :: rest = T at h'
    have hl : ∀ {x}, enc ('-' :: '-' :: n) = x → enc ('-' :: '-' :: n) ++ [] = x := by simp
    cases h' with
    | longUnknown _ _ hn' ht' hu =>
      rw [List.cons.injEq] at hT
      exact resolves_not_unknown hr (hu n (hcut0 hn hn' ht' hT.1).symm)
    | longHelp ht' hu =>
      rw [List.cons.injEq] at hT
      cases help_name (hcut0 hn eq_not_help ht' hT.1)
      exact resolves_not_unknown hr hu
    | flagValue hr' hn' hk => rw [List.cons.injEq] at hT; exact long_eq_bare hn hT.1.symm
    | missingEq hr' hn' _ _ hq' =>
      rw [List.cons.injEq] at hT
      cases long_bare_inj hT.1
      obtain ⟨rfl, rfl⟩ := resolves_unique hr hr'
      rw [hq] at hq'; simp at hq'
    | missingValue hr' hn' _ ht' _ hv =>
      rw [List.cons.injEq] at hT
      obtain ⟨h1, rfl⟩ := hT
      cases long_bare_inj h1
      obtain ⟨rfl, rfl⟩ := resolves_unique hr hr'
      exact hv v rfl hs
    | cluster hb => rw [List.cons.injEq] at hT; exact cluster_not_long hb (hl hT.1)
    | surplus hp => rw [List.cons.injEq] at hT; rw [← hl hT.1] at hp; exact enc_dashdash_plain hp
  | @cluster st k b toks evs hb hc =>
    generalize hT : (dash :: b) :: rest = T at h'
    cases h' with
    | longUnknown hp =>
      rw [List.cons.injEq] at hT
      obtain ⟨r, rfl⟩ := prefix_dashdash hp
      simp only [List.cons_append, List.cons.injEq, true_and] at hT
      rw [hT.1] at hb; simp at hb
    | longHelp =>
      rw [List.cons.injEq, blit_help] at hT
      exact cluster_not_long hb hT.1.symm
    | flagValue => rw [List.cons.injEq] at hT; exact cluster_not_long hb hT.1.symm
    | missingEq => rw [List.cons.injEq] at hT; exact cluster_not_long (t := []) hb (by simpa using hT.1.symm)
    | missingValue => rw [List.cons.injEq] at hT; exact cluster_not_long (t := []) hb (by simpa using hT.1.symm)
    | cluster _ hc' =>
      rw [List.cons.injEq, List.cons.injEq] at hT
      obtain ⟨⟨_, rfl⟩, rfl⟩ := hT
      exact cluster_not_stuck hc hc'
    | surplus hp => rw [List.cons.injEq] at hT; rw [← hT.1] at hp; exact absurd (plain_not_dash hp) (cluster_ne hc)
  | @clusterSep st k b v toks evs hb hc =>
    generalize hT : (dash :: b) :: v :: rest = T at h'
    cases h' with
    | longUnknown hp =>
      rw [List.cons.injEq] at hT
      obtain ⟨r, rfl⟩ := prefix_dashdash hp
      simp only [List.cons_append, List.cons.injEq, true_and] at hT
      rw [hT.1] at hb; simp at hb
    | longHelp =>
      rw [List.cons.injEq, blit_help] at hT
      exact cluster_not_long hb hT.1.symm
    | flagValue => rw [List.cons.injEq] at hT; exact cluster_not_long hb hT.1.symm
    | missingEq => rw [List.cons.injEq] at hT; exact cluster_not_long (t := []) hb (by simpa using hT.1.symm)
    | missingValue => rw [List.cons.injEq] at hT; exact cluster_not_long (t := []) hb (by simpa using hT.1.symm)
    | cluster _ hc' =>
      rw [List.cons.injEq, List.cons.injEq] at hT
      obtain ⟨⟨_, rfl⟩, rfl⟩ := hT
      exact cluster_not_stuck hc hc'
    | surplus hp => rw [List.cons.injEq] at hT; rw [← hT.1] at hp; exact absurd (plain_not_dash hp) (cluster_ne hc)
  | @sub i d st k v toks hv hp =>
    generalize hT : enc v.name :: rest = T at h'
    cases h' with
    | longUnknown hd =>
      rw [List.cons.injEq] at hT
      obtain ⟨r, rfl⟩ := prefix_dashdash hd
      rw [hT.1] at hp
      exact absurd (plain_not_dash hp) (by simp)
    | longHelp => rw [List.cons.injEq, blit_help] at hT; rw [hT.1] at hp; exact enc_dashdash_plain hp
    | flagValue => rw [List.cons.injEq] at hT; rw [hT.1] at hp; exact enc_dashdash_plain hp
    | missingEq => rw [List.cons.injEq] at hT; rw [hT.1] at hp; exact enc_dashdash_plain (t := []) (by simpa using hp)
    | missingValue => rw [List.cons.injEq] at hT; rw [hT.1] at hp; exact enc_dashdash_plain (t := []) (by simpa using hp)
    | cluster _ hc => rw [List.cons.injEq] at hT; rw [hT.1] at hp; exact absurd (plain_not_dash hp) (clusterStuck_ne hc)
    | surplus _ hns => rw [List.cons.injEq] at hT; exact hns v hv.mem hT.1
  | @positional i d st k tok x toks hp hns hx =>
    cases h' with
    | longUnknown hd =>
      obtain ⟨r, rfl⟩ := prefix_dashdash hd
      exact absurd (plain_not_dash hp) (by simp)
    | longHelp => rw [blit_help] at hp; exact enc_dashdash_plain hp
    | flagValue => exact enc_dashdash_plain hp
    | missingEq => exact enc_dashdash_plain (t := []) (by simpa using hp)
    | missingValue => exact enc_dashdash_plain (t := []) (by simpa using hp)
    | cluster _ hc => exact absurd (plain_not_dash hp) (clusterStuck_ne hc)
    | surplus _ _ hx' => rw [hx] at hx'; cases hx'
  | @dashdash st k toks =>
    generalize hT : [dash, dash] :: rest = T at h'
    cases h' with
    | longUnknown _ hne => rw [List.cons.injEq] at hT; exact hne hT.1.symm
    | longHelp =>
      rw [List.cons.injEq] at hT
      have := congrArg List.length hT.1
      simp [show (blit "--help").length = 6 by decide] at this
      omega
    | flagValue => rw [List.cons.injEq] at hT; exact long_eq_ne_dashdash hT.1.symm
    | missingEq _ _ hne => rw [List.cons.injEq] at hT; exact long_ne_dashdash hne hT.1.symm
    | missingValue _ _ hne => rw [List.cons.injEq] at hT; exact long_ne_dashdash hne hT.1.symm
    | cluster hb => rw [List.cons.injEq, List.cons.injEq] at hT; rw [← hT.1.2] at hb; simp at hb
    | surplus hp => rw [List.cons.injEq] at hT; rw [← hT.1] at hp; exact absurd (plain_not_dash hp) (by simp)
  | last hx =>
    cases h' with
    | dashed hl => rw [hx] at hl; cases hl
  | dashed hl hx =>
    cases h' with
    | dashed _ hx' => rw [hx] at hx'; cases hx'
  | trailing => cases h'

theorem stuck_det {cx : Cx V} {κ : Ctx V} {toks : Toks} {evs evs' : List Event} {e e' : Error}
    (h : Stuck cx κ toks evs e) (h' : Stuck cx κ toks evs' e') : evs = evs' ∧ e = e' := by
  cases h with
  | @longUnknown st k name tail toks hd hne hn ht hu hh =>
    generalize hT : (name ++ tail) :: toks = T at h'
    cases h' with
    | longUnknown _ _ hn' ht' _ _ =>
      rw [List.cons.injEq] at hT
      cases (cut_unique hn hn' ht ht' hT.1).1
      exact ⟨rfl, rfl⟩
    | longHelp ht' _ => rw [List.cons.injEq] at hT; exact absurd (cut_unique hn eq_not_help ht ht' hT.1).1 hh
    | flagValue hr hn' =>
      rw [List.cons.injEq] at hT
      exact (resolves_not_unknown hr (hu _ (cut_unique hn (eq_not_long hn') ht (.inr rfl) hT.1).1)).elim
    | missingEq hr hn' =>
      rw [List.cons.injEq] at hT
      exact (resolves_not_unknown hr (hu _ (cut_unique (t' := []) hn (eq_not_long hn') ht (.inl rfl) (by simpa using hT.1)).1)).elim
    | missingValue hr hn' =>
      rw [List.cons.injEq] at hT
      exact (resolves_not_unknown hr (hu _ (cut_unique (t' := []) hn (eq_not_long hn') ht (.inl rfl) (by simpa using hT.1)).1)).elim
    | cluster hb =>
      rw [List.cons.injEq] at hT
      obtain ⟨r, rfl⟩ := prefix_dashdash hd
      simp only [List.cons_append, List.cons.injEq, true_and] at hT
      rw [← hT.1] at hb; simp at hb
    | surplus hp =>
      rw [List.cons.injEq] at hT
      obtain ⟨r, rfl⟩ := prefix_dashdash hd
      rw [← hT.1] at hp
      exact absurd (plain_not_dash hp) (by simp)
  | @longHelp st k tail toks ht hu =>
    generalize hT : (blit "--help" ++ tail) :: toks = T at h'
    cases h' with
    | longUnknown _ _ hn' ht' _ hh =>
      rw [List.cons.injEq] at hT
      exact absurd (cut_unique eq_not_help hn' ht ht' hT.1).1.symm hh
    | longHelp ht' _ => exact ⟨rfl, rfl⟩
    | flagValue hr hn' =>
      rw [List.cons.injEq] at hT
      rw [help_name (cut_unique eq_not_help (eq_not_long hn') ht (.inr rfl) hT.1).1.symm] at hr
      exact (resolves_not_unknown hr hu).elim
    | missingEq hr hn' =>
      rw [List.cons.injEq] at hT
      rw [help_name (cut_unique (t' := []) eq_not_help (eq_not_long hn') ht (.inl rfl) (by simpa using hT.1)).1.symm] at hr
      exact (resolves_not_unknown hr hu).elim
    | missingValue hr hn' =>
      rw [List.cons.injEq] at hT
      rw [help_name (cut_unique (t' := []) eq_not_help (eq_not_long hn') ht (.inl rfl) (by simpa using hT.1)).1.symm] at hr
      exact (resolves_not_unknown hr hu).elim
    | cluster hb => rw [List.cons.injEq, blit_help] at hT; exact (cluster_not_long hb hT.1).elim
    | surplus hp => rw [List.cons.injEq, blit_help] at hT; rw [← hT.1] at hp; exact (enc_dashdash_plain hp).elim
  | @flagValue st k n v a f toks hr hn hk =>
    generalize hT : (enc ('-' :: '-' :: n) ++ eqSign :: v) :: toks = T at h'
    cases h' with
    | longUnknown _ _ hn' ht' hu =>
      rw [List.cons.injEq] at hT
      exact (resolves_not_unknown hr (hu n (cut_unique (eq_not_long hn) hn' (.inr rfl) ht' hT.1).1.symm)).elim
    | longHelp ht' hu =>
      rw [List.cons.injEq] at hT
      cases help_name (cut_unique (eq_not_long hn) eq_not_help (.inr rfl) ht' hT.1).1
      exact (resolves_not_unknown hr hu).elim
    | flagValue hr' hn' =>
      rw [List.cons.injEq] at hT
      obtain ⟨rfl, rfl⟩ := long_split hn hn' hT.1
      obtain ⟨rfl, rfl⟩ := resolves_unique hr hr'
      exact ⟨rfl, rfl⟩
    | missingEq _ hn' => rw [List.cons.injEq] at hT; exact (long_eq_bare hn' hT.1).elim
    | missingValue _ hn' => rw [List.cons.injEq] at hT; exact (long_eq_bare hn' hT.1).elim
    | cluster hb => rw [List.cons.injEq] at hT; exact (cluster_not_long hb hT.1).elim
    | surplus hp => rw [List.cons.injEq] at hT; rw [← hT.1] at hp; exact (enc_dashdash_plain hp).elim
  | @missingEq st k n a f toks hr hn hne ht hq =>
    generalize hT : enc ('-' :: '-' :: n) :: toks = T at h'
    have hl : ∀ {x}, enc ('-' :: '-' :: n) = x → enc ('-' :: '-' :: n) ++ [] = x := by simp
    cases h' with
    | longUnknown _ _ hn' ht' hu =>
      rw [List.cons.injEq] at hT
      exact (resolves_not_unknown hr (hu n (cut_unique (eq_not_long hn) hn' (.inl rfl) ht' (hl hT.1)).1.symm)).elim
    | longHelp ht' hu =>
      rw [List.cons.injEq] at hT
      cases help_name (cut_unique (eq_not_long hn) eq_not_help (.inl rfl) ht' (hl hT.1)).1
      exact (resolves_not_unknown hr hu).elim
    | flagValue hr' hn' => rw [List.cons.injEq] at hT; exact (long_eq_bare hn hT.1.symm).elim
    | missingEq hr' =>
      rw [List.cons.injEq] at hT
      cases long_bare_inj hT.1
      obtain ⟨rfl, rfl⟩ := resolves_unique hr hr'
      exact ⟨rfl, rfl⟩
    | missingValue hr' _ _ _ hq' =>
      rw [List.cons.injEq] at hT
      cases long_bare_inj hT.1
      obtain ⟨rfl, rfl⟩ := resolves_unique hr hr'
      rw [hq] at hq'; simp at hq'
    | cluster hb => rw [List.cons.injEq] at hT; exact (cluster_not_long hb (hl hT.1)).elim
    | surplus hp => rw [List.cons.injEq] at hT; rw [← hl hT.1] at hp; exact (enc_dashdash_plain hp).elim
  | @missingValue st k n a f toks hr hn hne ht hq hv =>
    generalize hT : enc ('-' :: '-' :: n) :: toks = T at h'
    have hl : ∀ {x}, enc ('-' :: '-' :: n) = x → enc ('-' :: '-' :: n) ++ [] = x := by simp
    cases h' with
    | longUnknown _ _ hn' ht' hu =>
      rw [List.cons.injEq] at hT
      exact (resolves_not_unknown hr (hu n (cut_unique (eq_not_long hn) hn' (.inl rfl) ht' (hl hT.1)).1.symm)).elim
    | longHelp ht' hu =>
      rw [List.cons.injEq] at hT
      cases help_name (cut_unique (eq_not_long hn) eq_not_help (.inl rfl) ht' (hl hT.1)).1
      exact (resolves_not_unknown hr hu).elim
    | flagValue hr' hn' => rw [List.cons.injEq] at hT; exact (long_eq_bare hn hT.1.symm).elim
    | missingEq hr' _ _ _ hq' =>
      rw [List.cons.injEq] at hT
      cases long_bare_inj hT.1
      obtain ⟨rfl, rfl⟩ := resolves_unique hr hr'
      rw [hq] at hq'; simp at hq'
    | missingValue hr' =>
      rw [List.cons.injEq] at hT
      cases long_bare_inj hT.1
      obtain ⟨rfl, rfl⟩ := resolves_unique hr hr'
      exact ⟨rfl, rfl⟩
    | cluster hb => rw [List.cons.injEq] at hT; exact (cluster_not_long hb (hl hT.1)).elim
    | surplus hp => rw [List.cons.injEq] at hT; rw [← hl hT.1] at hp; exact (enc_dashdash_plain hp).elim
  | @cluster st k b toks evs e hb hc =>
    generalize hT : (dash :: b) :: toks = T at h'
    cases h' with
    | longUnknown hp =>
      rw [List.cons.injEq] at hT
      obtain ⟨r, rfl⟩ := prefix_dashdash hp
      simp only [List.cons_append, List.cons.injEq, true_and] at hT
      rw [hT.1] at hb; simp at hb
    | longHelp => rw [List.cons.injEq, blit_help] at hT; exact (cluster_not_long hb hT.1.symm).elim
    | flagValue => rw [List.cons.injEq] at hT; exact (cluster_not_long hb hT.1.symm).elim
    | missingEq => rw [List.cons.injEq] at hT; exact (cluster_not_long (t := []) hb (by simpa using hT.1.symm)).elim
    | missingValue => rw [List.cons.injEq] at hT; exact (cluster_not_long (t := []) hb (by simpa using hT.1.symm)).elim
    | cluster _ hc' =>
      rw [List.cons.injEq, List.cons.injEq] at hT
      obtain ⟨⟨_, rfl⟩, rfl⟩ := hT
      exact clusterStuck_det hc hc'
    | surplus hp => rw [List.cons.injEq] at hT; rw [← hT.1] at hp; exact absurd (plain_not_dash hp) (clusterStuck_ne hc)
  | @surplus i d st k tok toks hp hns hx =>
    cases h' with
    | longUnknown hd =>
      obtain ⟨r, rfl⟩ := prefix_dashdash hd
      exact absurd (plain_not_dash hp) (by simp)
    | longHelp => rw [blit_help] at hp; exact (enc_dashdash_plain hp).elim
    | flagValue => exact (enc_dashdash_plain hp).elim
    | missingEq => exact (enc_dashdash_plain (t := []) (by simpa using hp)).elim
    | missingValue => exact (enc_dashdash_plain (t := []) (by simpa using hp)).elim
    | cluster _ hc => exact absurd (plain_not_dash hp) (clusterStuck_ne hc)
    | surplus => exact ⟨rfl, rfl⟩
  | dashed hl hx => cases h'; exact ⟨rfl, rfl⟩

theorem steps_halts_det {cx : Cx V} {κ κ1 κ2 : Ctx V} {toks rest : Toks} {evs E : List Event} {e : Error}
    (h : Steps cx κ toks evs κ1 rest) (hr : Halts cx κ toks E κ2 e) :
    ∃ evs', E = evs ++ evs' ∧ Halts cx κ1 rest evs' κ2 e := by
  induction h generalizing E with
  | refl => exact ⟨E, rfl, hr⟩
  | @step κ toks evs κ1 rest evs' κ' toks' h hs ih =>
    obtain ⟨E1, E2, r, h1, h2, rfl⟩ := hr
    cases h1 with
    | refl => exact (step_not_stuck h h2).elim
    | step g gs =>
      obtain ⟨rfl, rfl, rfl⟩ := step_det h g
      obtain ⟨evs'', he, h3⟩ := ih ⟨_, _, _, gs, h2, rfl⟩
      exact ⟨evs'', by rw [List.append_assoc, List.append_assoc, he], h3⟩

theorem reads_not_halts {cx : Cx V} {κ κ1 κ2 : Ctx V} {toks : Toks} {evs E : List Event} {e : Error}
    (h : Reads cx κ toks evs κ1) (hr : Halts cx κ toks E κ2 e) : False := by
  obtain ⟨E', _, E1, E2, r, h1, h2, _⟩ := steps_halts_det (reads_steps h) hr
  generalize hnil : ([] : Toks) = e0 at h1
  cases h1 with
  | refl => subst hnil; cases h2
  | step g => subst hnil; cases g

theorem halts_det {cx : Cx V} {κ κ1 κ2 : Ctx V} {toks : Toks} {evs evs' : List Event} {e e' : Error}
    (h : Halts cx κ toks evs κ1 e) (h' : Halts cx κ toks evs' κ2 e') :
    evs = evs' ∧ κ1 = κ2 ∧ e = e' := by
  obtain ⟨E1, E2, r, h1, h2, rfl⟩ := h
  obtain ⟨E', rfl, F1, F2, r', g1, g2, rfl⟩ := steps_halts_det h1 h'
  cases g1 with
  | refl => obtain ⟨rfl, rfl⟩ := stuck_det h2 g2; exact ⟨rfl, rfl, rfl⟩
  | step g => exact (step_not_stuck g h2).elim

end Palc
