import Verif.Lemmas.Visible
import Verif.Lemmas.Kinds
/-! What the next argument is read as. -/

namespace Palc

open Spec

variable {V : Type} {cx : Cx V} {d : ArgsDef V} {argv0 : Bytes} {toks : List Bytes} {evs : List Event} {κ : Ctx V}
  {out : Out V}

/-- Something that cannot be read makes parsing fail with an error (which is not a panic). -/
theorem stuck_fails (hd : DerivedArgs cx d) {pre post : List Bytes} {evs evs' : List Event} {κ : Ctx V}
    {e : Error} (hpre : Reads cx (start argv0 d) pre evs κ) (hs : Stuck cx κ post evs' e) :
    ∃ e', tryParseFrom d (argv0 :: pre ++ post) = .error (.error e')
      ∧ (e' = e ∨ e'.kind.ofValue = true) ∧ (Acceptable κ.stack (evs ++ evs') → e' = e) := by
  have hh : Halts cx (start argv0 d) (pre ++ post) (evs ++ evs') κ e :=
    ⟨_, _, _, steps_append (reads_steps hpre) post, hs, rfl⟩
  rcases outcome_halts hd.wf hh with ⟨h1, h2⟩ | ⟨e', h1, h2⟩
  · exact ⟨e, h2, .inl rfl, fun _ => rfl⟩
  · exact ⟨e', h2, .inr (firstBad_kind h1), fun ha => absurd ha h1.not_acceptable⟩

/-- The next argument of a successful parse is read by a step. -/
theorem Parsed.next_step {pre ts : List Bytes} {tok : Bytes} (h : Parsed cx d argv0 (pre ++ tok :: ts) evs κ out) {evs1 : List Event}
    {κ1 : Ctx V} (hpre : Reads cx (start argv0 d) pre evs1 κ1) :
    ∃ E1 κ2 rest E2, Step cx κ1 (tok :: ts) E1 κ2 rest ∧ Reads cx κ2 rest E2 κ ∧ evs = evs1 ++ (E1 ++ E2) := by
  obtain ⟨E, hE, hR⟩ := h.after_reads hpre
  generalize hT : tok :: ts = T at hR
  have hs := reads_steps hR
  cases hs with
  | refl => cases hT
  | step h1 h2 =>
    obtain ⟨E2, h3, h4⟩ := steps_reads_det (.step h1 .refl) hR
    subst hT
    exact ⟨_, _, _, E2, h1, h4, by rw [hE, h3]; simp⟩

/-- A long option is an occurrence of the field its name refers to. -/
theorem long_step {st : List (Entry V)} {k : Nat} {n : Str} {tail : Bytes} {ts rest : List Bytes} {evs : List Event} {κ1 : Ctx V}
    (h : Step cx ⟨st, k, .opts⟩ ((enc ('-' :: '-' :: n) ++ tail) :: ts) evs κ1 rest) (hn : '=' ∉ n)
    (hne : enc ('-' :: '-' :: n) ++ tail ≠ [dash, dash]) (ht : tail = [] ∨ tail.head? = some eqSign) :
    ∃ a f o, Resolves cx st (.long n) a f ∧ evs = [(a, o)] ∧ (∀ v, tail = eqSign :: v → o = some v) ∧ κ1 = ⟨st, k, .opts⟩ := by
  generalize hT : (enc ('-' :: '-' :: n) ++ tail) :: ts = T at h
  have key : ∀ {n' : Str} {tail' : Bytes}, '=' ∉ n' → (tail' = [] ∨ tail'.head? = some eqSign) →
      enc ('-' :: '-' :: n) ++ tail = enc ('-' :: '-' :: n') ++ tail' → n = n' ∧ tail = tail' := by
    intro n' tail' hn' ht' e
    obtain ⟨h1, h2⟩ := cut_unique (eq_not_long hn) (eq_not_long hn') ht ht' e
    exact ⟨long_bare_inj h1, h2⟩
  cases h with
  | longEq hr hn' hk =>
    rw [List.cons.injEq] at hT
    obtain ⟨rfl, rfl⟩ := key hn' (.inr rfl) hT.1
    exact ⟨_, _, _, hr, rfl, by intro v h; cases h; rfl, rfl⟩
  | @longBare _ _ n' _ _ _ hr hn' _ _ =>
    rw [List.cons.injEq, ← List.append_nil (enc ('-' :: '-' :: n'))] at hT
    obtain ⟨rfl, rfl⟩ := key hn' (.inl rfl) hT.1
    exact ⟨_, _, _, hr, rfl, by simp, rfl⟩
  | @longSep _ _ n' _ _ _ _ hr hn' _ _ _ _ =>
    rw [List.cons.injEq, ← List.append_nil (enc ('-' :: '-' :: n'))] at hT
    obtain ⟨rfl, rfl⟩ := key hn' (.inl rfl) hT.1
    exact ⟨_, _, _, hr, rfl, by simp, rfl⟩
  | cluster hb hc => rw [List.cons.injEq] at hT; exact (cluster_not_long hb hT.1).elim
  | clusterSep hb hc => rw [List.cons.injEq] at hT; exact (cluster_not_long hb hT.1).elim
  | sub hv hp => rw [List.cons.injEq] at hT; rw [← hT.1] at hp; exact (enc_dashdash_plain hp).elim
  | positional hp => rw [List.cons.injEq] at hT; rw [← hT.1] at hp; exact (enc_dashdash_plain hp).elim
  | dashdash => rw [List.cons.injEq] at hT; exact absurd hT.1 hne

/-- A cluster begins with an occurrence of the field its first character refers to. -/
theorem cluster_first {st : List (Entry V)} {next : Option Bytes} {c : Char} {r : Bytes} {evs : List Event} {took : Bool}
    (h : Cluster cx st next (encChar c ++ r) evs took) :
    ∃ a f o E, Resolves cx st (.short c) a f ∧ evs = (a, o) :: E := by
  generalize hb : encChar c ++ r = b at h
  cases h with
  | @bare c' _ _ hr _ =>
    rw [← List.append_nil (encChar c')] at hb
    obtain ⟨rfl, rfl⟩ := encChar_append_inj hb
    exact ⟨_, _, _, _, hr, rfl⟩
  | more hr =>
    obtain ⟨rfl, rfl⟩ := encChar_append_inj hb
    exact ⟨_, _, _, _, hr, rfl⟩
  | eq hr =>
    obtain ⟨rfl, rfl⟩ := encChar_append_inj hb
    exact ⟨_, _, _, _, hr, rfl⟩
  | attached hr =>
    obtain ⟨rfl, rfl⟩ := encChar_append_inj hb
    exact ⟨_, _, _, _, hr, rfl⟩
  | @sep c' _ _ _ hr _ _ _ _ =>
    rw [← List.append_nil (encChar c')] at hb
    obtain ⟨rfl, rfl⟩ := encChar_append_inj hb
    exact ⟨_, _, _, _, hr, rfl⟩

theorem short_tok {c : Char} (hc : c ≠ '-') (r : Bytes) : ∃ x y, encChar c ++ r = x :: y ∧ x ≠ dash := by
  cases h : encChar c ++ r with
  | nil => simp [encChar_ne_nil] at h
  | cons x y =>
    refine ⟨x, y, rfl, fun hx => encChar_head_ne_dash hc r ?_⟩
    rw [h, hx]; rfl

/-- An argument `-c..` begins with an occurrence of the field `c` refers to. -/
theorem short_step {st : List (Entry V)} {k : Nat} {c : Char} {r : Bytes} {ts rest : List Bytes} {evs : List Event} {κ1 : Ctx V}
    (hc : c ≠ '-') (h : Step cx ⟨st, k, .opts⟩ ((dash :: (encChar c ++ r)) :: ts) evs κ1 rest) :
    ∃ a f o E, Resolves cx st (.short c) a f ∧ evs = (a, o) :: E := by
  generalize hT : (dash :: (encChar c ++ r)) :: ts = T at h
  obtain ⟨x, y, hxy, hx⟩ := short_tok hc r
  cases h with
  | longEq => rw [hxy, long_tok] at hT; simp only [List.cons.injEq, true_and] at hT; exact absurd hT.1.1 hx
  | @longBare _ _ n' =>
    rw [hxy, ← List.append_nil (enc ('-' :: '-' :: n')), long_tok] at hT; simp only [List.cons.injEq, true_and] at hT; exact absurd hT.1.1 hx
  | @longSep _ _ n' =>
    rw [hxy, ← List.append_nil (enc ('-' :: '-' :: n')), long_tok] at hT; simp only [List.cons.injEq, true_and] at hT; exact absurd hT.1.1 hx
  | cluster hb hcl => simp only [List.cons.injEq, true_and] at hT; rw [← hT.1] at hcl; exact cluster_first hcl
  | clusterSep hb hcl => simp only [List.cons.injEq, true_and] at hT; rw [← hT.1] at hcl; exact cluster_first hcl
  | sub hv hp =>
    rw [List.cons.injEq] at hT; rw [← hT.1, hxy] at hp
    exact absurd (plain_not_dash hp) (by simp)
  | positional hp =>
    rw [List.cons.injEq] at hT; rw [← hT.1, hxy] at hp
    exact absurd (plain_not_dash hp) (by simp)
  | dashdash => rw [hxy] at hT; simp only [List.cons.injEq, true_and] at hT; exact absurd hT.1.1 hx

/-- A cluster fails with a help request only because of an undeclared `-h`, after flags. -/
theorem clusterStuck_help {st : List (Entry V)} {next : Option Bytes} {b : Bytes} {evs : List Event} {e : Error}
    (h : ClusterStuck cx st next b evs e) (hk : e.kind = .help) :
    ∃ fl rest, b = enc fl ++ (encChar 'h' ++ rest) ∧ (∀ c ∈ fl, PureFlag cx st c) ∧ Unknown cx st (.short 'h')
      ∧ e = helpRequest st := by
  induction h with
  | @more c a f rest evs e hr ht hq _ _ _ ih =>
    obtain ⟨fl, r, h1, h2, h3, h4⟩ := ih hk
    refine ⟨c :: fl, r, ?_, ?_, h3, h4⟩
    · rw [enc_cons, List.append_assoc, h1]
    · intro x hx
      rcases List.mem_cons.1 hx with rfl | hx
      · exact ⟨a, f, hr, ht, hq⟩
      · exact h2 x hx
  | @help rest hu => exact ⟨[], rest, by simp [enc_nil], by simp, hu, rfl⟩
  | unknown | invalid | optionalValue => simp [unexpected] at hk
  | missingEqAttached | missingEq | missingValue | flagValue => rw [about_kind] at hk; cases hk

end Palc
