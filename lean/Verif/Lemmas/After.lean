import Verif.SpecAfter
import Verif.Lemmas.First
/-! The parser behaves after a prefix as the grammar says. -/

namespace Palc

open Spec

variable {V : Type} {cx : Cx V} {d : ArgsDef V} {argv0 : Bytes} {toks : List Bytes} {evs : List Event} {κ : Ctx V}
  {out : Out V}

theorem Parsed.explains (h : Parsed cx d argv0 toks evs κ out) : Explains κ.stack evs out := by
  refine ⟨fun a f hf => h.field hf, fun inner i e x outer hst => ?_⟩
  obtain ⟨o, o', h1, h2, _⟩ := ok_path h.derived.wf h.reads h.ok hst
  exact ⟨o, o', h1, h2⟩

/-- A successful parse after a prefix that was read. -/
theorem ok_after (hd : DerivedArgs cx d) {pre ts : List Bytes} {κ1 : Ctx V} (hpre : Reads cx (start argv0 d) pre evs κ1)
    (h : tryParseFrom d (argv0 :: pre ++ ts) = .ok out) :
    ∃ E κ', Reads cx κ1 ts E κ' ∧ Explains κ'.stack (evs ++ E) out := by
  obtain ⟨evs', κ', hp⟩ := Parsed.of_ok (toks := pre ++ ts) hd h
  obtain ⟨E, rfl, hR⟩ := hp.after_reads hpre
  exact ⟨E, κ', hR, hp.explains⟩

/-- A successful parse after a prefix and a step. -/
theorem ok_after_step (hd : DerivedArgs cx d) {pre ts rest : List Bytes} {κ1 κ2 : Ctx V} {evs2 : List Event}
    (hpre : Reads cx (start argv0 d) pre evs κ1) (hs : Step cx κ1 ts evs2 κ2 rest)
    (h : tryParseFrom d (argv0 :: pre ++ ts) = .ok out) :
    ∃ E κ', Reads cx κ2 rest E κ' ∧ Explains κ'.stack (evs ++ (evs2 ++ E)) out := by
  obtain ⟨evs', κ', hp⟩ := Parsed.of_ok (toks := pre ++ ts) hd h
  obtain ⟨E, rfl, hR⟩ := hp.after_step hpre hs
  exact ⟨E, κ', hR, hp.explains⟩

theorem reads_error_kind (hd : DerivedArgs cx d) (hr : Reads cx (start argv0 d) toks evs κ) {e : Error}
    (h : tryParseFrom d (argv0 :: toks) = .error (.error e)) : e.kind.ofValue = true ∨ e.kind.ofConstraint = true := by
  rcases accepts_or_rejects hd.wf argv0 toks with ⟨out, ha⟩ | ⟨x, hx⟩
  · rw [accepts_sound hd.wf ha] at h; cases h
  · rw [rejects_sound hd.wf hx] at h
    cases h
    cases hx with
    | value _ hb => exact .inl (firstBad_kind hb)
    | valueStuck _ hb => exact .inl (firstBad_kind hb)
    | stuck hh _ => exact absurd hh (fun hh => reads_not_halts hr hh)
    | invalid _ _ hf => exact .inr (allFail_kind hf)

/-- What was read is behind the parser. -/
theorem after_reads (hd : DerivedArgs cx d) {pre : List Bytes} (hpre : Reads cx (start argv0 d) pre evs κ) :
    After cx d argv0 pre evs κ where
  reads := hpre
  ok ts out h := ok_after hd hpre h
  error ts E κ' e hr h := reads_error_kind hd (reads_append hpre hr) h
  halts ts E κ' e hh := by
    obtain ⟨E1, E2, r, h1, h2, rfl⟩ := hh
    obtain ⟨u, hu, hru⟩ := steps_split h1
    subst hu
    obtain ⟨e', g1, g2, g3⟩ := stuck_fails hd (reads_append hpre hru) h2
    exact ⟨e', by simpa using g1, g2, fun ha => g3 (by simpa using ha)⟩

end Palc
