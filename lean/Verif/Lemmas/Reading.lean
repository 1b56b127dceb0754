import Verif.Lemmas.Parsed
import Verif.Lemmas.Exchange
/-! Consequences of single steps for the outcome of parsing. -/

namespace Palc

open Spec

variable {V : Type} {cx : Cx V} {d : ArgsDef V} {argv0 : Bytes} {toks : List Bytes} {evs : List Event} {κ : Ctx V}
  {out : Out V}

/-- Something that cannot be read makes parsing fail, with its error if all values so far were acceptable. -/
theorem stuck_error (hd : DerivedArgs cx d) {pre post : List Bytes} {evs evs' : List Event} {κ : Ctx V}
    {e : Error} (hpre : Reads cx (start argv0 d) pre evs κ) (hs : Stuck cx κ post evs' e) :
    (Acceptable κ.stack (evs ++ evs') → tryParseFrom d (argv0 :: pre ++ post) = .error (.error e))
    ∧ ∀ out, tryParseFrom d (argv0 :: pre ++ post) ≠ .ok out := by
  have hh : Halts cx (start argv0 d) (pre ++ post) (evs ++ evs') κ e :=
    ⟨_, _, _, steps_append (reads_steps hpre) post, hs, rfl⟩
  refine ⟨fun ha => rejects_sound hd.wf (.stuck hh ha), fun out ho => ?_⟩
  obtain ⟨E, κ', hr⟩ := ok_reads hd.wf ho
  exact reads_not_halts hr hh

/-- A step after a prefix contributes its occurrences to a successful parse. -/
theorem Parsed.after_step {pre post rest : List Bytes} (h : Parsed cx d argv0 (pre ++ post) evs κ out) {evs1 evs2 : List Event}
    {κ1 κ2 : Ctx V} (hpre : Reads cx (start argv0 d) pre evs1 κ1) (hs : Step cx κ1 post evs2 κ2 rest) :
    ∃ E, evs = evs1 ++ (evs2 ++ E) ∧ Reads cx κ2 rest E κ := by
  have hst := steps_trans (steps_append (reads_steps hpre) post) (.step hs .refl)
  obtain ⟨E, h1, h2⟩ := steps_reads_det hst h.reads
  exact ⟨E, by simpa using h1, h2⟩

theorem Parsed.after_reads {pre post : List Bytes} (h : Parsed cx d argv0 (pre ++ post) evs κ out) {evs1 : List Event}
    {κ1 : Ctx V} (hpre : Reads cx (start argv0 d) pre evs1 κ1) :
    ∃ E, evs = evs1 ++ E ∧ Reads cx κ1 post E κ :=
  steps_reads_det (steps_append (reads_steps hpre) post) h.reads

theorem cluster_options {st : List (Entry V)} {next : Option Bytes} {b : Bytes} {evs : List Event} {took : Bool}
    (h : Cluster cx st next b evs took) : ∀ e ∈ evs, ∃ f, fieldAt st e.1 = some f ∧ isOption f = true := by
  have hro : ∀ {n : Name} {a : Addr} {f : FieldInfo V}, Resolves cx st n a f → fieldAt st a = some f ∧ isOption f = true := by
    intro n a f hr
    refine ⟨resolves_fieldAt hr, ?_⟩
    have := List.find?_some hr
    cases n <;> simp only [declares, Bool.and_eq_true] at this <;> exact this.1
  induction h with
  | bare hr | eq hr | attached hr | sep hr =>
    intro e he; rw [List.mem_singleton] at he; subst he; exact ⟨_, hro hr⟩
  | more hr _ _ _ _ _ ih =>
    intro e he
    rcases List.mem_cons.1 he with rfl | he
    · exact ⟨_, hro hr⟩
    · exact ih e he

theorem resolves_option {st : List (Entry V)} {n : Name} {a : Addr} {f : FieldInfo V} (hr : Resolves cx st n a f) :
    isOption f = true := by
  have := List.find?_some hr
  cases n <;> simp only [declares, Bool.and_eq_true] at this <;> exact this.1

/-- After `--` or a trailing argument, arguments go to positional fields of the current command. -/
theorem steps_no_opts {κ κ1 : Ctx V} {toks rest : List Bytes} {evs : List Event} (h : Steps cx κ toks evs κ1 rest)
    (hm : κ.mode ≠ .opts) (hok : ModeOk κ) :
    κ1.stack = κ.stack ∧ κ1.mode ≠ .opts ∧ toks.map some = evs.map (·.2) ++ rest.map some
      ∧ ∀ e ∈ evs, ∃ f, fieldAt κ.stack e.1 = some f ∧ isOption f = false ∧ e.1.level + 1 = κ.stack.length ∧ e.1.struct = 0 := by
  induction h with
  | refl => exact ⟨rfl, hm, by simp, by simp⟩
  | step h hs ih =>
    have hok1 := step_mode h hok
    cases h with
    | longEq | longBare | longSep | cluster | clusterSep | sub | positional | dashdash => simp at hm
    | last hx =>
      obtain ⟨h1, h2, h3, h4⟩ := ih (by simp) hok1
      refine ⟨h1, h2, by simp [h3], ?_⟩
      intro e he
      rcases List.mem_append.1 he with he | he
      · rw [List.mem_singleton] at he; subst he
        exact ⟨_, fieldAt_main (lastArg_field hx).2.2, (lastArg_field hx).2.1, by simp, rfl⟩
      · exact h4 e he
    | dashed hl hx =>
      obtain ⟨h1, h2, h3, h4⟩ := ih (by simp only [modeAfter]; split <;> simp) hok1
      refine ⟨h1, h2, by simp [h3], ?_⟩
      intro e he
      rcases List.mem_append.1 he with he | he
      · rw [List.mem_singleton] at he; subst he
        exact ⟨_, fieldAt_main (posTarget_field hx).2.2, (posTarget_field hx).2.1, by simp, rfl⟩
      · exact h4 e he
    | trailing =>
      obtain ⟨h1, h2, h3, h4⟩ := ih (by simp) hok1
      refine ⟨h1, h2, by simp [h3], ?_⟩
      intro e he
      rcases List.mem_append.1 he with he | he
      · rw [List.mem_singleton] at he; subst he
        obtain ⟨i, d, st, y, k, g1, g2, _, g3⟩ := hok _ rfl
        simp only at g1
        cases g1
        exact ⟨y.1, fieldAt_main (g2 ▸ (posTarget_field g3).2.2), (posTarget_field g3).2.1, by simp, rfl⟩
      · exact h4 e he

theorem reads_mode {pre : List Bytes} {evs : List Event} {κ : Ctx V} (h : Reads cx (start argv0 d) pre evs κ) : ModeOk κ :=
  steps_mode (reads_steps h) (start_mode argv0 d)

/-- The kinds of errors after reading: unacceptable values and violated constraints. -/
theorem badValue_kind {f : FieldInfo V} {os : List (Option Bytes)} {o : Option Bytes} {e : Error} (h : BadValue f os o e) :
    e.kind = .unexpectedInlineValue ∨ e.kind = .duplicatedNamedArgument ∨ ∃ v, f.parser.parse v = .error e := by
  cases h with
  | flagValue => exact .inl rfl
  | duplicate => exact .inr (.inl rfl)
  | invalid _ _ _ hv => exact .inr (.inr ⟨_, hv⟩)
  | piece _ _ _ hv => exact .inr (.inr ⟨_, hv⟩)

/-- A step uses up some arguments, and does not depend on what follows them. -/
theorem step_split {κ κ1 : Ctx V} {toks rest : List Bytes} {evs : List Event} (h : Step cx κ toks evs κ1 rest) :
    ∃ used, toks = used ++ rest ∧ ∀ rest', Step cx κ (used ++ rest') evs κ1 rest' := by
  cases h with
  | longEq h1 hn ht => exact ⟨[_], rfl, fun _ => .longEq h1 hn ht⟩
  | longBare h1 hn hne ht => exact ⟨[_], rfl, fun _ => .longBare h1 hn hne ht⟩
  | longSep h1 hn hne ht hq hs => exact ⟨[_, _], rfl, fun _ => .longSep h1 hn hne ht hq hs⟩
  | cluster hb hc => exact ⟨[_], rfl, fun _ => .cluster hb (cluster_next hc rfl _)⟩
  | clusterSep hb hc => exact ⟨[_, _], rfl, fun _ => .clusterSep hb hc⟩
  | sub hv hp => exact ⟨[_], rfl, fun _ => .sub hv hp⟩
  | positional hp hns hx => exact ⟨[_], rfl, fun _ => .positional hp hns hx⟩
  | dashdash => exact ⟨[_], rfl, fun _ => .dashdash⟩
  | last hx => exact ⟨[_], rfl, fun _ => .last hx⟩
  | dashed hl hx => exact ⟨[_], rfl, fun _ => .dashed hl hx⟩
  | trailing => exact ⟨[_], rfl, fun _ => .trailing⟩

/-- What some steps read can be read on its own. -/
theorem steps_split {κ κ1 : Ctx V} {toks rest : List Bytes} {evs : List Event} (h : Steps cx κ toks evs κ1 rest) :
    ∃ used, toks = used ++ rest ∧ Reads cx κ used evs κ1 := by
  induction h with
  | refl => exact ⟨[], rfl, .done⟩
  | step h hs ih =>
    obtain ⟨u1, h1, h2⟩ := step_split h
    obtain ⟨u2, g1, g2⟩ := ih
    exact ⟨u1 ++ u2, by rw [h1, g1]; simp, step_reads (h2 u2) g2⟩

/-- Values of `arg(last)` fields are read after `--` only. -/
theorem steps_last {κ κ1 : Ctx V} {toks rest : List Bytes} {evs : List Event} (h : Steps cx κ toks evs κ1 rest)
    (hm : κ.mode ≠ .dashed) (hok : ModeOk κ) :
    (∀ e ∈ evs, ∀ f, fieldAt κ1.stack e.1 = some f → isOption f = true ∨ f.src.last = false)
    ∨ ∃ evs1 κ2 post evs2, Steps cx κ toks evs1 κ2 ([dash, dash] :: post) ∧ κ2.mode = .opts ∧ evs = evs1 ++ evs2
        ∧ Steps cx { κ2 with mode := .dashed } post evs2 κ1 rest
        ∧ ∀ e ∈ evs1, ∀ f, fieldAt κ1.stack e.1 = some f → isOption f = true ∨ f.src.last = false := by
  induction h with
  | refl => exact .inl (by simp)
  | @step κ toks evs κ1 rest evs' κ' toks' h hs ih =>
    have hok1 := step_mode h hok
    -- events of a step other than `--` and those after it
    have key : (∀ e ∈ evs, ∀ f, fieldAt κ'.stack e.1 = some f → isOption f = true ∨ f.src.last = false) → κ1.mode ≠ .dashed →
        (∀ e ∈ evs ++ evs', ∀ f, fieldAt κ'.stack e.1 = some f → isOption f = true ∨ f.src.last = false)
        ∨ ∃ evs1 κ2 post evs2, Steps cx κ toks evs1 κ2 ([dash, dash] :: post) ∧ κ2.mode = .opts ∧ evs ++ evs' = evs1 ++ evs2
            ∧ Steps cx { κ2 with mode := .dashed } post evs2 κ' toks'
            ∧ ∀ e ∈ evs1, ∀ f, fieldAt κ'.stack e.1 = some f → isOption f = true ∨ f.src.last = false := by
      intro he hm1
      rcases ih hm1 hok1 with h1 | ⟨e1, κ2, post, e2, g1, g2, g3, g4, g5⟩
      · left
        intro e hee
        rcases List.mem_append.1 hee with hee | hee
        · exact he e hee
        · exact h1 e hee
      · refine .inr ⟨evs ++ e1, κ2, post, e2, .step h g1, g2, by rw [g3]; simp, g4, ?_⟩
        intro e hee
        rcases List.mem_append.1 hee with hee | hee
        · exact he e hee
        · exact g5 e hee
    -- the final stack extends the current one
    obtain ⟨ex1, q1⟩ := step_stack h
    obtain ⟨ex2, q2⟩ := steps_stack hs
    have hfin : ∀ {a : Addr} {f g : FieldInfo V}, fieldAt κ.stack a = some f → fieldAt κ'.stack a = some g → g = f := by
      intro a f g h1 h2
      rw [q2, q1] at h2
      rw [fieldAt_ext_some (fieldAt_ext_some h1)] at h2
      cases h2; rfl
    have hopt : (∀ e ∈ evs, ∃ f, fieldAt κ.stack e.1 = some f ∧ (isOption f = true ∨ f.src.last = false)) →
        ∀ e ∈ evs, ∀ f, fieldAt κ'.stack e.1 = some f → isOption f = true ∨ f.src.last = false := by
      intro h0 e he f hf
      obtain ⟨g, hg, ho⟩ := h0 e he
      rw [hfin hg hf]; exact ho
    cases h with
    | longEq hr | longBare hr | longSep hr =>
      refine key (hopt ?_) (by simp)
      intro e he; rw [List.mem_singleton] at he; subst he
      exact ⟨_, resolves_fieldAt hr, .inl (resolves_option hr)⟩
    | cluster hb hc | clusterSep hb hc =>
      refine key (hopt ?_) (by simp)
      intro e he
      obtain ⟨f, h1, h2⟩ := cluster_options hc e he
      exact ⟨f, h1, .inl h2⟩
    | sub hv hp => exact key (by simp) (by simp)
    | positional hp hns hx =>
      refine key (hopt ?_) (by simp only [modeAfter]; split <;> simp)
      intro e he; rw [List.mem_singleton] at he; subst he
      exact ⟨_, fieldAt_main (posTarget_field hx).2.2, .inr (posTarget_field hx).1⟩
    | dashdash => exact .inr ⟨[], _, _, evs', .refl, rfl, rfl, hs, by simp⟩
    | last => simp at hm
    | dashed => simp at hm
    | trailing =>
      refine key (hopt ?_) (by simp)
      intro e he; rw [List.mem_singleton] at he; subst he
      obtain ⟨i, d, st, y, k, g1, g2, _, g3⟩ := hok _ rfl
      simp only at g1
      cases g1
      exact ⟨y.1, fieldAt_main (g2 ▸ (posTarget_field g3).2.2), .inr (posTarget_field g3).1⟩

theorem last_reads {i : CmdId} {e : ArgsDef V} {st : List (Entry V)} {k : Nat} {x : FieldInfo V × Nat} (hx : lastArg e = some x)
    (ts : List Bytes) : Reads cx ⟨(i, e) :: st, k, .dashed⟩ ts (ts.map (fun t => (⟨st.length, 0, x.2⟩, some t))) ⟨(i, e) :: st, k, .dashed⟩ := by
  induction ts with
  | nil => exact .done
  | cons t ts ih => exact .last hx ih

theorem trailing_reads {i : CmdId} {e : ArgsDef V} {st : List (Entry V)} {k j : Nat} (ts : List Bytes) :
    Reads cx ⟨(i, e) :: st, k, .trailing j⟩ ts (ts.map (fun t => (⟨st.length, 0, j⟩, some t))) ⟨(i, e) :: st, k, .trailing j⟩ := by
  induction ts with
  | nil => exact .done
  | cons t ts ih => exact .trailing ih

/-- A struct has at most one `arg(last)` field, at the end. -/
theorem last_index {c : Core V} (h : CoreWF cx c) : ∃ n, ∀ (j : Nat) (f : FieldInfo V), c.fields[j]? = some f → f.src.last = true → j = n := by
  obtain ⟨ps, va, la, hl, h1, h2, h3⟩ := h.layout
  refine ⟨c.namedCnt + ps.length + va.toList.length, fun j f hj hf => ?_⟩
  by_cases hn : j < c.namedCnt
  · have hm : f ∈ c.fields.take c.namedCnt := by
      rw [List.mem_take_iff_getElem]
      obtain ⟨hlt, he⟩ := List.getElem?_eq_some_iff.1 hj
      exact ⟨j, by omega, he⟩
    have := ((h.fields j f hj).namedNoLast (h.named f hm)).1
    rw [this] at hf; cases hf
  · have hd : (c.fields.drop c.namedCnt)[j - c.namedCnt]? = some f := by
      rw [List.getElem?_drop]
      rw [show c.namedCnt + (j - c.namedCnt) = j by omega]
      exact hj
    rw [hl] at hd
    by_cases h4 : j - c.namedCnt < (ps ++ va.toList).length
    · rw [List.getElem?_append_left h4] at hd
      rcases List.mem_append.1 (List.mem_of_getElem? hd) with hm | hm
      · rw [(h1 f hm).2.2] at hf; cases hf
      · rw [(h2 f (by simpa using hm)).2.2] at hf; cases hf
    · rw [List.getElem?_append_right (by omega)] at hd
      have := (List.getElem?_eq_some_iff.1 hd).1
      simp only [List.length_append] at h4 this
      have h5 : la.toList.length ≤ 1 := by cases la <;> simp
      omega

theorem lastArg_unique {e : ArgsDef V} (h : CoreWF cx (coreOf e)) {x : FieldInfo V × Nat} (hx : (coreOf e).fields[x.2]? = some x.1)
    (hl : x.1.src.last = true) : lastArg e = some x := by
  obtain ⟨n, hn⟩ := last_index h
  have ho : isOption x.1 = false := by
    cases ho : isOption x.1 with
    | false => rfl
    | true => rw [((h.fields _ _ hx).namedNoLast ho).1] at hl; cases hl
  cases hf : lastArg e with
  | none =>
    unfold lastArg at hf
    rw [List.find?_eq_none] at hf
    have hm : x ∈ (coreOf e).fields.zipIdx := by
      obtain ⟨hlt, he⟩ := List.getElem?_eq_some_iff.1 hx
      rw [List.mem_zipIdx_iff_getElem?]; exact hx
    have := hf x hm
    simp [ho, hl] at this
  | some y =>
    have hy := lastArg_field hf
    have h1 := hn _ _ hx hl
    have h2 := hn _ _ hy.2.2 hy.1
    have : x.2 = y.2 := by rw [h1, h2]
    have h3 := hy.2.2
    rw [← this, hx, Option.some.injEq] at h3
    rw [show y = x from Prod.ext h3.symm this.symm]

end Palc
