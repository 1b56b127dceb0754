import Verif.Lemmas.Unique
import Verif.Lemmas.DeriveWF
/-! Argument lists that are read alike have the same outcome. -/

namespace Palc

open Spec

variable {V : Type}

theorem outcome_halts_ext {cx : Cx V} {d : ArgsDef V} (wf : WFArgs cx d) {argv0 : Bytes}
    {T T' : Toks} {evs : List Event} {κ : Ctx V} {e : Error} (h : Halts cx (start argv0 d) T evs κ e)
    (h' : Halts cx (start argv0 d) T' evs κ e) : tryParseFrom d (argv0 :: T) = tryParseFrom d (argv0 :: T') := by
  rcases outcome_halts wf h with ⟨h1, h2⟩ | ⟨e1, h1, h2⟩ <;>
    rcases outcome_halts wf h' with ⟨h1', h2'⟩ | ⟨e2, h1', h2'⟩
  · rw [h2, h2']
  · exact absurd h1 h1'.not_acceptable
  · exact absurd h1' h1.not_acceptable
  · rw [h2, h2', h1.unique h1']

theorem outcome_reads_ext {cx : Cx V} {d : ArgsDef V} (wf : WFArgs cx d) {argv0 : Bytes}
    {T T' : Toks} {evs : List Event} {κ : Ctx V} (h : Reads cx (start argv0 d) T evs κ)
    (h' : Reads cx (start argv0 d) T' evs κ) : tryParseFrom d (argv0 :: T) = tryParseFrom d (argv0 :: T') := by
  rcases outcome_reads wf h with ⟨_, h1, _, h2⟩ | ⟨e1, h1, h2⟩ <;>
    rcases outcome_reads wf h' with ⟨_, h1', _, h2'⟩ | ⟨e2, h1', h2'⟩
  · cases hf : allFail evs κ.stack false with
    | some x => rw [hf] at h2 h2'; exact Eq.trans h2 h2'.symm
    | none =>
      rw [hf] at h2 h2'
      obtain ⟨o, q1, q2⟩ := h2
      obtain ⟨o', q1', q2'⟩ := h2'
      rw [q1] at q1'
      cases q1'
      rw [q2, q2']
  · exact absurd h1 h1'.not_acceptable
  · exact absurd h1' h1.not_acceptable
  · rw [h2, h2', h1.unique h1']

/-- The outcome depends on the arguments read so far only through the occurrences and the context. -/
theorem outcome_ext {cx : Cx V} {d : ArgsDef V} (wf : WFArgs cx d) {argv0 : Bytes}
    {T T' rest : Toks} {evs : List Event} {κ : Ctx V} (h : Steps cx (start argv0 d) T evs κ rest)
    (h' : Steps cx (start argv0 d) T' evs κ rest) : tryParseFrom d (argv0 :: T) = tryParseFrom d (argv0 :: T') := by
  rcases steps_sound h (root_sim wf argv0) with ⟨ls, S, _⟩ | ⟨e, _, h2⟩
  · rw [List.nil_append] at S
    rcases run_cases S rest with ⟨evs', κ', hr⟩ | ⟨evs', κ', e, e1, e2, r, hs, hst, rfl⟩ | ⟨evs', κ', r, e, hs, _, hb⟩
    · exact outcome_reads_ext wf (steps_reads h hr) (steps_reads h' hr)
    · refine outcome_halts_ext (evs := evs ++ (e1 ++ e2)) wf ⟨_, _, _, steps_trans h hs, hst, ?_⟩
        ⟨_, _, _, steps_trans h' hs, hst, ?_⟩ <;> rw [List.append_assoc]
    · have hb : FirstBad κ'.stack [] (evs ++ evs') e := FirstBad.shift hb
      rw [outcome_steps wf (steps_trans h hs) hb, outcome_steps wf (steps_trans h' hs) hb]
  · rw [outcome_steps wf h h2, outcome_steps wf h' h2]

/-- Either the context reached by reading some arguments is one the parser reaches, or a value was bad. -/
theorem reach {cx : Cx V} {d : ArgsDef V} (wf : WFArgs cx d) {argv0 : Bytes} {T rest : Toks}
    {evs : List Event} {κ : Ctx V} (h : Steps cx (start argv0 d) T evs κ rest) :
    (∃ ls, Sim cx ls κ evs) ∨ ∃ e, FirstBad κ.stack [] evs e := by
  rcases steps_sound h (root_sim wf argv0) with ⟨ls, S, _⟩ | ⟨e, _, h2⟩
  · exact .inl ⟨ls, by simpa using S⟩
  · exact .inr ⟨e, h2⟩

theorem fieldAt_mem {st : List (Entry V)} {a : Addr} {f : FieldInfo V} (h : fieldAt st a = some f) :
    ∃ i d c, (i, d) ∈ st ∧ c ∈ structs d ∧ c.fields[a.field]? = some f := by
  induction st with
  | nil => simp [fieldAt] at h
  | cons x outer ih =>
    obtain ⟨i, d⟩ := x
    simp only [fieldAt] at h
    split at h
    · split at h
      · rename_i c hc
        exact ⟨i, d, c, by simp, List.mem_of_getElem? hc, h⟩
      · simp at h
    · obtain ⟨i', d', c, h1, h2⟩ := ih h
      exact ⟨i', d', c, by simp [h1], h2⟩

theorem StackWF.field {cx : Cx V} {st : List (Entry V)} (h : StackWF cx st) {a : Addr} {f : FieldInfo V}
    (hf : fieldAt st a = some f) : FieldWF cx f a.field := by
  obtain ⟨i, d, c, h1, h2, h3⟩ := fieldAt_mem hf
  exact (WFArgs.structs d (h _ h1) c h2).fields _ f h3

theorem StackWF.long {cx : Cx V} {st : List (Entry V)} (h : StackWF cx st) {n : Str} {a : Addr} {f : FieldInfo V}
    (hr : Resolves cx st (.long n) a f) : n ≠ [] ∧ '=' ∉ n := by
  have hf := h.field (resolves_fieldAt hr)
  have hd := resolves_declares hr
  simp only [declares, Bool.and_eq_true, List.contains_iff_mem] at hd
  have := hf.longOk hd.1 n hd.2
  exact ⟨this.1, fun hm => (this.2.2 _ hm).1 rfl⟩

theorem StackWF.short {cx : Cx V} {st : List (Entry V)} (h : StackWF cx st) {c : Char} {a : Addr} {f : FieldInfo V}
    (hr : Resolves cx st (.short c) a f) : c ≠ '-' ∧ c ≠ '=' := by
  have hf := h.field (resolves_fieldAt hr)
  have hd := resolves_declares hr
  simp only [declares, Bool.and_eq_true, List.contains_iff_mem] at hd
  have := hf.shortOk hd.1 c hd.2
  exact ⟨this.1, this.2.1⟩

theorem encChar_head_ne_dash {c : Char} (h : c ≠ '-') (r : Bytes) : (encChar c ++ r).head? ≠ some dash := by
  cases he : encChar c with
  | nil => exact absurd he (encChar_ne_nil c)
  | cons b bs =>
    intro hh
    simp only [List.cons_append, List.head?_cons, Option.some.injEq] at hh
    subst hh
    exact h (encChar_head_ascii (d := '-') (by decide) he)

theorem encChar_head_ne_eq {c : Char} (h : c ≠ '=') (r : Bytes) : (encChar c ++ r).head? ≠ some eqSign := by
  cases he : encChar c with
  | nil => exact absurd he (encChar_ne_nil c)
  | cons b bs =>
    intro hh
    simp only [List.cons_append, List.head?_cons, Option.some.injEq] at hh
    subst hh
    exact h (encChar_head_ascii (d := '=') (by decide) he)

/-- A short option without value that can be followed by more options in the same argument. -/
def PureFlag (cx : Cx V) (st : List (Entry V)) (c : Char) : Prop :=
  ∃ a f, Resolves cx st (.short c) a f ∧ takesValue f = false ∧ f.src.requireEquals = false

/-- Bundled flags contribute the same occurrences, whatever follows them. -/
theorem bundle_flags {cx : Cx V} {st : List (Entry V)} (hwf : StackWF cx st) {fl : List Char}
    (hfl : ∀ c ∈ fl, PureFlag cx st c) : ∃ evs0 : List Event,
      (∀ {next : Option Bytes} {r : Bytes} {evs : List Event} {took : Bool}, r.head? ≠ some eqSign → Cluster cx st next r evs took →
        Cluster cx st next (enc fl ++ r) (evs0 ++ evs) took)
      ∧ (∀ {next : Option Bytes} {r : Bytes} {evs : List Event} {e : Error}, r ≠ [] → r.head? ≠ some eqSign → ClusterStuck cx st next r evs e →
        ClusterStuck cx st next (enc fl ++ r) (evs0 ++ evs) e)
      ∧ evs0.length = fl.length ∧ ∀ e ∈ evs0, e.2 = none := by
  induction fl with
  | nil => exact ⟨[], fun _ h => by simpa [enc_nil] using h, fun _ _ h => by simpa [enc_nil] using h, rfl, by simp⟩
  | cons c fl ih =>
    obtain ⟨evs0, h1, h2, h3, h4⟩ := ih (fun x hx => hfl x (by simp [hx]))
    obtain ⟨a, f, hr, ht, hq⟩ := hfl c (by simp)
    have hhead : ∀ {r : Bytes}, r.head? ≠ some eqSign → (enc fl ++ r).head? ≠ some eqSign := by
      intro r hr
      cases fl with
      | nil => simpa [enc_nil] using hr
      | cons c' fl =>
        obtain ⟨a', f', hr', _⟩ := hfl c' (by simp)
        rw [enc_cons, List.append_assoc]
        exact encChar_head_ne_eq (hwf.short hr').2 _
    refine ⟨(a, none) :: evs0, ?_, ?_, by simp [h3], by simpa using h4⟩
    · intro next r evs took hh hc
      rw [enc_cons, List.append_assoc]
      refine .more hr ht hq ?_ (hhead hh) (h1 hh hc)
      have := cluster_ne hc
      simp [this]
    · intro next r evs e hne hh hc
      rw [enc_cons, List.append_assoc]
      refine .more hr ht hq ?_ (hhead hh) (h2 hne hh hc)
      simp [hne]

theorem bundle_head {cx : Cx V} {st : List (Entry V)} (hwf : StackWF cx st) {fl : List Char}
    (hfl : ∀ c ∈ fl, PureFlag cx st c) {r : Bytes} (hr : r.head? ≠ some dash) : (enc fl ++ r).head? ≠ some dash := by
  cases fl with
  | nil => simpa [enc_nil] using hr
  | cons c fl =>
    obtain ⟨a, f, h, _⟩ := hfl c (by simp)
    rw [enc_cons, List.append_assoc]
    exact encChar_head_ne_dash (hwf.short h).1 _

end Palc
