import Verif.Lemmas.Shapes
/-! Each step of the grammar is a step of the machine, each stuck situation an error. -/

namespace Palc

open Spec

variable {V : Type}

/-! ## Errors of occurrences -/

theorem Sim.given_ne {cx : Cx V} {ls : List (Level V)} {κ : Ctx V} {log : List Event} (S : Sim cx ls κ log) :
    Acceptable κ.stack log := by
  intro a f hf
  obtain ⟨v, hv, _⟩ := S.place a f hf
  simp [hv]

theorem Spec.FirstBad.append {st : List (Entry V)} {log evs : List Event} {e : Error} (h : FirstBad st log evs e)
    (more : List Event) : FirstBad st log (evs ++ more) e := by
  obtain ⟨pre, a, o, post, f, e0, rfl, h2⟩ := h
  exact ⟨pre, a, o, post ++ more, f, e0, by simp, h2⟩

theorem Spec.FirstBad.shift {st : List (Entry V)} {log evs evs' : List Event} {e : Error}
    (h : FirstBad st (log ++ evs) evs' e) : FirstBad st log (evs ++ evs') e := by
  obtain ⟨pre, a, o, post, f, e0, rfl, h2, h3, h4, h5⟩ := h
  refine ⟨evs ++ pre, a, o, post, f, e0, by simp, h2, ?_, ?_, h5⟩
  · rw [← List.append_assoc]; exact h3
  · rw [← List.append_assoc]; exact h4

theorem about_option {f : FieldInfo V} (h : isOption f = true) (e : Error) :
    about f e = e.withArgDesc (some f.description) := by
  simp [about, h, Error.withArgDesc]

theorem about_positional {f : FieldInfo V} (h : isOption f = false) (e : Error) : about f e = e := by
  simp [about, h]

/-- An unacceptable occurrence. -/
theorem Sim.bad {cx : Cx V} {ls : List (Level V)} {κ : Ctx V} {log : List Event} (S : Sim cx ls κ log) {a : Addr}
    {f : FieldInfo V} (hf : fieldAt κ.stack a = some f) {o : Option Bytes} (ho : takesValue f = true → o ≠ none)
    {v : Value V} (hv : given f (occs log a) = some v) {e : Error}
    (he : (toPlace f v).parseFrom (o.map (normalise f)) = .error e) : FirstBad κ.stack log [(a, o)] (about f e) := by
  refine ⟨[], a, o, [], f, e, rfl, hf, ?_, ?_, rfl⟩
  · intro b g hg
    rw [List.append_nil]
    exact S.given_ne b g hg
  · rw [List.append_nil]
    exact bad_given hv ho he

/-- An option occurrence. -/
theorem named_step {cx : Cx V} {ls : List (Level V)} {κ : Ctx V} {log : List Event} (S : Sim cx ls κ log) {n : Name}
    {a : Addr} {f : FieldInfo V} (hr : Resolves cx κ.stack n a f) (isShort : Bool) (inl : InlineValue)
    (next : Option Bytes) {o : Option Bytes} {took : Bool} (hsel : selectValue f.attrs inl next = .ok (o, took))
    (ho : takesValue f = true → o ≠ none) :
    (∃ ls1, Sim cx ls1 κ (log ++ [(a, o)]) ∧ mNamed ls isShort (nameBytes n) inl next
      = .ok (ls1, if takesValue f then .brk took else .cont))
    ∨ (∃ e, mNamed ls isShort (nameBytes n) inl next = errR e ∧ FirstBad κ.stack log [(a, o)] e) := by
  have hf := resolves_fieldAt hr
  obtain ⟨v, hv, hpl, h⟩ := S.occur hf o ho
  rw [mNamed_sim S hr isShort inl next hsel v hpl]
  rcases h with ⟨v', _, h2, h3⟩ | ⟨_, e, h2⟩
  · exact .inl ⟨_, h3, by rw [h2]; rfl⟩
  · refine .inr ⟨about f e, ?_, S.bad hf ho hv h2⟩
    rw [h2, about_option (declares_option (resolves_declares hr))]
    rfl

/-! ## Clusters -/

/-- What happens to a cluster. -/
theorem cluster_sound {cx : Cx V} {st : List (Entry V)} {next : Option Bytes} {b : Bytes} {evs : List Event}
    {took : Bool} (hc : Cluster cx st next b evs took) {ls : List (Level V)} {κ : Ctx V} {log : List Event}
    (hst : κ.stack = st) (S : Sim cx ls κ log) :
    (∃ ls1 flow, Sim cx ls1 κ (log ++ evs) ∧ mBundle ls b next = .ok (ls1, flow)
      ∧ ((took = true ∧ flow = .brk true) ∨ (took = false ∧ flow ≠ .brk true)))
    ∨ (∃ e, mBundle ls b next = errR e ∧ FirstBad κ.stack log evs e) := by
  induction hc generalizing ls log with
  | @bare c a f hr ht =>
    subst hst
    have hp := (S.fieldWF (resolves_fieldAt hr)).toFieldPre
    have := named_step S hr true (shortInline []) next (o := none) (took := false)
      (by rw [shortInline_nil]; exact select_bare hp ht next) (by simp [ht])
    rw [show encChar c = encChar c ++ [] by simp, mBundle_char]
    simp only [nameBytes] at this
    rcases this with ⟨ls1, h1, h2⟩ | ⟨e, h1, h2⟩
    · rw [h2]
      simp only [ht, Bool.false_eq_true, if_false]
      exact .inl ⟨ls1, .cont, h1, rfl, by simp⟩
    · rw [h1]; exact .inr ⟨e, rfl, h2⟩
  | @more c a f rest evs took hr ht hq hne heq h ih =>
    subst hst
    have hp := (S.fieldWF (resolves_fieldAt hr)).toFieldPre
    have := named_step S hr true (shortInline rest) next (o := none) (took := false)
      (by rw [shortInline_other hne heq]; exact select_more hp ht hq rest next) (by simp [ht])
    rw [mBundle_char]
    simp only [nameBytes] at this
    rcases this with ⟨ls1, h1, h2⟩ | ⟨e, h1, h2⟩
    · rw [h2]
      simp only [ht, Bool.false_eq_true, if_false]
      rcases ih h1 with ⟨ls2, flow, h3, h4, h5⟩ | ⟨e, h3, h4⟩
      · exact .inl ⟨ls2, flow, by simpa using h3, h4, h5⟩
      · exact .inr ⟨e, h3, h4.shift⟩
    · rw [h1]; exact .inr ⟨e, rfl, h2.append evs⟩
  | @eq c a f v hr ht =>
    subst hst
    have := named_step S hr true (shortInline (eqSign :: v)) next (o := some v) (took := false)
      (by rw [shortInline_eq]; exact select_eq _ _ next) (by simp)
    rw [mBundle_char]
    simp only [nameBytes] at this
    rcases this with ⟨ls1, h1, h2⟩ | ⟨e, h1, h2⟩
    · rw [h2]
      simp only [ht, if_true]
      exact .inl ⟨ls1, _, h1, rfl, by simp⟩
    · rw [h1]; exact .inr ⟨e, rfl, h2⟩
  | @attached c a f v hr ht hq hne heq =>
    subst hst
    have hp := (S.fieldWF (resolves_fieldAt hr)).toFieldPre
    have := named_step S hr true (shortInline v) next (o := some v) (took := false)
      (by rw [shortInline_other hne heq]; exact select_attached hp ht hq _ next) (by simp)
    rw [mBundle_char]
    simp only [nameBytes] at this
    rcases this with ⟨ls1, h1, h2⟩ | ⟨e, h1, h2⟩
    · rw [h2]
      simp only [ht, if_true]
      exact .inl ⟨ls1, _, h1, rfl, by simp⟩
    · rw [h1]; exact .inr ⟨e, rfl, h2⟩
  | @sep c a f v hr ht hq hn hs =>
    subst hst
    have hp := (S.fieldWF (resolves_fieldAt hr)).toFieldPre
    have := named_step S hr true (shortInline []) next (o := some v) (took := true)
      (by rw [shortInline_nil, hn]; exact select_sep hp ht hq hs) (by simp)
    rw [show encChar c = encChar c ++ [] by simp, mBundle_char]
    simp only [nameBytes] at this
    rcases this with ⟨ls1, h1, h2⟩ | ⟨e, h1, h2⟩
    · rw [h2]
      simp only [ht, if_true]
      exact .inl ⟨ls1, _, h1, rfl, by simp⟩
    · rw [h1]; exact .inr ⟨e, rfl, h2⟩

/-! ## Undeclared names -/

theorem cmdPath_eq (ls : List (Level V)) : cmdPath ls = cmdline (stackOf ls) := by
  induction ls with
  | nil => rfl
  | cons l outer ih => simp only [cmdPath, stackOf, List.map_cons, Level.entry, cmdline, ih]

theorem helpText_eq (ls : List (Level V)) : helpText ls = commandHelp (stackOf ls) := by
  cases ls with
  | nil => rfl
  | cons l outer =>
    rw [helpText, cmdPath_eq]
    rfl

theorem encChar_dashdash (c : Char) (r : Bytes) : encChar c ≠ dash :: dash :: r := by
  intro h
  have : encChar c ++ [] = encChar '-' ++ (dash :: r) := by rw [encChar_dash]; simpa using h
  have := (encChar_append_inj this).2
  simp at this

theorem unknownErr_short {cx : Cx V} {ls : List (Level V)} {κ : Ctx V} {log : List Event} (S : Sim cx ls κ log)
    (c : Char) : unknownErr ls true (encChar c) = if c = 'h' then helpRequest κ.stack else unexpected (dash :: encChar c) := by
  unfold unknownErr
  have h1 : encChar c = blit "h" ↔ c = 'h' := by
    rw [blit_h]; exact ⟨encChar_injective, fun h => by rw [h]⟩
  have h2 : encChar c ≠ blit "--help" := by
    rw [blit_help, enc_dashdash]; exact encChar_dashdash c _
  by_cases hc : c = 'h'
  · rw [if_pos (.inl (h1.2 hc)), if_pos hc, helpText_eq, S.stack]
    rfl
  · rw [if_neg (by rintro (h | h); exact hc (h1.1 h); exact h2 h), if_neg hc]
    rfl

theorem unknownErr_long {cx : Cx V} {ls : List (Level V)} {κ : Ctx V} {log : List Event} (S : Sim cx ls κ log)
    {name : Bytes} (hd : [dash, dash] <+: name) :
    unknownErr ls false name = if name = blit "--help" then helpRequest κ.stack else unexpected name := by
  unfold unknownErr
  have h1 : name ≠ blit "h" := by
    obtain ⟨t, rfl⟩ := hd
    rw [blit_h]
    intro h
    exact encChar_dashdash 'h' t h.symm
  by_cases hc : name = blit "--help"
  · rw [if_pos (.inr hc), if_pos hc, helpText_eq, S.stack]
    rfl
  · rw [if_neg (by rintro (h | h); exact h1 h; exact hc h), if_neg hc]
    rfl

/-- No option is called `-=`. -/
theorem unknown_eq {cx : Cx V} {ls : List (Level V)} {κ : Ctx V} {log : List Event} (S : Sim cx ls κ log) :
    Unknown cx κ.stack (.short '=') := by
  rintro ⟨a, f⟩ hx
  have hp := (S.fieldWF (visible_fieldAt hx)).toFieldPre
  cases hd : declares cx f (.short '=') with
  | false => rfl
  | true =>
    have ho := declares_option hd
    simp only [declares, Bool.and_eq_true, List.contains_iff_mem] at hd
    exact absurd rfl (hp.shortOk ho '=' hd.2).2.1

theorem normalise_flag {cx : Cx V} {f : FieldInfo V} (h : FieldPre cx f) (hk : f.kind = .bool) (b : Bytes) :
    normalise f b = b := by
  unfold normalise
  cases hi : f.src.ignoreCase with
  | false => rfl
  | true => exact absurd hk (h.ignoreCase hi).1

theorem parseFrom_flag {f : FieldInfo V} (hk : f.kind = .bool) {v : Value V} {os : List (Option Bytes)}
    (hv : given f os = some v) (b : Bytes) :
    (toPlace f v).parseFrom (some b) = .error { kind := .unexpectedInlineValue, input := some b } := by
  have : ∃ s, toPlace f v = .flag s := by
    unfold given content at hv
    split at hv
    · cases hv
      exact ⟨none, by simp [toPlace, FieldInfo.initializer, hk]⟩
    · rw [hk] at hv
      simp only at hv
      split at hv
      · cases hv; exact ⟨_, rfl⟩
      · simp at hv
  obtain ⟨s, hs⟩ := this
  rw [hs]
  rfl

/-- A value for a flag. -/
theorem flag_value {cx : Cx V} {ls : List (Level V)} {κ : Ctx V} {log : List Event} (S : Sim cx ls κ log) {n : Name}
    {a : Addr} {f : FieldInfo V} (hr : Resolves cx κ.stack n a f) (hk : f.kind = .bool) (isShort : Bool) (v : Bytes)
    (next : Option Bytes) : mNamed ls isShort (nameBytes n) (.eq v) next
      = errR (about f { kind := .unexpectedInlineValue, input := some v }) := by
  have hf := resolves_fieldAt hr
  obtain ⟨w, hw, hpl⟩ := S.place a f hf
  rw [mNamed_sim S hr isShort (.eq v) next (select_eq _ v next) w hpl, Option.map_some,
    normalise_flag (S.fieldWF hf).toFieldPre hk, parseFrom_flag hk hw, about_option (declares_option (resolves_declares hr))]
  rfl

theorem select_stuck {cx : Cx V} {ls : List (Level V)} {κ : Ctx V} {log : List Event} (S : Sim cx ls κ log)
    {n : Name} {a : Addr} {f : FieldInfo V} (hr : Resolves cx κ.stack n a f) (isShort : Bool) (inl : InlineValue)
    (next : Option Bytes) {e : Error} (hsel : selectValue f.attrs inl next = .error e) :
    mNamed ls isShort (nameBytes n) inl next = errR (about f e) := by
  rw [mNamed_select_error S hr isShort inl next hsel, about_option (declares_option (resolves_declares hr))]

theorem cluster_stuck {cx : Cx V} {st : List (Entry V)} {next : Option Bytes} {b : Bytes} {evs : List Event}
    {e : Error} (hc : ClusterStuck cx st next b evs e) {ls : List (Level V)} {κ : Ctx V} {log : List Event}
    (hst : κ.stack = st) (S : Sim cx ls κ log) :
    (mBundle ls b next = errR e ∧ Acceptable κ.stack (log ++ evs))
    ∨ (∃ e', mBundle ls b next = errR e' ∧ FirstBad κ.stack log evs e') := by
  induction hc generalizing ls log with
  | @more c a f rest evs e hr ht hq hne heq h ih =>
    subst hst
    have hp := (S.fieldWF (resolves_fieldAt hr)).toFieldPre
    have := named_step S hr true (shortInline rest) next (o := none) (took := false)
      (by rw [shortInline_other hne heq]; exact select_more hp ht hq rest next) (by simp [ht])
    rw [mBundle_char]
    simp only [nameBytes] at this
    rcases this with ⟨ls1, h1, h2⟩ | ⟨e, h1, h2⟩
    · rw [h2]
      simp only [ht, Bool.false_eq_true, if_false]
      rcases ih h1 with ⟨h3, h4⟩ | ⟨e, h3, h4⟩
      · exact .inl ⟨h3, by simpa using h4⟩
      · exact .inr ⟨e, h3, h4.shift⟩
    · rw [h1]; exact .inr ⟨e, rfl, h2.append evs⟩
  | @unknown c rest hu hc =>
    subst hst
    refine .inl ⟨?_, by rw [List.append_nil]; exact S.given_ne⟩
    have := mNamed_unknown S hu true (shortInline rest) next
    simp only [nameBytes] at this
    rw [mBundle_char, this, unknownErr_short S, if_neg hc]
    rfl
  | @help rest hu =>
    subst hst
    refine .inl ⟨?_, by rw [List.append_nil]; exact S.given_ne⟩
    have := mNamed_unknown S hu true (shortInline rest) next
    simp only [nameBytes] at this
    rw [mBundle_char, this, unknownErr_short S, if_pos rfl]
    rfl
  | invalid hne hb =>
    subst hst
    exact .inl ⟨mBundle_invalid ls hne hb next, by rw [List.append_nil]; exact S.given_ne⟩
  | @missingEqAttached c a f rest hr hq hne heq =>
    subst hst
    refine .inl ⟨?_, by rw [List.append_nil]; exact S.given_ne⟩
    have hp := (S.fieldWF (resolves_fieldAt hr)).toFieldPre
    have := select_stuck S hr true (shortInline rest) next (e := Error.new .missingEq)
      (by rw [shortInline_other hne heq]; exact select_ambiguousEq hp hq rest next)
    simp only [nameBytes] at this
    rw [mBundle_char, this]
    rfl
  | @missingEq c a f hr ht hq =>
    subst hst
    refine .inl ⟨?_, by rw [List.append_nil]; exact S.given_ne⟩
    have hp := (S.fieldWF (resolves_fieldAt hr)).toFieldPre
    have := select_stuck S hr true (shortInline []) next (e := Error.new .missingEq)
      (by rw [shortInline_nil]; exact select_missingEq hp ht hq next)
    simp only [nameBytes] at this
    rw [show encChar c = encChar c ++ [] by simp, mBundle_char, this]
    rfl
  | @missingValue c a f hr ht hq hn =>
    subst hst
    refine .inl ⟨?_, by rw [List.append_nil]; exact S.given_ne⟩
    have hp := (S.fieldWF (resolves_fieldAt hr)).toFieldPre
    have := select_stuck S hr true (shortInline []) next (e := Error.new .missingValue)
      (by rw [shortInline_nil]; exact select_missingValue hp ht hq hn)
    simp only [nameBytes] at this
    rw [show encChar c = encChar c ++ [] by simp, mBundle_char, this]
    rfl
  | @flagValue c a f v hr hk =>
    subst hst
    refine .inl ⟨?_, by rw [List.append_nil]; exact S.given_ne⟩
    have := flag_value S hr hk true v next
    simp only [nameBytes] at this
    rw [mBundle_char, shortInline_eq, this]
    rfl
  | @optionalValue c a f v hr hk =>
    subst hst
    have := named_step S hr true (shortInline (eqSign :: v)) next (o := some v) (took := false)
      (by rw [shortInline_eq]; exact select_eq _ _ next) (by simp)
    have ht : takesValue f = false := by simp [takesValue, hk]
    rw [mBundle_char]
    simp only [nameBytes] at this
    rcases this with ⟨ls1, h1, h2⟩ | ⟨e, h1, h2⟩
    · rw [h2]
      simp only [ht, Bool.false_eq_true, if_false]
      refine .inl ⟨?_, h1.given_ne⟩
      have := mNamed_unknown h1 (unknown_eq h1) true (shortInline v) next
      simp only [nameBytes] at this
      rw [show eqSign :: v = encChar '=' ++ v by rw [encChar_eq]; rfl, mBundle_char, this, unknownErr_short h1,
        if_neg (by decide), encChar_eq]
      rfl
    · rw [h1]; exact .inr ⟨e, rfl, h2⟩

end Palc
