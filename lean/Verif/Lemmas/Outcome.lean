import Verif.Lemmas.Validate
/-! The outcome of parsing, in terms of the specification. -/

namespace Palc

open Spec

variable {V : Type}

/-! ## Unacceptable values -/

theorem parsedAll_none {f : FieldInfo V} {bs : List Bytes} {x : Bytes} (hx : x ∈ bs) (hp : parsed f x = none) :
    parsedAll f bs = none := by
  induction bs with
  | nil => simp at hx
  | cons b bs ih =>
    simp only [parsedAll]
    rcases List.mem_cons.1 hx with rfl | hx
    · rw [hp]
    · rw [ih hx]
      cases parsed f b <;> rfl

theorem allValues_mem {os : List (Option Bytes)} {bs : List Bytes} (h : allValues os = some bs) {v : Bytes}
    (hv : some v ∈ os) : v ∈ bs := by
  induction os generalizing bs with
  | nil => simp at hv
  | cons o os ih =>
    cases o with
    | none => simp [allValues] at h
    | some b =>
      simp only [allValues, Option.map_eq_some_iff] at h
      obtain ⟨bs', h1, rfl⟩ := h
      rcases List.mem_cons.1 hv with hv | hv
      · cases hv; simp
      · exact List.mem_cons_of_mem _ (ih h1 hv)

theorem parsed_error {f : FieldInfo V} {v : Bytes} {e : Error} (h : f.parser.parse v = .error e) : parsed f v = none := by
  simp [parsed, h]

theorem Spec.BadValue.content_none {f : FieldInfo V} {os : List (Option Bytes)} {o : Option Bytes} {e : Error}
    (h : BadValue f os o e) (more : List (Option Bytes)) : content f (os ++ o :: more) = none := by
  have hcons : ∃ p ps, os ++ o :: more = p :: ps := by cases os <;> exact ⟨_, _, rfl⟩
  obtain ⟨p, ps, hl⟩ := hcons
  cases h with
  | flagValue hk =>
    rename_i v
    rw [hl]
    unfold content
    simp only [hk]
    rw [if_neg]
    rw [← hl]
    intro h
    have : some v ∈ os ++ some v :: more := by simp
    rw [h] at this
    simp at this
  | duplicate hm ho hne =>
    have hlen : ps ≠ [] := by
      rintro rfl
      have := congrArg List.length hl
      have : os.length = 0 := by simp at this; omega
      exact hne (List.length_eq_zero_iff.1 this)
    obtain ⟨q, qs, rfl⟩ := List.exists_cons_of_ne_nil hlen
    rw [hl]
    unfold content
    unfold isMulti at hm
    cases hk : f.kind <;> simp [hk] at hm ⊢
  | invalid hm hk hos hv =>
    subst hos
    rw [List.nil_append] at hl
    rw [List.nil_append]
    unfold content
    unfold isMulti at hm
    have hp := parsed_error hv
    cases hk' : f.kind <;> simp [hk'] at hm hk ⊢
    all_goals
      cases more with
      | nil => simp [hp]
      | cons m ms => simp
  | piece hm hpc hxs hv =>
    rename_i v xs x ys
    rw [hl]
    unfold content
    have key : (match allValues (p :: ps) with
        | some bs => (parsedAll f (bs.flatMap (pieces f))).map (Value.many (V := V))
        | none => none) = none := by
      cases ha : allValues (p :: ps) with
      | none => rfl
      | some bs =>
        have hmem : v ∈ bs := allValues_mem ha (by rw [← hl]; simp)
        have : parsedAll f (bs.flatMap (pieces f)) = none :=
          parsedAll_none (x := x) (List.mem_flatMap.2 ⟨v, hmem, by rw [hpc]; simp⟩) (parsed_error hv)
        simp [this]
    unfold isMulti at hm
    cases hk : f.kind <;> simp [hk] at hm
    · exact key
    · exact key

theorem Spec.BadValue.given_none {f : FieldInfo V} {os : List (Option Bytes)} {o : Option Bytes} {e : Error}
    (h : BadValue f os (o.map (normalise f)) e) (more : List (Option Bytes)) : given f (os ++ o :: more) = none := by
  unfold given
  rw [List.map_append, List.map_cons]
  exact (BadValue.congr (by simp) h).content_none _

theorem Spec.BadValue.unique {f : FieldInfo V} {os : List (Option Bytes)} {o : Option Bytes} {e e' : Error}
    (h : BadValue f os o e) (h' : BadValue f os o e') : e = e' := by
  have hmb : isMulti f = true → f.kind ≠ .bool := by
    intro h hk; simp [isMulti, hk] at h
  cases h with
  | flagValue hk =>
    cases h' with
    | flagValue => rfl
    | duplicate _ ho _ => simpa using ho hk
    | invalid _ hk' => exact absurd hk hk'
    | piece hm => exact absurd hk (hmb hm)
  | duplicate hm ho hne =>
    cases h' with
    | flagValue hk => simpa using ho hk
    | duplicate => rfl
    | invalid _ _ hos => exact absurd hos hne
    | piece hm' => rw [hm] at hm'; simp at hm'
  | invalid hm hk hos hv =>
    cases h' with
    | flagValue hk' => exact absurd hk' hk
    | duplicate _ _ hne => exact absurd hos hne
    | invalid _ _ _ hv' => rw [hv] at hv'; cases hv'; rfl
    | piece hm' => rw [hm] at hm'; simp at hm'
  | piece hm hp hxs hv =>
    cases h' with
    | flagValue hk => exact absurd hk (hmb hm)
    | duplicate hm' => rw [hm] at hm'; simp at hm'
    | invalid hm' => rw [hm] at hm'; simp at hm'
    | piece _ hp' hxs' hv' =>
      rename_i v xs x ys xs' x' ys'
      rw [hp] at hp'
      rcases List.append_eq_append_iff.1 hp' with ⟨zs, h1, h2⟩ | ⟨zs, h1, h2⟩
      · cases zs with
        | nil => simp at h2; rw [h2.1, hv'] at hv; cases hv; rfl
        | cons z zs =>
          simp only [List.cons_append, List.cons.injEq] at h2
          rw [← h2.1] at h1
          exact absurd (parsed_error hv) (hxs' _ (by rw [h1]; exact List.mem_append_right _ List.mem_cons_self))
      · cases zs with
        | nil => simp at h2; rw [← h2.1, hv'] at hv; cases hv; rfl
        | cons z zs =>
          simp only [List.cons_append, List.cons.injEq] at h2
          rw [← h2.1] at h1
          exact absurd (parsed_error hv') (hxs _ (by rw [h1]; exact List.mem_append_right _ List.mem_cons_self))

theorem occs_at (xs ys : List Event) (a : Addr) (o : Option Bytes) :
    occs (xs ++ (a, o) :: ys) a = occs xs a ++ o :: occs ys a := by
  rw [occs_append, show (a, o) :: ys = [(a, o)] ++ ys from rfl, occs_append, occs_single]
  simp

theorem Spec.FirstBad.not_acceptable {st : List (Entry V)} {log evs : List Event} {e : Error} (h : FirstBad st log evs e) :
    ¬ Acceptable st (log ++ evs) := by
  obtain ⟨pre, a, o, post, f, e0, rfl, h1, _, h3, _⟩ := h
  intro hacc
  apply hacc a f h1
  rw [← List.append_assoc, occs_at]
  exact h3.given_none _

theorem Spec.FirstBad.unique {st : List (Entry V)} {log evs : List Event} {e e' : Error} (h : FirstBad st log evs e)
    (h' : FirstBad st log evs e') : e = e' := by
  have key : ∀ {pre pre' : List Event} {a : Addr} {o : Option Bytes} {post : List Event} {x : Event} {post' : List Event}
      {f : FieldInfo V} {e0 : Error},
      evs = pre ++ (a, o) :: post → evs = pre' ++ x :: post' → fieldAt st a = some f →
      BadValue f (occs (log ++ pre) a) (o.map (normalise f)) e0 →
      (∀ (b : Addr) (g : FieldInfo V), fieldAt st b = some g → given g (occs (log ++ pre') b) ≠ none) →
      ∀ zs, pre' = pre ++ zs → zs = [] := by
    rintro pre pre' a o post x post' f e0 h1 h2 hf hb hacc zs rfl
    cases zs with
    | nil => rfl
    | cons z zs =>
      rw [h1, List.append_assoc] at h2
      have := List.append_cancel_left h2
      simp only [List.cons_append, List.cons.injEq] at this
      rw [← this.1] at hacc
      refine absurd ?_ (hacc a f hf)
      rw [← List.append_assoc, occs_at]
      exact hb.given_none _
  obtain ⟨pre, a, o, post, f, e0, h1, h2, h3, h4, rfl⟩ := h
  obtain ⟨pre', a', o', post', f', e0', h1', h2', h3', h4', rfl⟩ := h'
  have hpre : pre = pre' := by
    have := h1.symm.trans h1'
    rcases List.append_eq_append_iff.1 this with ⟨zs, q1, _⟩ | ⟨zs, q1, _⟩
    · have := key h1 h1' h2 h4 h3' zs q1
      rw [q1, this]; simp
    · have := key h1' h1 h2' h4' h3 zs q1
      rw [q1, this]; simp
  subst hpre
  have := List.append_cancel_left (h1.symm.trans h1')
  simp only [List.cons.injEq, Prod.mk.injEq] at this
  obtain ⟨⟨rfl, rfl⟩, _⟩ := this
  rw [h2] at h2'
  cases h2'
  rw [h4.unique h4']

/-! ## Validation of all commands -/

/-- The places of all levels hold the occurrences `log`. -/
def FilledLevels (cx : Cx V) (log : List Event) : List (Level V) → Prop
  | [] => True
  | l :: outer => WFArgs cx l.d ∧ FilledAll (fun s i => occs log ⟨outer.length, s, i⟩) 0 (structs l.d) l.places
      ∧ FilledLevels cx log outer

theorem filledLevels_of {cx : Cx V} {log : List Event} {ls : List (Level V)} (hok : ∀ l ∈ ls, l.Ok cx)
    (hp : ∀ (a : Addr) (f : FieldInfo V), fieldAt (stackOf ls) a = some f →
      ∃ v, given f (occs log a) = some v ∧ getPlace ls a = some (toPlace f v)) : FilledLevels cx log ls := by
  induction ls with
  | nil => trivial
  | cons l outer ih =>
    have hl := hok l (by simp)
    refine ⟨hl.wf, ⟨hl.len, ?_⟩, ih (fun x hx => hok x (by simp [hx])) ?_⟩
    · intro k c hc
      have hlt : k < l.places.length := by rw [hl.len]; exact (List.getElem?_eq_some_iff.1 hc).1
      have hpl : l.places[k]? = some l.places[k] := by simp [hlt]
      refine ⟨_, hpl, Filled.of_get (hl.fits k c _ hc hpl).1 ?_⟩
      intro n f hf
      obtain ⟨v, h1, h2⟩ := hp ⟨outer.length, k, n⟩ f (by
        simp only [stackOf, List.map_cons, Level.entry, fieldAt, List.length_map, if_true, hc]
        exact hf)
      refine ⟨v, by simpa using h1, ?_⟩
      unfold getPlace levelAt at h2
      simp only [if_true, Level.get, hpl] at h2
      exact h2
    · intro a f hf
      have hne : a.level ≠ outer.length := by
        have := fieldAt_level hf
        rw [stackOf_length] at this
        omega
      obtain ⟨v, h1, h2⟩ := hp a f (by
        simp only [stackOf, List.map_cons, Level.entry, fieldAt, List.length_map, hne, if_false]
        exact hf)
      refine ⟨v, h1, ?_⟩
      unfold getPlace levelAt at h2
      simp only [hne, if_false] at h2
      exact h2

theorem Sim.filled {cx : Cx V} {ls : List (Level V)} {κ : Ctx V} {log : List Event} (S : Sim cx ls κ log) :
    FilledLevels cx log ls :=
  filledLevels_of S.ok (by rw [S.stack]; exact S.place)

theorem finAll_eq {cx : Cx V} {log : List Event} {ls : List (Level V)} (h : FilledLevels cx log ls) (hne : ls ≠ [])
    (sub : Option (Out V)) :
    match allFail log (stackOf ls) sub.isSome with
    | some x => finAll ls sub = .error x
    | none => ∃ o, outAll log (stackOf ls) sub = some o ∧ finAll ls sub = .ok o := by
  induction ls generalizing sub with
  | nil => exact absurd rfl hne
  | cons l outer ih =>
    obtain ⟨hwf, hf, hr⟩ := h
    have h1 := finArgs_eq l.d hwf hf sub
    have hst : stackOf (l :: outer) = (⟨l.ident, l.name⟩, l.d) :: stackOf outer := rfl
    rw [hst, allFail, finAll, outAll, stackOf_length]
    change match Option.or (argsFail (fun s => present (fun i => occs log ⟨outer.length, s, i⟩)) 0 sub.isSome l.d) _ with
      | some x => _
      | none => _
    revert h1
    cases argsFail (fun s => present (fun i => occs log ⟨outer.length, s, i⟩)) 0 sub.isSome l.d with
    | some x =>
      intro h1
      simp only at h1
      simp only [Option.some_or]
      rw [h1]
    | none =>
      rintro ⟨o, q1, q2⟩
      simp only [Option.none_or, q1, q2]
      cases outer with
      | nil => exact ⟨o, rfl, rfl⟩
      | cons l' outer' => exact ih hr (by simp) (some (.variant l.ident o))

/-- The definitions of a stack are well-formed. -/
def StackWF (cx : Cx V) (st : List (Entry V)) : Prop := ∀ x ∈ st, WFArgs cx x.2

theorem Sim.stackWF {cx : Cx V} {ls : List (Level V)} {κ : Ctx V} {log : List Event} (S : Sim cx ls κ log) :
    StackWF cx κ.stack := by
  intro x hx
  rw [← S.stack] at hx
  obtain ⟨l, hl, rfl⟩ := List.mem_map.1 hx
  exact (S.ok l hl).wf

theorem acceptable_cons {i : CmdId} {d : ArgsDef V} {outer : List (Entry V)} {evs : List Event} :
    Acceptable ((i, d) :: outer) evs ↔
      (∀ (s : Nat) (c : Core V), (structs d)[s]? = some c → ∀ (k : Nat) (f : FieldInfo V), c.fields[k]? = some f →
        given f (occs evs ⟨outer.length, s, k⟩) ≠ none) ∧ Acceptable outer evs := by
  constructor
  · intro h
    refine ⟨fun s c hc k f hf => h ⟨outer.length, s, k⟩ f (by simp [fieldAt, hc, hf]), fun a f hf => h a f ?_⟩
    have := fieldAt_level hf
    have hne : a.level ≠ outer.length := by omega
    simp only [fieldAt, hne, if_false]
    exact hf
  · rintro ⟨h1, h2⟩ a f hf
    obtain ⟨lv, s, k⟩ := a
    simp only [fieldAt] at hf
    split at hf
    · rename_i hl
      subst hl
      split at hf
      · rename_i c hc
        exact h1 s c hc k f hf
      · simp at hf
    · exact h2 _ f hf

/-- A command line meets all constraints iff nothing fails. -/
theorem allFail_none {cx : Cx V} {evs : List Event} {st : List (Entry V)} (hwf : StackWF cx st) (sub : Option (Out V)) :
    (AllOk evs st sub.isSome ∧ ∃ o, outAll evs st sub = some o) ∨ st = [] ↔
      (Acceptable st evs ∧ allFail evs st sub.isSome = none ∧ ∃ o, outAll evs st sub = some o) ∨ st = [] := by
  induction st generalizing sub with
  | nil => simp
  | cons x outer ih =>
    obtain ⟨i, d⟩ := x
    have hd : WFArgs cx d := hwf (i, d) (by simp)
    have ih := ih (fun y hy => hwf y (by simp [hy]))
    simp only [reduceCtorEq, or_false]
    rw [acceptable_cons, AllOk, outAll, allFail]
    have hA := argsFail_none d hd (os := fun s i => occs evs ⟨outer.length, s, i⟩) (s := 0) (sub := sub.isSome)
    change _ ↔ _ ∧ Option.or (argsFail (fun s => present (fun i => occs evs ⟨outer.length, s, i⟩)) 0 sub.isSome d) _ = none ∧ _
    rw [Option.or_eq_none_iff]
    constructor
    · rintro ⟨⟨h1, h2⟩, o, h3⟩
      cases ho : outArgs (fun s i => occs evs ⟨outer.length, s, i⟩) 0 sub d with
      | none => rw [ho] at h3; simp at h3
      | some o1 =>
        rw [ho] at h3
        have hfail : argsFail (fun s => present (fun i => occs evs ⟨outer.length, s, i⟩)) 0 sub.isSome d = none := by
          rw [hA]
          refine ⟨fun k c hc => ⟨?_, ?_⟩, h1.subcommand⟩
          · rw [Nat.zero_add]; exact h1.structs k c hc
          · intro n f hf he
            have := outArgs_some d ho hc hf
            rw [he] at this
            exact this
        cases outer with
        | nil =>
          refine ⟨⟨h1.values, ?_⟩, ⟨hfail, rfl⟩, o, ?_⟩
          · intro a f hf; simp [fieldAt] at hf
          · simpa using h3
        | cons y outer' =>
          simp only at h3
          have := (ih (some (.variant i.ident o1))).1 (.inl ⟨h2, o, h3⟩)
          simp only [reduceCtorEq, or_false] at this
          exact ⟨⟨h1.values, this.1⟩, ⟨hfail, this.2.1⟩, o, h3⟩
    · rintro ⟨⟨h1, h2⟩, ⟨h3, h4⟩, o, h5⟩
      refine ⟨⟨⟨h1, ?_, (hA.1 h3).2⟩, ?_⟩, o, h5⟩
      · intro k c hc
        have := ((hA.1 h3).1 k c hc).1
        rw [Nat.zero_add] at this
        exact this
      · cases outer with
        | nil => trivial
        | cons y outer' =>
          cases ho : outArgs (fun s i => occs evs ⟨(y :: outer').length, s, i⟩) 0 sub d with
          | none => rw [ho] at h5; simp at h5
          | some o1 =>
            rw [ho] at h5
            simp only at h5
            have := (ih (some (.variant i.ident o1))).2 (.inl ⟨h2, h4, o, h5⟩)
            simp only [reduceCtorEq, or_false] at this
            exact this.1

/-! ## The outcome -/

theorem root_sim {cx : Cx V} {d : ArgsDef V} (wf : WFArgs cx d) (argv0 : Bytes) :
    Sim cx [rootLevel d argv0] (start argv0 d) [] where
  ok := by
    intro l hl
    rw [List.mem_singleton] at hl
    subst hl
    exact initLevel_ok _ _ wf
  ne := by simp
  stack := rfl
  pos := by
    intro l outer h
    cases h
    simp [PosOk, start, rootLevel, initLevel]
  place := by
    intro a f hf
    obtain ⟨lv, s, k⟩ := a
    simp only [start, fieldAt, List.length_nil] at hf
    split at hf
    · rename_i hl
      subst hl
      split at hf
      · rename_i c hc
        refine ⟨.absent, rfl, ?_⟩
        unfold getPlace levelAt
        simp only [List.length_nil, if_true]
        exact initLevel_get _ _ _ hc hf
      · simp at hf
    · simp at hf
  fresh := by simp

theorem step_wf {cx : Cx V} {κ κ1 : Ctx V} {toks rest : Toks} {evs : List Event} (h : Step cx κ toks evs κ1 rest)
    (hwf : StackWF cx κ.stack) : StackWF cx κ1.stack := by
  cases h with
  | sub hv hp =>
    intro x hx
    rcases List.mem_cons.1 hx with rfl | hx
    · exact (subLevel_ok (hwf _ List.mem_cons_self) hv.mem).wf
    · exact hwf x hx
  | _ => exact hwf

theorem steps_wf {cx : Cx V} {κ κ1 : Ctx V} {toks rest : Toks} {evs : List Event} (h : Steps cx κ toks evs κ1 rest)
    (hwf : StackWF cx κ.stack) : StackWF cx κ1.stack := by
  induction h with
  | refl => exact hwf
  | step h _ ih => exact ih (step_wf h hwf)

theorem stack_wf {cx : Cx V} {d : ArgsDef V} (wf : WFArgs cx d) {argv0 : Bytes} {toks rest : Toks} {evs : List Event}
    {κ : Ctx V} (h : Steps cx (start argv0 d) toks evs κ rest) : StackWF cx κ.stack ∧ κ.stack ≠ [] := by
  refine ⟨steps_wf h ?_, ?_⟩
  · intro x hx
    simp only [start, List.mem_singleton] at hx
    subst hx
    exact wf
  · obtain ⟨ext, he⟩ := steps_stack h
    rw [he]
    simp [start]

/-- Outcome of a command line that can be read and whose values are acceptable. -/
theorem outcome_reads {cx : Cx V} {d : ArgsDef V} (wf : WFArgs cx d) {argv0 : Bytes} {toks : Toks}
    {evs : List Event} {κ : Ctx V} (h : Reads cx (start argv0 d) toks evs κ) :
    (StackWF cx κ.stack ∧ Acceptable κ.stack evs ∧ κ.stack ≠ [] ∧
      match allFail evs κ.stack false with
      | some x => tryParseFrom d (argv0 :: toks) = .error x
      | none => ∃ o, outAll evs κ.stack none = some o ∧ tryParseFrom d (argv0 :: toks) = .ok o)
    ∨ ∃ e, FirstBad κ.stack [] evs e ∧ tryParseFrom d (argv0 :: toks) = errR e := by
  have S := root_sim wf argv0
  rw [tryParseFrom_eq wf]
  rcases steps_sound (reads_steps h) S with ⟨ls1, S1, h1⟩ | ⟨e, h1, h2⟩
  · rw [List.nil_append] at S1
    rw [show (start argv0 d).mode = .opts from rfl] at h1
    rw [h1]
    simp only [mrun]
    have := finAll_eq S1.filled S1.ne none
    rw [S1.stack] at this
    refine .inl ⟨S1.stackWF, S1.given_ne, ?_, this⟩
    rw [← S1.stack]
    have := S1.ne
    simpa [stackOf] using this
  · rw [show (start argv0 d).mode = .opts from rfl] at h1
    rw [h1]
    exact .inr ⟨e, h2, rfl⟩

/-- Outcome of a command line that cannot be read. -/
theorem outcome_halts {cx : Cx V} {d : ArgsDef V} (wf : WFArgs cx d) {argv0 : Bytes} {toks : Toks}
    {evs : List Event} {κ : Ctx V} {e : Error} (h : Halts cx (start argv0 d) toks evs κ e) :
    (Acceptable κ.stack evs ∧ tryParseFrom d (argv0 :: toks) = errR e)
    ∨ ∃ e', FirstBad κ.stack [] evs e' ∧ tryParseFrom d (argv0 :: toks) = errR e' := by
  have S := root_sim wf argv0
  rw [tryParseFrom_eq wf]
  obtain ⟨evs1, evs2, rest, hs, hst, rfl⟩ := h
  rcases steps_sound hs S with ⟨ls1, S1, h1⟩ | ⟨e, h1, h2⟩
  · rw [show (start argv0 d).mode = .opts from rfl] at h1
    rw [h1]
    rcases stuck_sound hst S1 with ⟨h2, h3⟩ | ⟨e', h2, h3⟩
    · rw [h2]
      exact .inl ⟨h3, rfl⟩
    · rw [h2]
      exact .inr ⟨e', FirstBad.shift h3, rfl⟩
  · rw [show (start argv0 d).mode = .opts from rfl] at h1
    rw [h1]
    exact .inr ⟨e, h2.append _, rfl⟩

theorem outcome_steps {cx : Cx V} {d : ArgsDef V} (wf : WFArgs cx d) {argv0 : Bytes} {toks rest : Toks}
    {evs : List Event} {κ : Ctx V} {e : Error} (h : Steps cx (start argv0 d) toks evs κ rest)
    (hb : FirstBad κ.stack [] evs e) : tryParseFrom d (argv0 :: toks) = errR e := by
  have S := root_sim wf argv0
  rw [tryParseFrom_eq wf]
  rcases steps_sound h S with ⟨ls1, S1, h1⟩ | ⟨e', h1, h2⟩
  · exact absurd S1.given_ne hb.not_acceptable
  · rw [show (start argv0 d).mode = .opts from rfl] at h1
    rw [h1, h2.unique hb]
    rfl

/-- A rejected command line fails as specified. -/
theorem rejects_sound {cx : Cx V} {d : ArgsDef V} (wf : WFArgs cx d) {argv0 : Bytes} {toks : Toks}
    {x : Fail} (h : Rejects cx d argv0 toks x) : tryParseFrom d (argv0 :: toks) = .error x := by
  cases h with
  | value h hb => exact outcome_steps wf h hb
  | valueStuck h hb =>
    rcases outcome_halts wf h with ⟨h1, _⟩ | ⟨e', h1, h2⟩
    · exact absurd h1 hb.not_acceptable
    · rw [h2, h1.unique hb]; rfl
  | stuck h ha =>
    rcases outcome_halts wf h with ⟨_, h2⟩ | ⟨e', h1, _⟩
    · exact h2
    · exact absurd ha h1.not_acceptable
  | invalid h ha hf =>
    rcases outcome_reads wf h with ⟨_, _, _, h1⟩ | ⟨e', h1, _⟩
    · rw [hf] at h1
      exact h1
    · exact absurd ha h1.not_acceptable

/-- An accepted command line produces the specified value. -/
theorem accepts_sound {cx : Cx V} {d : ArgsDef V} (wf : WFArgs cx d) {argv0 : Bytes} {toks : Toks}
    {out : Out V} (h : Accepts cx d argv0 toks out) : tryParseFrom d (argv0 :: toks) = .ok out := by
  obtain ⟨evs, κ, hr, hok, ho⟩ := h
  have haux : StackWF cx κ.stack → κ.stack ≠ [] → Acceptable κ.stack evs ∧ allFail evs κ.stack false = none := by
    intro hwf hne
    have := (allFail_none hwf none).1 (.inl ⟨hok, out, ho⟩)
    simp only [hne, or_false] at this
    exact ⟨this.1, this.2.1⟩
  have S := root_sim wf argv0
  obtain ⟨hwf, hne⟩ : StackWF cx κ.stack ∧ κ.stack ≠ [] := stack_wf wf (reads_steps hr)
  obtain ⟨ha, hf⟩ := haux hwf hne
  rcases outcome_reads wf hr with ⟨_, _, _, h1⟩ | ⟨e', h1, _⟩
  · rw [hf] at h1
    obtain ⟨o, q1, q2⟩ := h1
    rw [ho] at q1
    cases q1
    exact q2
  · exact absurd ha h1.not_acceptable

/-- Every command line is accepted or rejected. -/
theorem accepts_or_rejects {cx : Cx V} {d : ArgsDef V} (wf : WFArgs cx d) (argv0 : Bytes) (toks : Toks) :
    (∃ out, Accepts cx d argv0 toks out) ∨ ∃ x, Rejects cx d argv0 toks x := by
  rcases run_cases (root_sim wf argv0) toks with ⟨evs, κ, h⟩ | ⟨evs, κ, e, h⟩ | ⟨evs, κ, rest, e, h1, _, h3⟩
  · rcases outcome_reads wf h with ⟨hwf, hacc, hne, h1⟩ | ⟨e, h1, _⟩
    · cases hf : allFail evs κ.stack false with
      | some x => exact .inr ⟨x, .invalid h hacc hf⟩
      | none =>
        rw [hf] at h1
        obtain ⟨o, q1, _⟩ := h1
        have := (allFail_none hwf none).2 (.inl ⟨hacc, hf, o, q1⟩)
        simp only [hne, or_false] at this
        exact .inl ⟨o, evs, κ, h, this.1, q1⟩
    · exact .inr ⟨_, .value (reads_steps h) h1⟩
  · rcases outcome_halts wf h with ⟨h1, _⟩ | ⟨e', h1, _⟩
    · exact .inr ⟨_, .stuck h h1⟩
    · exact .inr ⟨_, .valueStuck h h1⟩
  · exact .inr ⟨_, .value h1 h3⟩

end Palc
