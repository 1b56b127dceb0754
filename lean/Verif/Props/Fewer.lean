import Verif.Lemmas.Fewer
import Verif.Props.NoPanic
import Verif.Props.Past
/-!
# Leaving out arguments (C90)
-/

namespace Palc

open Spec

variable {V : Type} {cx : Cx V} {d : ArgsDef V} {argv0 : Bytes} {toks toks' : List Bytes} {evs evs' : List Event} {κ κ' : Ctx V} {out : Out V}

/-- The outcome for a command line `toks'` with the occurrences `evs'`, when it differs from the accepted one (with value `out` and
occurrences `evs`, having entered the commands `st`) by having fewer occurrences. -/
inductive Fewer (cx : Cx V) (d : ArgsDef V) (argv0 : Bytes) (toks' : List Bytes) (st : List (Entry V)) (evs evs' : List Event) (out : Out V) : Prop
  /-- It is accepted; arguments of which nothing was left out have the same value. -/
  | accepted (out' : Out V) (h : tryParseFrom d (argv0 :: toks') = .ok out')
      (hv : ∀ a f, fieldAt st a = some f → occs evs' a = occs evs a → outAt st out' a = outAt st out a)
  /-- An argument that is required was left out. -/
  | required (a : Addr) (f : FieldInfo V) (hf : fieldAt st a = some f) (ho : ∃ v, (a, v) ∈ evs) (hn : ∀ v, (a, v) ∉ evs')
      (hr : isRequired f = true)
      (h : tryParseFrom d (argv0 :: toks') = .error (.error { kind := .missingRequiredArgument, argDesc := some f.description }))
  /-- An argument that a given one requires was left out. -/
  | requires (a b : Addr) (f g : FieldInfo V) (hf : fieldAt st a = some f) (ho : ∃ v, (a, v) ∈ evs) (hn : ∀ v, (a, v) ∉ evs')
      (hg : fieldAt st b = some g) (hs : b.level = a.level ∧ b.struct = a.struct) (hb : ∃ v, (b, v) ∈ evs') (hr : f.ident ∈ g.src.requires)
      (h : tryParseFrom d (argv0 :: toks') = .error (.error { kind := .constraintRequired, argDesc := some f.description }))
  /-- An argument was left out whose default string is invalid. -/
  | panics (a : Addr) (f : FieldInfo V) (s : Str) (hf : fieldAt st a = some f) (ho : ∃ v, (a, v) ∈ evs) (hn : ∀ v, (a, v) ∉ evs')
      (hs : f.src.defaultValue = some s) (hv : ¬ ValidDefault f s) (h : tryParseFrom d (argv0 :: toks') = .error .panic)

theorem not_occurs {evs : List Event} {a : Addr} (h : occs evs a = []) : ∀ v, (a, v) ∉ evs :=
  fun v hv => occs_ne_nil.2 ⟨v, hv⟩ h

/-- C90: if a command line is accepted, then one that enters the same commands and has fewer occurrences of some arguments is accepted,
with the same values of the other arguments; unless all occurrences of an argument were left out that is required, or that another given
argument requires: then the error says so. -/
theorem C90_fewer (hp : Parsed cx d argv0 toks evs κ out) (hr : Reads cx (start argv0 d) toks' evs' κ') (hst : κ'.stack = κ.stack)
    (hs : ∀ a, (occs evs' a).Sublist (occs evs a)) : Fewer cx d argv0 toks' κ.stack evs evs' out := by
  have hd := hp.derived
  cases ht : tryParseFrom d (argv0 :: toks') with
  | ok out' =>
    refine .accepted out' ht fun a f hf ho => ?_
    have hp' : Parsed cx d argv0 toks' evs' κ' out' := ⟨hd, hr, ht⟩
    obtain ⟨v, h1, h2⟩ := hp.field hf
    obtain ⟨v', h1', h2'⟩ := hp'.field (hst ▸ hf)
    rw [hst] at h2'
    rw [ho, h1] at h1'
    cases h1'
    rw [h2, h2']
  | error x =>
    have hfail := read_fails hr (by rw [hst]; exact acceptable_fewer hs hp.acceptable) ((C23_rejects_iff hd argv0 toks' x).1 ht)
    rw [hst] at hfail
    obtain ⟨pre, i, d', outer, k, c, h1, h2, h3, _, _⟩ := allFail_some hp.stackWF hfail
    have hlev := allOk_level (h1 ▸ hp.allOk)
    have hok := hlev.structs _ _ h2
    have hwf := WFArgs.structs d' (hp.stackWF (i, d') (by rw [h1]; simp)) c (List.mem_of_getElem? h2)
    have hat : ∀ {n : Nat} {f : FieldInfo V}, c.fields[n]? = some f → fieldAt κ.stack ⟨outer.length, k, n⟩ = some f := by
      intro n f hf
      rw [h1, fieldAt_ext (by simp)]
      simp [fieldAt, h2, hf]
    have hsub : ∀ {n : Nat}, occs evs' ⟨outer.length, k, n⟩ ≠ [] → occs evs ⟨outer.length, k, n⟩ ≠ [] := by
      intro n hn h
      have := hs ⟨outer.length, k, n⟩
      rw [h] at this
      exact hn (List.sublist_nil.1 this)
    cases h3 with
    | error hv =>
      cases hv with
      | @exclusive n f hf hg hx ho =>
        obtain ⟨q1, q2⟩ := hok.exclusive n f hf (hsub hg) hx
        rcases ho with ho | ⟨j, g, hj, hne, hg'⟩
        · rw [ho] at q2; cases q2
        · exact absurd (q1 j (List.getElem?_eq_some_iff.1 hj).1 (hsub hg')) hne
      | @requires n f j g hf hg hj hx hn =>
        obtain ⟨j', g', hj', hid, ho⟩ := hok.requires n f hf (hsub hg) g.ident hx
        have hjj : j' = j := ident_unique hwf hj hj' hid
        subst hjj
        exact .requires _ _ g f (hat hj) (occs_ne_nil.1 ho) (not_occurs hn) (hat hf) ⟨rfl, rfl⟩ (occs_ne_nil.1 hg) hx ht
      | @conflict n f j g hf hg hj hx hn => exact absurd (hok.conflicts n f hf (hsub hg) g.ident hx j g hj rfl) (hsub hn)
      | @missing n f hf hreq hn _ =>
        exact .required _ f (hat hf) (occs_ne_nil.1 (hok.required n f hf hreq)) (not_occurs hn) hreq ht
      | subcommand hneed hsb _ =>
        rw [Bool.and_eq_true, decide_eq_true_eq] at hneed
        have := hlev.subcommand hneed.1
        rw [this, hneed.2] at hsb
        cases hsb
    | @panic n f hf hn hdf hreq _ =>
      obtain ⟨s, hs1, hs2⟩ := (fieldOut_absent (hp.stackWF.field (hat hf)).toFieldPre hreq).1 hdf
      refine .panics _ f s (hat hf) (occs_ne_nil.1 fun ho => ?_) (not_occurs hn) hs1 hs2 ht
      obtain ⟨v, h1, _⟩ := hp.field (hat hf)
      rw [ho, hdf] at h1
      cases h1

/-- C90: in particular options can be left out wherever they are. -/
theorem C90_leave_out (hd : DerivedArgs cx d) {pre xs post : List Bytes} {ex : List Event} (hpre : Reads cx (start argv0 d) pre evs κ)
    (hx : Reads cx κ xs ex κ) (h : tryParseFrom d (argv0 :: (pre ++ xs ++ post)) = .ok out) :
    ∃ E κ', Parsed cx d argv0 (pre ++ xs ++ post) (evs ++ ex ++ E) κ' out ∧ Reads cx (start argv0 d) (pre ++ post) (evs ++ E) κ'
      ∧ Fewer cx d argv0 (pre ++ post) κ'.stack (evs ++ ex ++ E) (evs ++ E) out := by
  obtain ⟨E0, κ', hp⟩ := Parsed.of_ok hd h
  obtain ⟨E, rfl, hR⟩ := steps_reads_det (steps_append (reads_steps (reads_append hpre hx)) post) hp.reads
  have hr := reads_append hpre hR
  refine ⟨E, κ', hp, hr, C90_fewer hp hr rfl fun a => occs_sublist ?_ a⟩
  exact List.Sublist.append (List.sublist_append_left _ _) (List.Sublist.refl _)

/-- C90: options that are not required, neither by themselves nor by another argument of their struct, can be left out wherever they
are: the command line is still accepted, and all other arguments keep their values. -/
theorem C90_optional (hd : DerivedArgs cx d) {pre xs post : List Bytes} {ex : List Event} (hpre : Reads cx (start argv0 d) pre evs κ)
    (hx : Reads cx κ xs ex κ) (h : tryParseFrom d (argv0 :: (pre ++ xs ++ post)) = .ok out)
    (hopt : ∀ x ∈ ex, ∀ f, fieldAt κ.stack x.1 = some f → isRequired f = false ∧ (∀ s, f.src.defaultValue = some s → ValidDefault f s)
      ∧ ∀ i g, fieldAt κ.stack ⟨x.1.level, x.1.struct, i⟩ = some g → f.ident ∉ g.src.requires) :
    ∃ E κ' out', Parsed cx d argv0 (pre ++ xs ++ post) (evs ++ ex ++ E) κ' out ∧ Parsed cx d argv0 (pre ++ post) (evs ++ E) κ' out'
      ∧ ∀ a f, fieldAt κ'.stack a = some f → (∀ v, (a, v) ∉ ex) → outAt κ'.stack out' a = outAt κ'.stack out a := by
  obtain ⟨E, κ', hp, hr, hfew⟩ := C90_leave_out hd hpre hx h
  have hstk : ∃ ext, κ'.stack = ext ++ κ.stack := by
    obtain ⟨E', he, hR⟩ := steps_reads_det (steps_append (reads_steps hpre) post) hr
    exact steps_stack (reads_steps hR)
  obtain ⟨ext, hext⟩ := hstk
  have hlow : ∀ {x : Event}, x ∈ ex → x.1.level < κ.stack.length := fun hm => steps_fresh (reads_steps hx) _ hm
  have hmem : ∀ {a : Addr}, (∃ v, (a, v) ∈ evs ++ ex ++ E) → (∀ v, (a, v) ∉ evs ++ E) → ∃ v, (a, v) ∈ ex := by
    rintro a ⟨v, hv⟩ hn
    refine ⟨v, ?_⟩
    have := hn v
    simp only [List.mem_append, not_or] at hv this
    rcases hv with (hv | hv) | hv
    · exact absurd hv this.1
    · exact hv
    · exact absurd hv this.2
  cases hfew with
  | accepted out' h1 h2 =>
    refine ⟨E, κ', out', hp, ⟨hd, hr, h1⟩, fun a f hf hn => h2 a f hf ?_⟩
    have : occs ex a = [] := by
      cases ho : occs ex a with
      | nil => rfl
      | cons y ys =>
        obtain ⟨v, hv⟩ := (occs_ne_nil (a := a) (evs := ex)).1 (by rw [ho]; simp)
        exact absurd hv (hn v)
    rw [occs_append, occs_append, occs_append, this, List.append_nil]
  | required a f hf ho hn hreq _ =>
    obtain ⟨v, hv⟩ := hmem ho hn
    rw [hext, fieldAt_ext (hlow hv)] at hf
    rw [(hopt _ hv f hf).1] at hreq
    cases hreq
  | requires a b f g hf ho hn hg hs _ hreq _ =>
    obtain ⟨v, hv⟩ := hmem ho hn
    rw [hext, fieldAt_ext (hlow hv)] at hf
    have hb : b = ⟨a.level, a.struct, b.field⟩ := by rw [← hs.1, ← hs.2]
    rw [hb, hext, fieldAt_ext (by exact hlow hv)] at hg
    exact absurd hreq ((hopt _ hv f hf).2.2 _ g hg)
  | panics a f s hf ho hn hs hv _ =>
    obtain ⟨v, hv'⟩ := hmem ho hn
    rw [hext, fieldAt_ext (hlow hv')] at hf
    exact absurd ((hopt _ hv' f hf).2.1 s hs) hv

/-! ### Examples -/

/-- `app -v --config x ..`: wherever this is accepted, it is without `--config x`, with the same values of everything else, or `--pattern`
was given, which requires it. -/
example (post : List Bytes) (out : Out Sample.Val) (h : tryParseFrom Sample.cli (blit "app" :: ([blit "-v"] ++ [blit "--config", blit "x"] ++ post)) = .ok out) :
    ∃ E κ', Parsed Sample.cx Sample.cli (blit "app") ([blit "-v"] ++ [blit "--config", blit "x"] ++ post)
        ([(⟨0, 0, 0⟩, none)] ++ [(⟨0, 0, 1⟩, some (blit "x"))] ++ E) κ' out
      ∧ Reads Sample.cx (start (blit "app") Sample.cli) ([blit "-v"] ++ post) ([(⟨0, 0, 0⟩, none)] ++ E) κ'
      ∧ Fewer Sample.cx Sample.cli (blit "app") ([blit "-v"] ++ post) κ'.stack
        ([(⟨0, 0, 0⟩, none)] ++ [(⟨0, 0, 1⟩, some (blit "x"))] ++ E) ([(⟨0, 0, 0⟩, none)] ++ E) out :=
  C90_leave_out Sample.cli_derived Sample.reads_v (Sample.reads_config [Sample.root] 0 (by decide +kernel)) h

/-- The flag `-v` can be left out of every accepted command line, with the same values of everything else. -/
example (post : List Bytes) (out : Out Sample.Val) (h : tryParseFrom Sample.cli (blit "app" :: ([] ++ [blit "-v"] ++ post)) = .ok out) :
    ∃ E κ' out', Parsed Sample.cx Sample.cli (blit "app") ([] ++ [blit "-v"] ++ post) ([] ++ [(⟨0, 0, 0⟩, none)] ++ E) κ' out
      ∧ Parsed Sample.cx Sample.cli (blit "app") ([] ++ post) ([] ++ E) κ' out'
      ∧ ∀ a f, fieldAt κ'.stack a = some f → (∀ v, (a, v) ∉ [((⟨0, 0, 0⟩, none) : Event)]) → outAt κ'.stack out' a = outAt κ'.stack out a := by
  refine C90_optional (κ := ⟨[Sample.root], 0, .opts⟩) Sample.cli_derived (by rw [Sample.start_app]; exact .done)
    (by have := Sample.reads_v; rw [Sample.start_app] at this; exact this) h fun x hx f hf => ?_
  simp only [List.mem_singleton] at hx
  subst hx
  have hk : (fieldAt [Sample.root] ⟨0, 0, 0⟩).all (fun f => !isRequired f && f.src.defaultValue.isNone
      && (structs Sample.cli).all (fun c => c.fields.all (fun g => !decide (f.ident ∈ g.src.requires)))) = true := by decide +kernel
  rw [hf] at hk
  simp only [Option.all_some, Bool.and_eq_true, Bool.not_eq_true', List.all_eq_true, decide_eq_false_iff_not, Option.isNone_iff_eq_none] at hk
  refine ⟨hk.1.1, ⟨fun s hs => ?_, fun i g hg => ?_⟩⟩
  · rw [hk.1.2] at hs; cases hs
  obtain ⟨pre, j, e, outer, c, hst, _, hc, hgf⟩ := fieldAt_split hg
  have he : e = Sample.cli := by
    cases pre with
    | nil => simp only [List.nil_append, List.cons.injEq] at hst; rw [← (Prod.mk.inj hst.1).2]
    | cons y pre => simp at hst
  subst he
  exact hk.2 c (List.mem_of_getElem? hc) g (List.mem_of_getElem? hgf)

/-- `--config` can be left out, except beside `--pattern`; a path of `add` can be left out, but not the last one; leaving out one of several
values of `-D` leaves the others. -/
example : Sample.isOk (Sample.parse ["app", "-v", "--config", "x"]) = true
    ∧ Sample.isOk (Sample.parse ["app", "--config", "x", "--pattern", "p"]) = true
    ∧ Sample.failure (Sample.parse ["app", "--pattern", "p"])
      = some (.error { kind := .constraintRequired, argDesc := some (lit "-c, --config <CONFIG>") })
    ∧ Sample.isOk (Sample.parse ["app", "add", "p", "q"]) = true ∧ Sample.isOk (Sample.parse ["app", "add", "q"]) = true
    ∧ Sample.failure (Sample.parse ["app", "add"]) = some (.error { kind := .missingRequiredArgument, argDesc := some (lit "<PATHS>...") })
    ∧ Sample.value (Sample.parse ["app", "-Da", "-Db"]) ["define"] = some (.vec [lit "a", lit "b"])
    ∧ Sample.value (Sample.parse ["app", "-Db"]) ["define"] = some (.vec [lit "b"]) := by
  decide +kernel

/-- `app add p q ..` is accepted with fewer paths, or one is missing. -/
example (out : Out Sample.Val) (h : tryParseFrom Sample.cli (blit "app" :: [blit "add", blit "p", blit "q"]) = .ok out) :
    Fewer Sample.cx Sample.cli (blit "app") [blit "add", blit "q"] [Sample.entry "Add" "add" Sample.add, Sample.root]
      [(⟨1, 0, 1⟩, some (blit "p")), (⟨1, 0, 1⟩, some (blit "q"))] [(⟨1, 0, 1⟩, some (blit "q"))] out := by
  have hpos : ∀ k, k < 2 → ∃ x, posTarget Sample.add k = some x ∧ x.2 = 1 ∧ modeAfter x .opts = .opts := by
    intro k hk
    have : (posTarget Sample.add k).any (fun x => decide (x.2 = 1) && !x.1.src.trailingVarArg) = true := by
      match k, hk with
      | 0, _ => decide +kernel
      | 1, _ => decide +kernel
    cases hx : posTarget Sample.add k with
    | none => rw [hx] at this; cases this
    | some x =>
      rw [hx] at this
      simp only [Option.any_some, Bool.and_eq_true, decide_eq_true_eq, Bool.not_eq_true'] at this
      exact ⟨x, rfl, this.1, by rw [modeAfter, this.2]; rfl⟩
  have hstep : ∀ {k : Nat} {t : Bytes} {toks : List Bytes} {evs : List Event} {κ' : Ctx Sample.Val}, k < 2 → Plain t →
      Reads Sample.cx ⟨[Sample.entry "Add" "add" Sample.add, Sample.root], k + 1, .opts⟩ toks evs κ' →
      Reads Sample.cx ⟨[Sample.entry "Add" "add" Sample.add, Sample.root], k, .opts⟩ (t :: toks) ((⟨1, 0, 1⟩, some t) :: evs) κ' := by
    intro k t toks evs κ' hk ht hr
    obtain ⟨x, h1, h2, h3⟩ := hpos k hk
    have hr' := Reads.positional (tok := t) (st := [Sample.root]) (i := ⟨lit "Add", lit "add"⟩) ht
      (by intro v hv; rw [show subVariants Sample.add = [] by rfl] at hv; cases hv) h1 (by rw [h3]; exact hr)
    rw [h2] at hr'
    exact hr'
  have hadd : ∀ {toks : List Bytes} {evs : List Event} {κ' : Ctx Sample.Val},
      Reads Sample.cx ⟨[Sample.entry "Add" "add" Sample.add, Sample.root], 0, .opts⟩ toks evs κ' →
      Reads Sample.cx (start (blit "app") Sample.cli) (blit "add" :: toks) evs κ' := by
    intro toks evs κ' hr
    rw [Sample.start_app]
    exact .sub (v := .args (lit "Add") (lit "add") Sample.add) (Sample.selected (by exact List.mem_cons_self)) (.inl (by decide)) hr
  refine C90_fewer (κ := ⟨[Sample.entry "Add" "add" Sample.add, Sample.root], 2, .opts⟩)
    (κ' := ⟨[Sample.entry "Add" "add" Sample.add, Sample.root], 1, .opts⟩) ⟨Sample.cli_derived, hadd ?_, h⟩ (hadd ?_) rfl
    (occs_sublist (List.Sublist.cons _ (List.Sublist.refl _)))
  · exact hstep (by decide) (.inl (by decide)) (hstep (by decide) (.inl (by decide)) .done)
  · exact hstep (by decide) (.inl (by decide)) .done

end Palc
