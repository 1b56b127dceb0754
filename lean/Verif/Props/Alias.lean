import Verif.Props.Entry
/-!
# All names of an argument mean the same (C83)
-/

namespace Palc

open Spec

variable {V : Type} {cx : Cx V} {d : ArgsDef V} {argv0 : Bytes} {pre : List Bytes} {evs : List Event}
  {st : List (Entry V)} {k : Nat} {a : Addr} {f : FieldInfo V}

/-- Two ways of continuing that are read alike, or fail alike, have the same outcome. -/
theorem outcome_alike (hd : DerivedArgs cx d) {κ : Ctx V} (hpre : Reads cx (start argv0 d) pre evs κ) {T T' : Toks}
    (h : (∃ evs' κ' rest, Step cx κ T evs' κ' rest ∧ Step cx κ T' evs' κ' rest) ∨ ∃ evs' e, Stuck cx κ T evs' e ∧ Stuck cx κ T' evs' e) :
    tryParseFrom d (argv0 :: pre ++ T) = tryParseFrom d (argv0 :: pre ++ T') := by
  have hp := fun T => steps_append (reads_steps hpre) T
  rcases h with ⟨evs', κ', rest, h1, h2⟩ | ⟨evs', e, h1, h2⟩
  · exact outcome_ext hd.wf (steps_trans (hp _) (.step h1 .refl)) (steps_trans (hp _) (.step h2 .refl))
  · exact outcome_halts_ext hd.wf ⟨_, _, _, hp _, h1, rfl⟩ ⟨_, _, _, hp _, h2, rfl⟩

theorem kind_of_not_takes (ht : takesValue f = false) (hk : f.kind ≠ .bool) : f.kind = .optionOption := by
  unfold takesValue at ht
  cases h : f.kind <;> simp [h] at ht hk ⊢

/-- C83: two long names of an argument can be exchanged, whether or not a value is attached and whatever follows: the outcome is the
same value or the same error. -/
theorem C83_long (hd : DerivedArgs cx d) (hpre : Reads cx (start argv0 d) pre evs ⟨st, k, .opts⟩)
    {n n' : Str} (hr : Resolves cx st (.long n) a f) (hr' : Resolves cx st (.long n') a f)
    {tail : Bytes} (ht : tail = [] ∨ tail.head? = some eqSign) (post : List Bytes) :
    tryParseFrom d (argv0 :: pre ++ (enc ('-' :: '-' :: n) ++ tail) :: post)
      = tryParseFrom d (argv0 :: pre ++ (enc ('-' :: '-' :: n') ++ tail) :: post) := by
  have hwf := (stack_wf hd.wf (reads_steps hpre)).1
  obtain ⟨h1, h2⟩ := hwf.long hr
  obtain ⟨h1', h2'⟩ := hwf.long hr'
  apply outcome_alike hd hpre
  rcases ht with rfl | ht
  · simp only [List.append_nil]
    cases hv : takesValue f with
    | false => exact .inl ⟨_, _, _, .longBare hr h2 h1 hv, .longBare hr' h2' h1' hv⟩
    | true =>
      cases hq : f.src.requireEquals with
      | true => exact .inr ⟨_, _, .missingEq hr h2 h1 hv hq, .missingEq hr' h2' h1' hv hq⟩
      | false =>
        by_cases hs : ∃ v, post.head? = some v ∧ Standalone f v
        · obtain ⟨v, hv', hs⟩ := hs
          obtain ⟨post, rfl⟩ : ∃ p, post = v :: p := by
            cases post with
            | nil => cases hv'
            | cons x p => cases hv'; exact ⟨p, rfl⟩
          exact .inl ⟨_, _, _, .longSep hr h2 h1 hv hq hs, .longSep hr' h2' h1' hv hq hs⟩
        · have hs : ∀ v, post.head? = some v → ¬ Standalone f v := fun v q1 q2 => hs ⟨v, q1, q2⟩
          exact .inr ⟨_, _, .missingValue hr h2 h1 hv hq hs, .missingValue hr' h2' h1' hv hq hs⟩
  · obtain ⟨v, rfl⟩ : ∃ v, tail = eqSign :: v := by
      cases tail with
      | nil => cases ht
      | cons x p => cases ht; exact ⟨p, rfl⟩
    by_cases hk : f.kind = .bool
    · exact .inr ⟨_, _, .flagValue hr h2 hk, .flagValue hr' h2' hk⟩
    · exact .inl ⟨_, _, _, .longEq hr h2 hk, .longEq hr' h2' hk⟩

/-- C83: two short names of an argument can be exchanged, also after bundled flags `fl` and whatever is attached or follows. -/
theorem C83_short (hd : DerivedArgs cx d) (hpre : Reads cx (start argv0 d) pre evs ⟨st, k, .opts⟩)
    {fl : List Char} (hfl : ∀ x ∈ fl, PureFlag cx st x)
    {c c' : Char} (hr : Resolves cx st (.short c) a f) (hr' : Resolves cx st (.short c') a f) (r : Bytes) (post : List Bytes) :
    tryParseFrom d (argv0 :: pre ++ (dash :: (enc fl ++ (encChar c ++ r))) :: post)
      = tryParseFrom d (argv0 :: pre ++ (dash :: (enc fl ++ (encChar c' ++ r))) :: post) := by
  have hwf := (stack_wf hd.wf (reads_steps hpre)).1
  obtain ⟨hc1, hc2⟩ := hwf.short hr
  obtain ⟨hc1', hc2'⟩ := hwf.short hr'
  obtain ⟨evs0, h1, h2, _⟩ := bundle_flags hwf hfl
  have hd1 := bundle_head hwf hfl (encChar_head_ne_dash hc1 r)
  have hd1' := bundle_head hwf hfl (encChar_head_ne_dash hc1' r)
  have he1 := encChar_head_ne_eq hc2 r
  have he1' := encChar_head_ne_eq hc2' r
  have hn : encChar c ++ r ≠ [] := by simp [encChar_ne_nil]
  have hn' : encChar c' ++ r ≠ [] := by simp [encChar_ne_nil]
  apply outcome_alike hd hpre
  have hone : (∃ evs, Cluster cx st post.head? (encChar c ++ r) evs false ∧ Cluster cx st post.head? (encChar c' ++ r) evs false)
      ∨ (∃ evs v, post.head? = some v ∧ Cluster cx st post.head? (encChar c ++ r) evs true ∧ Cluster cx st post.head? (encChar c' ++ r) evs true)
      ∨ ∃ evs e, ClusterStuck cx st post.head? (encChar c ++ r) evs e ∧ ClusterStuck cx st post.head? (encChar c' ++ r) evs e := by
    by_cases hr0 : r = []
    · subst hr0
      rw [List.append_nil, List.append_nil]
      cases ht : takesValue f with
      | false => exact .inl ⟨_, .bare hr ht, .bare hr' ht⟩
      | true =>
        cases hq : f.src.requireEquals with
        | true => exact .inr (.inr ⟨_, _, .missingEq hr ht hq, .missingEq hr' ht hq⟩)
        | false =>
          by_cases hs : ∃ v, post.head? = some v ∧ Standalone f v
          · obtain ⟨v, h1, h2⟩ := hs
            exact .inr (.inl ⟨_, v, h1, .sep hr ht hq h1 h2, .sep hr' ht hq h1 h2⟩)
          · have hs : ∀ v, post.head? = some v → ¬ Standalone f v := fun v q1 q2 => hs ⟨v, q1, q2⟩
            exact .inr (.inr ⟨_, _, .missingValue hr ht hq hs, .missingValue hr' ht hq hs⟩)
    · by_cases he : r.head? = some eqSign
      · obtain ⟨v, rfl⟩ : ∃ v, r = eqSign :: v := by
          cases r with
          | nil => cases he
          | cons x p => cases he; exact ⟨p, rfl⟩
        cases ht : takesValue f with
        | true => exact .inl ⟨_, .eq hr ht, .eq hr' ht⟩
        | false =>
          by_cases hk : f.kind = .bool
          · exact .inr (.inr ⟨_, _, .flagValue hr hk, .flagValue hr' hk⟩)
          · have := kind_of_not_takes ht hk
            exact .inr (.inr ⟨_, _, .optionalValue hr this, .optionalValue hr' this⟩)
      · cases hq : f.src.requireEquals with
        | true => exact .inr (.inr ⟨_, _, .missingEqAttached hr hq hr0 he, .missingEqAttached hr' hq hr0 he⟩)
        | false =>
          cases ht : takesValue f with
          | true => exact .inl ⟨_, .attached hr ht hq hr0 he, .attached hr' ht hq hr0 he⟩
          | false =>
            rcases cluster_progress cx st post.head? r hr0 with ⟨evs, h⟩ | ⟨evs, v, h1, h⟩ | ⟨evs, e, h⟩
            · exact .inl ⟨_, .more hr ht hq hr0 he h, .more hr' ht hq hr0 he h⟩
            · exact .inr (.inl ⟨_, v, h1, .more hr ht hq hr0 he h, .more hr' ht hq hr0 he h⟩)
            · exact .inr (.inr ⟨_, _, .more hr ht hq hr0 he h, .more hr' ht hq hr0 he h⟩)
  rcases hone with ⟨evs, q1, q2⟩ | ⟨evs, v, hv, q1, q2⟩ | ⟨evs, e, q1, q2⟩
  · exact .inl ⟨_, _, _, .cluster hd1 (h1 he1 q1), .cluster hd1' (h1 he1' q2)⟩
  · obtain ⟨post, rfl⟩ : ∃ p, post = v :: p := by
      cases post with
      | nil => cases hv
      | cons x p => cases hv; exact ⟨p, rfl⟩
    exact .inl ⟨_, _, _, .clusterSep hd1 (h1 he1 q1), .clusterSep hd1' (h1 he1' q2)⟩
  · exact .inr ⟨_, _, .cluster hd1 (h2 hn he1 q1), .cluster hd1' (h2 hn' he1' q2)⟩

/-- C83: a long and a short name of an argument can be exchanged, with the value as the next argument or none; and with the value
after `=`, except for `Option<Option<T>>`, where the code rejects `-c=v` (C32). -/
theorem C83_long_short (hd : DerivedArgs cx d) (hpre : Reads cx (start argv0 d) pre evs ⟨st, k, .opts⟩)
    {n : Str} {c : Char} (hr : Resolves cx st (.long n) a f) (hr' : Resolves cx st (.short c) a f) (post : List Bytes) :
    tryParseFrom d (argv0 :: pre ++ enc ('-' :: '-' :: n) :: post) = tryParseFrom d (argv0 :: pre ++ enc ['-', c] :: post)
    ∧ (f.kind ≠ .optionOption → ∀ v : Bytes,
      tryParseFrom d (argv0 :: pre ++ (enc ('-' :: '-' :: n) ++ eqSign :: v) :: post)
        = tryParseFrom d (argv0 :: pre ++ (enc ['-', c] ++ eqSign :: v) :: post)) := by
  have hwf := (stack_wf hd.wf (reads_steps hpre)).1
  obtain ⟨h1, h2⟩ := hwf.long hr
  obtain ⟨hc1, hc2⟩ := hwf.short hr'
  have henc : enc ['-', c] = dash :: encChar c := by
    rw [enc_cons, enc_cons, enc_nil, List.append_nil]; rfl
  have hd0 : (encChar c).head? ≠ some dash := by simpa using encChar_head_ne_dash hc1 []
  rw [henc]
  refine ⟨outcome_alike hd hpre ?_, fun hoo v => outcome_alike hd hpre ?_⟩
  · cases hv : takesValue f with
    | false => exact .inl ⟨_, _, _, .longBare hr h2 h1 hv, .cluster hd0 (.bare hr' hv)⟩
    | true =>
      cases hq : f.src.requireEquals with
      | true => exact .inr ⟨_, _, .missingEq hr h2 h1 hv hq, .cluster hd0 (.missingEq hr' hv hq)⟩
      | false =>
        by_cases hs : ∃ v, post.head? = some v ∧ Standalone f v
        · obtain ⟨v, hv', hs⟩ := hs
          obtain ⟨post, rfl⟩ : ∃ p, post = v :: p := by
            cases post with
            | nil => cases hv'
            | cons x p => cases hv'; exact ⟨p, rfl⟩
          exact .inl ⟨_, _, _, .longSep hr h2 h1 hv hq hs, .clusterSep hd0 (.sep hr' hv hq rfl hs)⟩
        · have hs : ∀ v, post.head? = some v → ¬ Standalone f v := fun v q1 q2 => hs ⟨v, q1, q2⟩
          exact .inr ⟨_, _, .missingValue hr h2 h1 hv hq hs, .cluster hd0 (.missingValue hr' hv hq hs)⟩
  · rw [List.cons_append]
    have hd1 := encChar_head_ne_dash hc1 (eqSign :: v)
    by_cases hk : f.kind = .bool
    · exact .inr ⟨_, _, .flagValue hr h2 hk, .cluster hd1 (.flagValue hr' hk)⟩
    · have ht : takesValue f = true := by
        cases hv : takesValue f with
        | true => rfl
        | false => exact absurd (kind_of_not_takes hv hk) hoo
      exact .inl ⟨_, _, _, .longEq hr h2 hk, .cluster hd1 (.eq hr' ht)⟩

/-- C83, from the declaration: for an argument of the innermost entered command whose names no earlier struct of the command declares
(always so for the fields of the struct itself), `long`, `alias`, `short` and `short_alias` name the same thing. -/
theorem C83_declared (hd : DerivedArgs cx d) {i : CmdId} {e : ArgsDef V}
    (hpre : Reads cx (start argv0 d) pre evs ⟨(i, e) :: st, k, .opts⟩) (hf : (a, f) ∈ fieldsAt st.length e)
    (hu : ∀ n, declares cx f n = true → ∀ y ∈ fieldsAt st.length e, y.1.struct < a.struct → declares cx y.2 n = false)
    (ho : isOption f = true) (post : List Bytes) :
    (∀ n ∈ longNames cx f, ∀ n' ∈ longNames cx f, ∀ tail : Bytes, tail = [] ∨ tail.head? = some eqSign →
      tryParseFrom d (argv0 :: pre ++ (enc ('-' :: '-' :: n) ++ tail) :: post)
        = tryParseFrom d (argv0 :: pre ++ (enc ('-' :: '-' :: n') ++ tail) :: post))
    ∧ (∀ c ∈ shortNames f, ∀ c' ∈ shortNames f, ∀ r : Bytes,
      tryParseFrom d (argv0 :: pre ++ (enc ['-', c] ++ r) :: post) = tryParseFrom d (argv0 :: pre ++ (enc ['-', c'] ++ r) :: post))
    ∧ (∀ n ∈ longNames cx f, ∀ c ∈ shortNames f,
      tryParseFrom d (argv0 :: pre ++ enc ('-' :: '-' :: n) :: post) = tryParseFrom d (argv0 :: pre ++ enc ['-', c] :: post)) := by
  have hwf := (stack_wf hd.wf (reads_steps hpre)).1
  have hl : ∀ n ∈ longNames cx f, Resolves cx ((i, e) :: st) (.long n) a f := fun n hn => by
    have : declares cx f (.long n) = true := by simp [declares, ho, hn]
    exact own_resolves (hwf (i, e) (by simp)) hf this (hu _ this)
  have hs : ∀ c ∈ shortNames f, Resolves cx ((i, e) :: st) (.short c) a f := fun c hc => by
    have : declares cx f (.short c) = true := by simp [declares, ho, hc]
    exact own_resolves (hwf (i, e) (by simp)) hf this (hu _ this)
  have henc : ∀ c, enc ['-', c] = dash :: encChar c := fun c => by
    rw [enc_cons, enc_cons, enc_nil, List.append_nil]; rfl
  refine ⟨fun n hn n' hn' tail ht => C83_long hd hpre (hl n hn) (hl n' hn') ht post, fun c hc c' hc' r => ?_,
    fun n hn c hc => (C83_long_short hd hpre (hl n hn) (hs c hc) post).1⟩
  have := C83_short hd hpre (fl := []) (by simp) (hs c hc) (hs c' hc') r post
  simpa [henc, enc_nil] using this

/-- The option `-c`, `--config` with the alias `--cfg`, below a subcommand. -/
example (post : List Bytes) :
    tryParseFrom Sample.cli (blit "app" :: [blit "-v", blit "add"] ++ blit "--cfg=x" :: post)
      = tryParseFrom Sample.cli (blit "app" :: [blit "-v", blit "add"] ++ blit "--config=x" :: post)
    ∧ tryParseFrom Sample.cli (blit "app" :: [blit "-v", blit "add"] ++ blit "--cfg" :: post)
      = tryParseFrom Sample.cli (blit "app" :: [blit "-v", blit "add"] ++ blit "-c" :: post) := by
  obtain ⟨f, hr, _⟩ := Sample.resolve (fun _ => true)
    (st := [Sample.entry "Add" "add" Sample.add, Sample.root]) (n := .long (lit "config")) (a := ⟨0, 0, 1⟩) (by decide +kernel)
  obtain ⟨g, hg, _⟩ := Sample.resolve (fun _ => true)
    (st := [Sample.entry "Add" "add" Sample.add, Sample.root]) (n := .long (lit "cfg")) (a := ⟨0, 0, 1⟩) (by decide +kernel)
  obtain ⟨h, hh, _⟩ := Sample.resolve (fun _ => true)
    (st := [Sample.entry "Add" "add" Sample.add, Sample.root]) (n := .short 'c') (a := ⟨0, 0, 1⟩) (by decide +kernel)
  have e1 : g = f := Option.some.inj ((resolves_fieldAt hg).symm.trans (resolves_fieldAt hr))
  have e2 : h = f := Option.some.inj ((resolves_fieldAt hh).symm.trans (resolves_fieldAt hr))
  subst e1 e2
  exact ⟨C83_long Sample.cli_derived Sample.reads_add hg hr (tail := blit "=x") (.inr (by decide)) post,
    (C83_long_short Sample.cli_derived Sample.reads_add hg hh post).1⟩

example : Sample.value (Sample.parse ["app", "-v", "add", "--cfg=a=b", "x"]) ["config"] = some (.option (some (lit "a=b")))
    ∧ Sample.value (Sample.parse ["app", "-v", "add", "--config=a=b", "x"]) ["config"] = some (.option (some (lit "a=b"))) := by
  decide +kernel

end Palc
