import Verif.Lemmas.Regroup
import Verif.Props.ValueProps
import Verif.Props.Commute
/-!
# Delimited lists at once or piece by piece (C92)

The values of an argument with `value_delimiter` can be given in one occurrence, joined with the delimiter, or in one occurrence each,
or in any grouping in between.  The outcome is the same, whatever it is: also the error, if one of the pieces is not acceptable, if
other arguments are not, or if a constraint is violated.
-/

namespace Palc

open Spec

variable {V : Type} {cx : Cx V} {d : ArgsDef V} {argv0 : Bytes}

/-- Arguments `u` giving the pieces `ps` joined may be replaced by arguments `us` giving them one by one.  This is
for all delimiters, except letters together with `ignore_case` (finding 5), for which it is false (`C92_letter_delimiter`). -/
theorem C92_at_once (hd : DerivedArgs cx d) {pre u us : List Bytes} {evs : List Event} {κ κ' : Ctx V}
    (hpre : Reads cx (start argv0 d) pre evs κ) {a : Addr} {f : FieldInfo V} (hf : fieldAt κ'.stack a = some f) {c : Char}
    (hc : f.src.valueDelimiter = some c) (hl : f.src.ignoreCase = true → ¬ isLetter c) {ps : List Bytes} (hne : ps ≠ [])
    (hp : ∀ p ∈ ps, ¬ encChar c <:+: p) (hu : Reads cx κ u [(a, some (List.intercalate (encChar c) ps))] κ')
    (hus : Reads cx κ us (ps.map (fun p => (a, some p))) κ') (post : List Bytes) :
    tryParseFrom d (argv0 :: pre ++ u ++ post) = tryParseFrom d (argv0 :: pre ++ us ++ post) := by
  have h1 := steps_append (reads_steps (reads_append hpre hu)) post
  have h2 := steps_append (reads_steps (reads_append hpre hus)) post
  have hw := ((stack_wf hd.wf (reads_steps (reads_append hpre hu))).1.field hf).toFieldPre
  have hdel : f.valueDelimiter = some c := by rw [hw.delim, hc]
  have hm : isMulti f = true := hw.delimMulti (by rw [hdel]; rfl)
  have hj : Joined f (List.intercalate (encChar c) ps) ps := by
    refine Joined.of hm hdel (fun hi => ?_) hne hp
    have := hl hi
    unfold isLetter at this
    exact ⟨fun h => this (.inl h), fun h => this (.inr h)⟩
  have e : ∀ x : List Bytes, argv0 :: pre ++ x ++ post = argv0 :: (pre ++ x ++ post) := fun x => by simp
  rw [e, e]
  exact outcome_joined hd.wf hj hf h1 h2

/-- Likewise for any number of occurrences, given in the same way: all may be taken apart. -/
theorem C92_apart (hd : DerivedArgs cx d) {pre : List Bytes} {evs : List Event} {κ : Ctx V}
    (hpre : Reads cx (start argv0 d) pre evs κ) {a : Addr} {f : FieldInfo V} (hf : fieldAt κ.stack a = some f) {c : Char}
    (hc : f.src.valueDelimiter = some c) (hl : f.src.ignoreCase = true → ¬ isLetter c) {gs : List (List Bytes)} (hne : [] ∉ gs)
    (hp : ∀ g ∈ gs, ∀ p ∈ g, ¬ encChar c <:+: p) {tok : Bytes → List Bytes}
    (htok : ∀ v, Reads cx κ (tok v) [(a, some v)] κ) (post : List Bytes) :
    tryParseFrom d (argv0 :: pre ++ gs.flatMap (fun g => tok (List.intercalate (encChar c) g)) ++ post)
      = tryParseFrom d (argv0 :: pre ++ gs.flatten.flatMap tok ++ post) := by
  have hmany : ∀ ps : List Bytes, Reads cx κ (ps.flatMap tok) (ps.map (fun p => (a, some p))) κ := by
    intro ps
    induction ps with
    | nil => exact .done
    | cons p ps ih => exact reads_append (htok p) ih
  induction gs generalizing pre evs with
  | nil => rfl
  | cons g gs ih =>
    have hg : g ≠ [] := fun h => hne (h ▸ List.mem_cons_self)
    have h1 := C92_at_once hd hpre hf hc hl hg (hp g List.mem_cons_self) (htok _) (hmany g)
      (gs.flatMap (fun g => tok (List.intercalate (encChar c) g)) ++ post)
    have h2 := ih (reads_append hpre (hmany g)) (fun h => hne (List.mem_cons_of_mem _ h))
      (fun g' hg' => hp g' (List.mem_cons_of_mem _ hg'))
    have e1 : argv0 :: pre ++ (g :: gs).flatMap (fun g => tok (List.intercalate (encChar c) g)) ++ post
        = argv0 :: pre ++ tok (List.intercalate (encChar c) g) ++ (gs.flatMap (fun g => tok (List.intercalate (encChar c) g)) ++ post) := by
      simp
    have e2 : argv0 :: pre ++ g.flatMap tok ++ (gs.flatMap (fun g => tok (List.intercalate (encChar c) g)) ++ post)
        = argv0 :: (pre ++ g.flatMap tok) ++ gs.flatMap (fun g => tok (List.intercalate (encChar c) g)) ++ post := by simp
    have e3 : argv0 :: pre ++ (g :: gs).flatten.flatMap tok ++ post
        = argv0 :: (pre ++ g.flatMap tok) ++ gs.flatten.flatMap tok ++ post := by simp
    rw [e1, h1, e2, h2, e3]

/-- For an option with a long name: any two groupings of the same pieces, `--name=a,b --name=c` and `--name=a --name=b,c`. -/
theorem C92_regroup (hd : DerivedArgs cx d) {pre : List Bytes} {evs : List Event} {st : List (Entry V)} {k : Nat}
    (hpre : Reads cx (start argv0 d) pre evs ⟨st, k, .opts⟩) {n : Str} {a : Addr} {f : FieldInfo V}
    (hr : Resolves cx st (.long n) a f) {c : Char} (hc : f.src.valueDelimiter = some c)
    (hl : f.src.ignoreCase = true → ¬ isLetter c) {gs hs : List (List Bytes)} (hg : [] ∉ gs) (hh : [] ∉ hs)
    (he : gs.flatten = hs.flatten) (hp : ∀ p ∈ gs.flatten, ¬ encChar c <:+: p) (post : List Bytes) :
    tryParseFrom d (argv0 :: pre ++ gs.map (fun g => enc ('-' :: '-' :: n) ++ eqSign :: List.intercalate (encChar c) g) ++ post)
      = tryParseFrom d (argv0 :: pre ++ hs.map (fun g => enc ('-' :: '-' :: n) ++ eqSign :: List.intercalate (encChar c) g) ++ post) := by
  have hwf := (stack_wf hd.wf (reads_steps hpre)).1
  have hf := resolves_fieldAt hr
  have hw := (hwf.field hf).toFieldPre
  have hk : f.kind ≠ .bool := by
    intro h
    have := hw.delimMulti (by rw [hw.delim, hc]; rfl)
    simp [isMulti, h] at this
  have htok : ∀ v, Reads cx ⟨st, k, .opts⟩ [enc ('-' :: '-' :: n) ++ eqSign :: v] [(a, some v)] ⟨st, k, .opts⟩ :=
    fun v => .longEq hr (hwf.long hr).2 hk .done
  have key : ∀ gs : List (List Bytes), [] ∉ gs → (∀ p ∈ gs.flatten, ¬ encChar c <:+: p) →
      tryParseFrom d (argv0 :: pre ++ gs.map (fun g => enc ('-' :: '-' :: n) ++ eqSign :: List.intercalate (encChar c) g) ++ post)
        = tryParseFrom d (argv0 :: pre ++ gs.flatten.flatMap (fun v => [enc ('-' :: '-' :: n) ++ eqSign :: v]) ++ post) := by
    intro gs hg hp
    have := C92_apart hd hpre hf hc hl hg
      (fun g hg' p hp' => hp p (List.mem_flatten.2 ⟨g, hg', hp'⟩)) htok post
    rw [← this]
    congr 4
    induction gs with
    | nil => rfl
    | cons g gs ih =>
      rw [List.map_cons, List.flatMap_cons]
      rw [← List.flatMap_singleton' (gs.map _), List.flatMap_map]
      rfl
  rw [key gs hg hp, key hs hh (he ▸ hp), he]

/-- With `ignore_case` and a letter as delimiter (finding 5) the two differ: the values are lower-cased before they are split. -/
theorem C92_letter_delimiter : DerivedArgs Sample.cx (Sample.letterCli 'Z')
    ∧ (∀ p ∈ ([("json" : String), "text"].map blit), ¬ encChar 'Z' <:+: p)
    ∧ List.intercalate (encChar 'Z') ([("json" : String), "text"].map blit) = blit "jsonZtext"
    ∧ Sample.failure (tryParseFrom (Sample.letterCli 'Z') (["app", "--formats=jsonZtext"].map blit)) ≠ none
    ∧ Sample.value (tryParseFrom (Sample.letterCli 'Z') (["app", "--formats=json", "--formats=text"].map blit)) ["formats"]
      = some (.vec [lit "Json", lit "Text"]) :=
  ⟨Sample.derived_leaf (by decide) (by decide), by decide +kernel, by decide +kernel, by decide +kernel, by decide +kernel⟩

/-! ## Cases -/

/-- `-D a,b` and `-D a -D b`, whatever follows. -/
example (post : List Bytes) :
    tryParseFrom Sample.cli (blit "app" :: [] ++ [blit "-D", blit "a,b"] ++ post)
      = tryParseFrom Sample.cli (blit "app" :: [] ++ [blit "-D", blit "a", blit "-D", blit "b"] ++ post) := by
  have h0 : Reads Sample.cx (start (blit "app") Sample.cli) [] [] ⟨[Sample.root], 0, .opts⟩ := by rw [Sample.start_app]; exact .done
  obtain ⟨f, hr, hq⟩ := Sample.resolve (fun f => takesValue f && !f.src.requireEquals && decide (f.src.valueDelimiter = some ',')
    && !f.src.ignoreCase) (st := [Sample.root]) (n := .short 'D') (a := ⟨0, 0, 3⟩) (by decide +kernel)
  simp only [Bool.and_eq_true, Bool.not_eq_true', decide_eq_true_eq] at hq
  have htok : ∀ v, Standalone f v → Reads Sample.cx ⟨[Sample.root], 0, .opts⟩ [blit "-D", v] [(⟨0, 0, 3⟩, some v)] ⟨[Sample.root], 0, .opts⟩ :=
    fun v hv => .clusterSep (b := encChar 'D') (evs := [_]) (by decide) (.sep hr hq.1.1.1 hq.1.1.2 rfl hv) .done
  exact C92_at_once Sample.cli_derived h0 (resolves_fieldAt hr) hq.1.2 (by rw [hq.2]; exact nofun)
    (ps := [blit "a", blit "b"]) (by decide) (by decide +kernel)
    (by exact htok (blit "a,b") (.inl (.inl (by decide))))
    (reads_append (htok (blit "a") (.inl (.inl (by decide)))) (htok (blit "b") (.inl (.inl (by decide))))) post

/-- Any grouping of the same pieces: here of `--formats` with `ignore_case` and the delimiter `,`. -/
example (a b c : Bytes) (ha : ¬ encChar ',' <:+: a) (hb : ¬ encChar ',' <:+: b) (hc : ¬ encChar ',' <:+: c) (post : List Bytes) :
    tryParseFrom (Sample.letterCli ',') (blit "app" :: [] ++ [blit "--formats=" ++ (a ++ encChar ',' ++ b), blit "--formats=" ++ c] ++ post)
      = tryParseFrom (Sample.letterCli ',') (blit "app" :: [] ++ [blit "--formats=" ++ a, blit "--formats=" ++ (b ++ encChar ',' ++ c)] ++ post) := by
  have hD : DerivedArgs Sample.cx (Sample.letterCli ',') := Sample.derived_leaf (by decide) (by decide)
  have h0 : Reads Sample.cx (start (blit "app") (Sample.letterCli ',')) [] [] (start (blit "app") (Sample.letterCli ',')) := .done
  obtain ⟨f, hr, hq⟩ := Sample.resolve (fun f => decide (f.src.valueDelimiter = some ','))
    (st := (start (blit "app") (Sample.letterCli ',')).stack) (n := .long (lit "formats")) (a := ⟨0, 0, 0⟩) (by decide +kernel)
  simp only [decide_eq_true_eq] at hq
  have h := C92_regroup hD h0 hr hq (fun _ => by unfold isLetter; decide) (gs := [[a, b], [c]]) (hs := [[a], [b, c]])
    (by simp) (by simp) rfl (by simp [ha, hb, hc]) post
  have e : ∀ v : Bytes, blit "--formats=" ++ v = enc ('-' :: '-' :: lit "formats") ++ eqSign :: v := by
    intro v
    rw [show blit "--formats=" = enc ('-' :: '-' :: lit "formats") ++ [eqSign] by decide]
    simp
  simp only [e]
  simpa [List.intercalate] using h

example : Sample.value (Sample.parse ["app", "-D", "a,b", "-Dc"]) ["define"] = Sample.value (Sample.parse ["app", "-Da", "-Db,c"]) ["define"]
    ∧ Sample.value (Sample.parse ["app", "-D", "a,b", "-Dc"]) ["define"] = some (.vec [lit "a", lit "b", lit "c"]) := by
  decide +kernel

/-- Also the error is the same: that of the first bad piece. -/
example : Sample.failure (tryParseFrom (Sample.letterCli ',') (["app", "--formats=json,x,y"].map blit))
      = Sample.failure (tryParseFrom (Sample.letterCli ',') (["app", "--formats=json", "--formats=x", "--formats=y"].map blit))
    ∧ Sample.failure (tryParseFrom (Sample.letterCli ',') (["app", "--formats=json,x,y"].map blit)) ≠ none := by decide +kernel

end Palc
