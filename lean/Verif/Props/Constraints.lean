import Verif.Lemmas.Parsed
/-!
# Constraints between arguments (C17, C18, C19, C20, C22)
-/

namespace Palc

open Spec

variable {V : Type} {cx : Cx V} {d : ArgsDef V} {argv0 : Bytes} {toks : List Bytes} {evs : List Event} {κ : Ctx V}
  {out : Out V}

/-- C17: after a successful parse every required argument of every entered command, also in flattened structs, occurred
on the command line: `arg(required)`, or a plain type without default value. -/
theorem C17_required_given (h : Parsed cx d argv0 toks evs κ out) {a : Addr} {f : FieldInfo V}
    (hf : fieldAt κ.stack a = some f)
    (hr : f.src.required = true ∨ (f.kind = .value ∧ f.src.defaultValue = none ∧ f.src.defaultValueT.isNone = true)) :
    ∃ v, (a, v) ∈ evs := by
  obtain ⟨c, sub, hwf, hcf, hs, _⟩ := h.struct hf
  have hw := hwf.fields _ _ hcf
  have hreq : isRequired f = true := by
    unfold isRequired
    rcases hr with hr | ⟨hk, h1, h2⟩
    · cases hd : f.defaultValue with
      | none => simp [hr]
      | some x => have := hw.defaultReq (by simp [hd]); rw [this] at hr; cases hr
    · rw [hw.defaultSrc.2 ⟨h1, h2⟩]; simp [hk]
  exact occs_ne_nil.1 (hs.required _ _ hcf hreq)

/-- A required argument of a subcommand (`paths` of `add`). -/
example : ∃ evs κ out, Parsed Sample.cx Sample.cli (blit "app") (["add", "x"].map blit) evs κ out
    ∧ ∃ f, fieldAt κ.stack ⟨1, 0, 1⟩ = some f ∧ f.src.required = true := by
  obtain ⟨evs, κ, out, h, hp⟩ := Sample.parsed ["add", "x"]
    (fun _ κ _ => (fieldAt κ.stack ⟨1, 0, 1⟩).any (fun f : FieldInfo Sample.Val => f.src.required)) (by decide +kernel)
  rw [Option.any_eq_true] at hp
  exact ⟨evs, κ, out, h, hp⟩

/-- A plain type (`prog` of `run`). -/
example : ∃ evs κ out, Parsed Sample.cx Sample.cli (blit "app") (["run", "x"].map blit) evs κ out
    ∧ ∃ f, fieldAt κ.stack ⟨1, 0, 0⟩ = some f
      ∧ (f.kind = .value ∧ f.src.defaultValue = none ∧ f.src.defaultValueT.isNone = true) := by
  obtain ⟨evs, κ, out, h, hp⟩ := Sample.parsed ["run", "x"]
    (fun _ κ _ => (fieldAt κ.stack ⟨1, 0, 0⟩).any
      (fun f : FieldInfo Sample.Val => decide (f.kind = .value ∧ f.src.defaultValue = none ∧ f.src.defaultValueT.isNone = true))) (by decide +kernel)
  rw [Option.any_eq_true] at hp
  obtain ⟨f, hf, hp⟩ := hp
  exact ⟨evs, κ, out, h, f, hf, by simpa using hp⟩

example : Sample.failure (Sample.parse ["app", "add", "--force"])
    = some (.error { kind := .missingRequiredArgument, argDesc := some (lit "<PATHS>...") }) := by decide +kernel

/-- C18: conflicting arguments (in whichever of the two the conflict is declared) do not both occur. -/
theorem C18_conflicts_exclusive (h : Parsed cx d argv0 toks evs κ out) {ℓ s i j : Nat} {f g : FieldInfo V}
    (hf : fieldAt κ.stack ⟨ℓ, s, i⟩ = some f) (hg : fieldAt κ.stack ⟨ℓ, s, j⟩ = some g)
    (hc : g.ident ∈ f.src.conflictsWith ∨ f.ident ∈ g.src.conflictsWith) :
    ¬ ((∃ v, (⟨ℓ, s, i⟩, v) ∈ evs) ∧ (∃ v, (⟨ℓ, s, j⟩, v) ∈ evs)) := by
  rintro ⟨hv, hw⟩
  obtain ⟨c, sub, hwf, hcf, hs, hall, _⟩ := h.struct hf
  have hcg := (hall j g).2 hg
  rcases hc with hc | hc
  · exact occs_ne_nil.2 hw (hs.conflicts i f hcf (occs_ne_nil.2 hv) _ hc j g hcg rfl)
  · exact occs_ne_nil.2 hv (hs.conflicts j g hcg (occs_ne_nil.2 hw) _ hc i f hcf rfl)

/-- `--offset` conflicts with `--level`; each may be given alone. -/
example : ∃ evs κ out, Parsed Sample.cx Sample.cli (blit "app") (["--level=3"].map blit) evs κ out
    ∧ (∃ v, (⟨0, 0, 5⟩, v) ∈ evs) ∧ ∃ f g, fieldAt κ.stack ⟨0, 0, 6⟩ = some f ∧ fieldAt κ.stack ⟨0, 0, 5⟩ = some g
      ∧ g.ident ∈ f.src.conflictsWith := by
  obtain ⟨evs, κ, out, h, hp⟩ := Sample.parsed ["--level=3"]
    (fun evs κ _ => evs.any (fun e => decide (e.1 = ⟨0, 0, 5⟩)) && (fieldAt κ.stack ⟨0, 0, 6⟩).any (fun f : FieldInfo Sample.Val =>
      (fieldAt κ.stack ⟨0, 0, 5⟩).any (fun g : FieldInfo Sample.Val => decide (g.ident ∈ f.src.conflictsWith)))) (by decide +kernel)
  simp only [Bool.and_eq_true, Option.any_eq_true, List.any_eq_true, decide_eq_true_eq] at hp
  obtain ⟨⟨e, h1, h2⟩, f, hf, g, hg, hc⟩ := hp
  exact ⟨evs, κ, out, h, ⟨e.2, h2 ▸ h1⟩, f, g, hf, hg, hc⟩

example : Sample.failure (Sample.parse ["app", "--level=3", "--offset", "-1"])
      = some (.error { kind := .constraintConflict, argDesc := some (lit "--offset <OFFSET>") })
    ∧ Sample.failure (Sample.parse ["app", "--offset", "-1", "--level=3"])
      = some (.error { kind := .constraintConflict, argDesc := some (lit "--offset <OFFSET>") }) := by decide +kernel

/-- C19: what a given argument requires was given on the command line too. -/
theorem C19_requires_given (h : Parsed cx d argv0 toks evs κ out) {ℓ s i : Nat} {f : FieldInfo V}
    (hf : fieldAt κ.stack ⟨ℓ, s, i⟩ = some f) {v : Option Bytes} (hv : (⟨ℓ, s, i⟩, v) ∈ evs) {x : Str}
    (hx : x ∈ f.src.requires) :
    ∃ j g w, fieldAt κ.stack ⟨ℓ, s, j⟩ = some g ∧ g.ident = x ∧ (⟨ℓ, s, j⟩, w) ∈ evs := by
  obtain ⟨c, sub, hwf, hcf, hs, hall, _⟩ := h.struct hf
  obtain ⟨j, g, h1, h2, h3⟩ := hs.requires i f hcf (occs_ne_nil.2 ⟨v, hv⟩) x hx
  obtain ⟨w, hw⟩ := occs_ne_nil.1 h3
  exact ⟨j, g, w, (hall j g).1 h1, h2, hw⟩

/-- `--pattern` requires `--config`. -/
example : ∃ evs κ out, Parsed Sample.cx Sample.cli (blit "app") (["--pattern", "-x", "-cf"].map blit) evs κ out
    ∧ ∃ f v, fieldAt κ.stack ⟨0, 0, 7⟩ = some f ∧ (⟨0, 0, 7⟩, v) ∈ evs ∧ lit "config" ∈ f.src.requires := by
  obtain ⟨evs, κ, out, h, hp⟩ := Sample.parsed ["--pattern", "-x", "-cf"]
    (fun evs κ _ => evs.any (fun e => decide (e.1 = ⟨0, 0, 7⟩)) && (fieldAt κ.stack ⟨0, 0, 7⟩).any (fun f : FieldInfo Sample.Val =>
      decide (lit "config" ∈ f.src.requires))) (by decide +kernel)
  simp only [Bool.and_eq_true, Option.any_eq_true, List.any_eq_true, decide_eq_true_eq] at hp
  obtain ⟨⟨e, h1, h2⟩, f, hf, hc⟩ := hp
  exact ⟨evs, κ, out, h, f, e.2, hf, h2 ▸ h1, hc⟩

example : Sample.failure (Sample.parse ["app", "--pattern", "-x"])
    = some (.error { kind := .constraintRequired, argDesc := some (lit "-c, --config <CONFIG>") }) := by decide +kernel

/-- C20: with an exclusive argument no other own argument of its struct occurs, and no subcommand was entered if the
struct is that of the command itself. -/
theorem C20_exclusive_alone (h : Parsed cx d argv0 toks evs κ out) {ℓ s i : Nat} {f : FieldInfo V}
    (hf : fieldAt κ.stack ⟨ℓ, s, i⟩ = some f) (hx : f.src.exclusive = true) {v : Option Bytes}
    (hv : (⟨ℓ, s, i⟩, v) ∈ evs) :
    (∀ j w, (⟨ℓ, s, j⟩, w) ∈ evs → j = i) ∧ (s = 0 → κ.stack.length = ℓ + 1) := by
  obtain ⟨c, sub, hwf, hcf, hs, hall, hlen⟩ := h.struct hf
  obtain ⟨h1, h2⟩ := hs.exclusive i f hcf (occs_ne_nil.2 ⟨v, hv⟩) hx
  refine ⟨fun j w hw => ?_, fun h0 => hlen h2 h0⟩
  obtain ⟨g, hg⟩ := steps_fields (reads_steps h.reads) (start_mode _ _) _ hw
  have hg := (hall j g).2 hg
  exact h1 j (by
    rw [List.getElem?_eq_some_iff] at hg
    exact hg.1) (occs_ne_nil.2 ⟨w, hw⟩)

/-- C20: the count of given arguments fits its type, whatever was given. -/
theorem C20_count_fits (hd : DerivedArgs cx d) {c : Core V} (hc : c ∈ structs d) (places : List (Place V)) (sub : Bool) :
    totalArgs (c.fields.zip places) sub
      = .ok (((c.fields.zip places).filter (fun x => x.2.isSet)).length + if sub then 1 else 0) := by
  have hlen := (WFArgs.structs d hd.wf c hc).len
  have h1 := List.length_filter_le (fun x : FieldInfo V × Place V => x.2.isSet) (c.fields.zip places)
  have h2 : (c.fields.zip places).length ≤ c.fields.length := by simp [List.length_zip]; omega
  unfold totalArgs
  simp only
  rw [if_pos (by split <;> omega)]

/-- `drop --all`. -/
example : ∃ evs κ out, Parsed Sample.cx Sample.cli (blit "app") (["-v", "drop", "--all"].map blit) evs κ out
    ∧ ∃ f v, fieldAt κ.stack ⟨1, 0, 0⟩ = some f ∧ f.src.exclusive = true ∧ (⟨1, 0, 0⟩, v) ∈ evs := by
  obtain ⟨evs, κ, out, h, hp⟩ := Sample.parsed ["-v", "drop", "--all"]
    (fun evs κ _ => evs.any (fun e => decide (e.1 = ⟨1, 0, 0⟩)) && (fieldAt κ.stack ⟨1, 0, 0⟩).any (fun f : FieldInfo Sample.Val =>
      f.src.exclusive)) (by decide +kernel)
  simp only [Bool.and_eq_true, Option.any_eq_true, List.any_eq_true, decide_eq_true_eq] at hp
  obtain ⟨⟨e, h1, h2⟩, f, hf, hc⟩ := hp
  exact ⟨evs, κ, out, h, f, e.2, hf, hc, h2 ▸ h1⟩

example : Sample.failure (Sample.parse ["app", "drop", "--all", "-s"])
    = some (.error { kind := .constraintExclusive, argDesc := some (lit "--all") }) := by decide +kernel

/-- C22: of every entered command with a subcommand field that is not an `Option`, a subcommand was entered; an `Option`
field is `None` exactly if none was. -/
theorem C22_subcommand_selected (h : Parsed cx d argv0 toks evs κ out) {pre outer : List (Entry V)} {i : CmdId}
    {e : ArgsDef V} (hst : κ.stack = pre ++ (i, e) :: outer) {ident : Str} {optional : Bool} {vs : Variants V}
    (hs : subOf e = .some ident optional vs) :
    (optional = false → pre ≠ [])
      ∧ (optional = true → ∃ fs o, commandAt ((i, e) :: outer) out = some (.struct fs)
          ∧ fs.getLast? = some (ident, .optSub o) ∧ (o = none ↔ pre = [])) := by
  have hlev := allOk_level (hst ▸ h.allOk)
  constructor
  · intro ho hp
    have := hlev.subcommand (by simp [subRequired, hs, ho])
    rw [if_pos hp] at this
    cases this
  · intro ho
    obtain ⟨o, sub', h1, h2, h3, h4⟩ := outAll_at h.path h.outAll h.ne_nil pre i e outer hst
    obtain ⟨core, flats, subF⟩ := e
    simp only [subOf] at hs
    subst hs ho
    rw [outArgs] at h1
    split at h1
    · rename_i own fl sb e1 e2 e3
      cases h1
      simp only [outSub] at e3
      cases e3
      refine ⟨_, sub', h2, by simp, ?_⟩
      constructor
      · intro hn
        rcases List.eq_nil_or_concat pre with hp | ⟨p, ⟨j, e⟩, hp⟩
        · exact hp
        · obtain ⟨o', h5, _⟩ := h4 p j e (by rw [hp, List.concat_eq_append])
          rw [h5] at hn; cases hn
      · exact h3
    · simp at h1

/-- An optional subcommand field, without and with a subcommand. -/
example : ∀ args ∈ [["-v"], ["-v", "status"]], ∃ evs κ out pre i e ident vs,
    Parsed Sample.cx Sample.cli (blit "app") (args.map blit) evs κ out ∧ κ.stack = pre ++ [(i, e)]
      ∧ subOf e = .some ident true vs := by
  have hs : ∃ vs, subOf Sample.cli = .some (lit "cmd") true vs := ⟨_, rfl⟩
  obtain ⟨vs, hs⟩ := hs
  intro args ha
  have : Sample.check args (fun _ κ _ => true) = true := by
    simp only [List.mem_cons, List.not_mem_nil, or_false] at ha
    rcases ha with rfl | rfl <;> decide +kernel
  obtain ⟨evs, κ, out, h, _⟩ := Sample.parsed args _ this
  obtain ⟨ext, he⟩ := steps_stack (reads_steps h.reads)
  exact ⟨evs, κ, out, ext, _, _, _, _, h, he, hs⟩

end Palc
