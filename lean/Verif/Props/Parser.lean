import Verif.Props.Entry
import Verif.Props.Options
import Verif.Props.Consume
import Verif.Props.Derive
import Verif.Lemmas.Output
/-!
# The generated parser knows every declared argument and nothing else (C49)

`Props/Derive.lean` says what the generated data are.  Here the parser runs: every name that the source asks for is recognised
on the command line, and the value that a successful parse returns has exactly the declared fields.
-/

namespace Palc

open Spec

variable {V : Type} {cx : Cx V} {cmeta : Option CommandMeta} {ds : List (FieldDecl V)} {d : ArgsDef V} {argv0 : Bytes}
  {toks : List Bytes} {evs : List Event} {out : Out V}

theorem requested_declares {f : FieldInfo V} {n : Name} (ty : Ty V) (h : n ∈ requestedNames cx (.arg f.ident ty f.src)) :
    declares cx f n = true := by
  rw [requestedNames_eq] at h
  obtain ⟨h1, h2, _⟩ := argField_src cx f.ident ty f.src
  have : fieldNames cx (argField cx f.ident ty f.src).2 = fieldNames cx f := by
    unfold fieldNames isOption longNames shortNames
    rw [h1, h2]
  rw [this] at h
  exact mem_fieldNames.1 h

/-- C49: every name that an argument of the struct is declared with is known to the parser.  Without a value, it is an occurrence
of that argument if its type needs none; otherwise the error is that the value (or the `=`) of that argument is missing. -/
theorem C49_known (hd : DerivedArgs cx d) (h : deriveArgs cx cmeta ds = .ok d) {i : Str} {ty : Ty V} {m : ArgMeta V}
    (hx : .arg i ty m ∈ ds) : ∃ (k : Nat) (f : FieldInfo V), (coreOf d).fields[k]? = some f ∧ f.ident = i ∧ f.src = m ∧ KindOf ty f.kind
      ∧ ∀ n ∈ requestedNames cx (.arg i ty m),
        (takesValue f = false → ∃ κ, After cx d argv0 [nameArg n] [(⟨0, 0, k⟩, none)] κ)
        ∧ (takesValue f = true → tryParseFrom d [argv0, nameArg n]
            = .error (.error { kind := if m.requireEquals then .missingEq else .missingValue, argDesc := some f.description })) := by
  obtain ⟨k, f, hk, rfl, h3, h2⟩ := declared_field h hx
  refine ⟨k, f, hk, rfl, h2, kindOf_iff.2 h3, fun n hn => ?_⟩
  rw [← h2] at hn
  have hwf := hd.wf
  have hst : StackWF cx (start argv0 d).stack := (stack_wf (toks := []) hd.wf .refl).1
  have hf : ((⟨0, 0, k⟩ : Addr), f) ∈ fieldsAt ([] : List (Entry V)).length d := by
    refine fieldsAt_mem_iff.2 ⟨rfl, coreOf d, ?_, hk⟩
    cases d; simp [structs, coreOf]
  have hr : Resolves cx (start argv0 d).stack n ⟨0, 0, k⟩ f :=
    own_resolves hwf hf (requested_declares ty hn) (fun y _ hy => absurd hy (Nat.not_lt_zero _))
  have hacc : Acceptable (start argv0 d).stack [] := by
    intro a g _
    simp [occs, given, content]
  constructor
  · intro ht
    cases n with
    | long l =>
      exact ⟨_, after_reads hd (.longBare hr (hst.long hr).2 (hst.long hr).1 ht .done)⟩
    | short c =>
      exact ⟨_, after_reads hd (by
        have := Reads.cluster (k := 0) (toks := []) (by simpa using encChar_head_ne_dash (hst.short hr).1 []) (.bare hr ht) .done
        rw [List.append_nil] at this
        exact this)⟩
  · intro ht
    have key : ∀ e : Error, Stuck cx (start argv0 d) [nameArg n] [] (about f e) → about f e = { e with argDesc := some f.description } →
        tryParseFrom d [argv0, nameArg n] = .error (.error { e with argDesc := some f.description }) := by
      intro e hs he
      obtain ⟨e', h1, _, h3⟩ := stuck_fails (pre := []) hd .done hs
      rw [h3 (by simpa using hacc), he] at h1
      exact h1
    rw [← h2]
    cases hq : f.src.requireEquals with
    | true =>
      refine key { kind := .missingEq } ?_ (about_resolved hr _)
      cases n with
      | long l => exact .missingEq hr (hst.long hr).2 (hst.long hr).1 ht hq
      | short c => exact .cluster (by simpa using encChar_head_ne_dash (hst.short hr).1 []) (.missingEq hr ht hq)
    | false =>
      refine key { kind := .missingValue } ?_ (about_resolved hr _)
      cases n with
      | long l => exact .missingValue hr (hst.long hr).2 (hst.long hr).1 ht hq (by simp)
      | short c => exact .cluster (by simpa using encChar_head_ne_dash (hst.short hr).1 []) (.missingValue hr ht hq (by simp))

/-- `-v` of the example program needs no value; `--jobs` and `-j` do, and `--level` needs it after `=`. -/
example (argv0 : Bytes) : (∃ (k : Nat) (κ : Ctx Sample.Val), After Sample.cx Sample.cli argv0 [blit "-v"] [(⟨0, 0, k⟩, none)] κ)
    ∧ Sample.failure (Sample.parse ["app", "--jobs"]) = some (.error { kind := .missingValue, argDesc := some (lit "-j, --jobs <JOBS>") })
    ∧ Sample.failure (Sample.parse ["app", "-j"]) = some (.error { kind := .missingValue, argDesc := some (lit "-j, --jobs <JOBS>") })
    ∧ Sample.failure (Sample.parse ["app", "--level"]) = some (.error { kind := .missingEq, argDesc := some (lit "--level=<LEVEL>") }) := by
  refine ⟨?_, by decide +kernel, by decide +kernel, by decide +kernel⟩
  have hx : FieldDecl.arg (lit "verbose") .bool { short := some .inherit, long := some .inherit, global := true } ∈ Sample.cliDecls := by
    simp [Sample.cliDecls]
  obtain ⟨k, f, _, _, _, hk, hn⟩ := C49_known (argv0 := argv0) Sample.cli_derived (Sample.get_ok (by decide)) hx
  obtain ⟨κ, h⟩ := (hn (.short 'v') (by decide)).1 (by rw [kindOf_iff] at hk; simp [takesValue, hk, classify])
  exact ⟨k, κ, h⟩

/-! ## The result -/

theorem outFields_idents {os : Nat → List (Option Bytes)} {i0 : Nat} {fs : List (FieldInfo V)} {xs : List (Str × Out V)}
    (h : outFields os i0 fs = some xs) : xs.map (·.1) = fs.map (·.ident) := by
  induction fs generalizing i0 xs with
  | nil => simp [outFields] at h; subst h; rfl
  | cons f fs ih =>
    rw [outFields] at h
    split at h
    · rename_i o r _ h2
      cases h
      simp [ih h2]
    · cases h

theorem outFlats_idents : (l : List (Str × ArgsDef V)) → {os : Nat → Nat → List (Option Bytes)} → {s : Nat} → {xs : List (Str × Out V)} →
    outFlats os s (Flats.ofList l) = some xs → xs.map (·.1) = l.map (·.1)
  | [], os, s, xs, h => by simp [Flats.ofList, outFlats] at h; subst h; rfl
  | (i, e) :: l, os, s, xs, h => by
    rw [Flats.ofList, outFlats] at h
    split at h
    · rename_i o r _ h2
      cases h
      simp [outFlats_idents l h2]
    · cases h

theorem outSub_idents {sub : SubField V} {o : Option (Out V)} {xs : List (Str × Out V)} (h : outSub sub o = some xs) :
    xs.map (·.1) = (subToList sub).map (·.1) := by
  unfold outSub at h
  split at h <;> simp [subToList] at h ⊢ <;> (subst h; simp)

theorem outAll_root {st : List (Entry V)} {i : CmdId} {sub : Option (Out V)} (h : outAll evs (st ++ [(i, d)]) sub = some out) :
    ∃ os sub', outArgs os 0 sub' d = some out := by
  induction st generalizing sub with
  | nil =>
    simp only [List.nil_append, outAll] at h
    split at h
    · rename_i o ho
      cases h
      exact ⟨_, _, ho⟩
    · cases h
  | cons x st ih =>
    obtain ⟨j, e⟩ := x
    rw [List.cons_append, outAll] at h
    split at h
    · split at h
      · rename_i hh; simp at hh
      · exact ih h
    · cases h

/-- The fields of a Rust struct, by what they are. -/
theorem idents_perm (ds : List (FieldDecl V)) : ((ds.filterMap (fun x => match x with
        | .arg i _ _ => some i
        | _ => none)) ++ (ds.filterMap declFlat).map (·.1) ++ (ds.filterMap declSub).map (·.1)).Perm (ds.map FieldDecl.ident) := by
  induction ds with
  | nil => simp
  | cons x ds ih =>
    cases x with
    | arg i ty m => simpa [List.filterMap_cons, declFlat, declSub, FieldDecl.ident] using ih
    | flatten i e =>
      simp only [List.filterMap_cons, declFlat, declSub, List.map_cons, FieldDecl.ident, List.append_assoc]
      refine List.perm_middle.trans (.cons _ ?_)
      simpa using ih
    | subcommand i o vs =>
      simp only [List.filterMap_cons, declFlat, declSub, List.map_cons, FieldDecl.ident]
      exact List.perm_middle.trans (.cons _ ih)

/-- C49: the value that a successful parse returns has exactly the declared fields, each once. -/
theorem C49_result (hd : DerivedArgs cx d) (h : deriveArgs cx cmeta ds = .ok d) (hok : tryParseFrom d (argv0 :: toks) = .ok out) :
    ∃ xs : List (Str × Out V), out = .struct xs ∧ (xs.map (fun x => x.1)).Perm (ds.map FieldDecl.ident) := by
  obtain ⟨evs, κ, hp⟩ := Parsed.of_ok hd hok
  obtain ⟨ext, he⟩ := steps_stack (reads_steps hp.reads)
  have ho := hp.outAll
  rw [he] at ho
  obtain ⟨os, sub', ha⟩ := outAll_root ho
  have hperm := C49_every_argument_once h
  obtain ⟨core, flats, sub⟩ := d
  have hacc := deriveArgs_ok h
  rw [outArgs] at ha
  split at ha
  · rename_i own fl sb h1 h2 h3
    cases ha
    refine ⟨_, rfl, .trans ?_ (idents_perm ds)⟩
    rw [hacc.flatsEq] at h2
    rw [List.map_append, List.map_append, outFields_idents h1, outFlats_idents _ h2, outSub_idents h3, hacc.subEq]
    refine .append_right _ (.append_right _ ?_)
    have := hperm.map (fun x => x.1)
    rw [List.map_map, List.map_filterMap] at this
    refine this.trans (List.Perm.of_eq (filterMap_congr' ?_))
    intro x _
    cases x <;> rfl
  · cases ha

example : ∃ xs, Sample.parse ["app", "-v", "add", "x"] = .ok (.struct xs)
    ∧ xs.map (fun x : Str × Out Sample.Val => x.1) = [lit "verbose", lit "config", lit "jobs", lit "define", lit "color", lit "level", lit "offset",
        lit "pattern", lit "file", lit "output", lit "cmd"] := by
  have h : (match Sample.parse ["app", "-v", "add", "x"] with
      | .ok (.struct xs) => decide (xs.map (fun x : Str × Out Sample.Val => x.1) = [lit "verbose", lit "config", lit "jobs", lit "define", lit "color",
          lit "level", lit "offset", lit "pattern", lit "file", lit "output", lit "cmd"])
      | _ => false) = true := by decide +kernel
  split at h
  · rename_i xs hx
    exact ⟨xs, hx, by simpa using h⟩
  · cases h

end Palc
