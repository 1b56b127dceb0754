import Verif.Lemmas.Commute
import Verif.Example
/-!
# The order of occurrences of different arguments (C08)
-/

namespace Palc

open Spec

variable {V : Type} {cx : Cx V} {d : ArgsDef V} {argv0 : Bytes}

/-- C08: arguments `xs` that are read as the same occurrences in two contexts (options always are, unless a subcommand in between
hides them) may be moved over the arguments `ys` leading from the first context to the second, if `ys` does not contain
occurrences of the same fields.  A successful outcome stays the same; a failure stays the same unless both are about an
unacceptable value. -/
theorem C08_move (hd : DerivedArgs cx d) {pre xs ys : List Bytes} {evs ex ey : List Event} {κ κ' : Ctx V}
    (hpre : Reads cx (start argv0 d) pre evs κ) (hx : Reads cx κ xs ex κ) (hy : Reads cx κ ys ey κ')
    (hx' : Reads cx κ' xs ex κ') (hdis : ∀ x ∈ ex, ∀ y ∈ ey, x.1 ≠ y.1) (post : List Bytes) :
    (∀ out, tryParseFrom d (argv0 :: pre ++ (xs ++ ys) ++ post) = .ok out
        ↔ tryParseFrom d (argv0 :: pre ++ (ys ++ xs) ++ post) = .ok out)
    ∧ ∀ x, tryParseFrom d (argv0 :: pre ++ (xs ++ ys) ++ post) = .error x →
        tryParseFrom d (argv0 :: pre ++ (ys ++ xs) ++ post) = .error x
        ∨ ∃ e e', x = .error e ∧ tryParseFrom d (argv0 :: pre ++ (ys ++ xs) ++ post) = .error (.error e')
          ∧ (e.kind = .invalidValue ∨ e.kind = .duplicatedNamedArgument ∨ e.kind = .unexpectedInlineValue)
          ∧ (e'.kind = .invalidValue ∨ e'.kind = .duplicatedNamedArgument ∨ e'.kind = .unexpectedInlineValue) := by
  have h1 := steps_append (reads_steps (reads_append hpre (reads_append hx hy))) post
  have h2 := steps_append (reads_steps (reads_append hpre (reads_append hy hx'))) post
  have hk : ∀ k : ErrorKind, k.ofValue = true → k = .invalidValue ∨ k = .duplicatedNamedArgument ∨ k = .unexpectedInlineValue := by
    intro k h
    cases k <;> simp [ErrorKind.ofValue] at h ⊢
  have e1 : argv0 :: pre ++ (xs ++ ys) ++ post = argv0 :: (pre ++ (xs ++ ys) ++ post) := by simp
  have e2 : argv0 :: pre ++ (ys ++ xs) ++ post = argv0 :: (pre ++ (ys ++ xs) ++ post) := by simp
  rw [e1, e2]
  rcases outcome_occs hd.wf h1 h2 (sameOccs_swap evs hdis) with h | ⟨e, e', h, h', hv, hv'⟩
  · exact ⟨fun out => by rw [h], fun x hx => .inl (by rw [← h]; exact hx)⟩
  · refine ⟨fun out => ?_, fun x hx => .inr ⟨e, e', ?_, h', hk _ hv, hk _ hv'⟩⟩
    · rw [h, h']; exact ⟨nofun, nofun⟩
    · rw [h] at hx; cases hx; rfl

/-- The global option in `app --config x add -f ..` may as well follow the subcommand and its own option. -/
example (post : List Bytes) (out : Out Sample.Val) :
    tryParseFrom Sample.cli (blit "app" :: [] ++ ([blit "--config", blit "x"] ++ [blit "add", blit "-f"]) ++ post) = .ok out
      ↔ tryParseFrom Sample.cli (blit "app" :: [] ++ ([blit "add", blit "-f"] ++ [blit "--config", blit "x"]) ++ post) = .ok out := by
  have h0 : Reads Sample.cx (start (blit "app") Sample.cli) [] [] ⟨[Sample.root], 0, .opts⟩ := by rw [Sample.start_app]; exact .done
  have hc : ∀ st : List (Entry Sample.Val), ((visible st).find? (fun x => declares Sample.cx x.2 (.long (lit "config")))).any
        (fun x => decide (x.1 = ⟨0, 0, 1⟩) && (takesValue x.2 && !x.2.src.requireEquals)) = true →
      Reads Sample.cx ⟨st, 0, .opts⟩ [blit "--config", blit "x"] [(⟨0, 0, 1⟩, some (blit "x"))] ⟨st, 0, .opts⟩ := by
    intro st h
    obtain ⟨f, hr, hp⟩ := Sample.resolve (fun f => takesValue f && !f.src.requireEquals) (st := st) h
    simp only [Bool.and_eq_true, Bool.not_eq_true'] at hp
    exact .longSep (n := lit "config") hr (by decide) (by decide) hp.1 hp.2 (.inl (.inl (by decide))) .done
  obtain ⟨g, hg, hq⟩ := Sample.resolve (fun f => !takesValue f) (st := [Sample.entry "Add" "add" Sample.add, Sample.root])
    (n := .short 'f') (a := ⟨1, 0, 0⟩) (by decide +kernel)
  have hy : Reads Sample.cx ⟨[Sample.root], 0, .opts⟩ [blit "add", blit "-f"] [(⟨1, 0, 0⟩, none)]
      ⟨[Sample.entry "Add" "add" Sample.add, Sample.root], 0, .opts⟩ :=
    .sub (v := .args (lit "Add") (lit "add") Sample.add) (Sample.selected (by exact List.mem_cons_self)) (.inl (by decide))
      (.cluster (b := encChar 'f') (evs := [_]) (by decide) (.bare hg (by simpa using hq)) .done)
  exact (C08_move Sample.cli_derived h0 (hc _ (by decide +kernel)) hy (hc _ (by decide +kernel)) (by decide) post).1 out

example : Sample.isOk (Sample.parse ["app", "--config", "x", "add", "-f", "p"]) = true
    ∧ Sample.value (Sample.parse ["app", "add", "-f", "--config", "x", "p"]) ["config"] = some (.option (some (lit "x"))) := by
  decide +kernel

/-- C08: two adjacent complete option occurrences of different arguments may be exchanged. -/
theorem C08_commute (hd : DerivedArgs cx d) {pre xs ys : List Bytes} {evs ex ey : List Event} {st : List (Entry V)} {k : Nat}
    (hpre : Reads cx (start argv0 d) pre evs ⟨st, k, .opts⟩) (hx : Reads cx ⟨st, k, .opts⟩ xs ex ⟨st, k, .opts⟩)
    (hy : Reads cx ⟨st, k, .opts⟩ ys ey ⟨st, k, .opts⟩) (hdis : ∀ x ∈ ex, ∀ y ∈ ey, x.1 ≠ y.1) (post : List Bytes) (out : Out V) :
    tryParseFrom d (argv0 :: pre ++ (xs ++ ys) ++ post) = .ok out
      ↔ tryParseFrom d (argv0 :: pre ++ (ys ++ xs) ++ post) = .ok out :=
  (C08_move hd hpre hx hy hx hdis post).1 out

/-- `-f --config=x` and `--config=x -f`, below a subcommand. -/
example (post : List Bytes) (out : Out Sample.Val) :
    tryParseFrom Sample.cli (blit "app" :: [blit "-v", blit "add"] ++ ([blit "-f"] ++ [blit "--config=x"]) ++ post) = .ok out
      ↔ tryParseFrom Sample.cli (blit "app" :: [blit "-v", blit "add"] ++ ([blit "--config=x"] ++ [blit "-f"]) ++ post) = .ok out := by
  obtain ⟨f, hr, hp⟩ := Sample.resolve (fun f => takesValue f) (st := [Sample.entry "Add" "add" Sample.add, Sample.root])
    (n := .long (lit "config")) (a := ⟨0, 0, 1⟩) (by decide +kernel)
  obtain ⟨g, hg, hq⟩ := Sample.resolve (fun f => !takesValue f) (st := [Sample.entry "Add" "add" Sample.add, Sample.root])
    (n := .short 'f') (a := ⟨1, 0, 0⟩) (by decide +kernel)
  refine C08_commute Sample.cli_derived Sample.reads_add (ex := [(⟨1, 0, 0⟩, none)]) (ey := [(⟨0, 0, 1⟩, some (blit "x"))]) ?_ ?_ (by decide) post out
  · exact .cluster (b := encChar 'f') (evs := [_]) (by decide) (.bare hg (by simpa using hq)) .done
  · exact .longEq (n := lit "config") hr (by decide) (by intro h; simp [takesValue, h] at hp) .done

end Palc
