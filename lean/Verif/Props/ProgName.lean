import Verif.Lemmas.Path
import Verif.Props.Help
import Verif.Props.Request
import Verif.Props.Consume
import Verif.Props.NoPanic
/-!
# C85: the name of the program in help texts
-/

namespace Palc

open Spec

variable {V : Type} {cx : Cx V} {d : ArgsDef V} {argv0 : Bytes} {toks : List Bytes}

theorem progName_spec {n : Bytes} {s : Str} (hn : FileNameOf argv0 n) (hs : Decoded n s) : progName argv0 = s := by
  rw [progName, nameOf_eq hn, decoded_eq hs]

/-- C85: every help text, of every command, has a usage line that begins with the name of the program: the final component of
the path in `argv[0]` (all of `argv[0]` if it has none), with replacement characters for what is not UTF-8.  Before it is only
the description of the command. -/
theorem C85_shown {n : Bytes} {s : Str} (hn : FileNameOf argv0 n) (hs : Decoded n s) (hd : DerivedArgs cx d) {e : Error}
    (h : tryParseFrom d (argv0 :: toks) = .error (.error e)) (hk : e.kind = .help) :
    ∃ c rest, Command d c
      ∧ e.help = some ((if aboutText (coreOf c).cmdMeta = [] then [] else aboutText (coreOf c).cmdMeta ++ lit "\n\n")
        ++ lit "Usage: " ++ s ++ rest) := by
  obtain ⟨pre, tok, ts, evs1, st, k, rfl, hr, ⟨_, i, c, outer, text, rest, rfl, h1, h2⟩, _⟩ := C35_help_only hd h hk
  obtain ⟨us, _, _, _, h3, _⟩ := steps_uses (reads_steps hr)
  refine ⟨c, (us.filterMap Use.sub?).flatMap (fun n => ' ' :: n) ++ rest, command_of_reads hr _ (List.mem_cons_self ..), ?_⟩
  have h4 : commandPath ((i, c) :: outer) = s :: us.filterMap Use.sub? := by
    have h3' : ((i, c) :: outer).map (·.1.name) = (us.filterMap Use.sub?).reverse ++ [progName argv0] := h3
    unfold commandPath
    rw [h3', progName_spec hn hs]
    simp
  rw [h1, h2, h4]
  simp [lit]

/-- C85: the help of the program itself, in full. -/
theorem C85_help {n : Bytes} {s : Str} (hn : FileNameOf argv0 n) (hs : Decoded n s) (hd : DerivedArgs cx d)
    (hh : ¬ OwnHelp cx d) (h0 : ∀ v ∈ subVariants d, Char.ofNat 0 ∉ v.name) (ts : List Bytes) :
    tryParseFrom d (argv0 :: blit "--help" :: ts)
      = .error (.error { kind := .help, help := some (helpPage cx (' ' :: s) d (commandList d)) }) := by
  have h := C46_request (argv0 := argv0) (pre := []) (ts := ts) (evs := []) (k := 0) hd (.done (κ := start argv0 d))
    (unknown_root.2 hh) (fun a f hf => by simp [occs, given, content]) h0
  rw [show argv0 :: blit "--help" :: ts = argv0 :: [] ++ blit "--help" :: ts from rfl, h]
  simp [commandPath, progName_spec hn hs]

/-- C85: `render_long_help` with a name treats it like `argv[0]`. -/
theorem C85_render {name : Str} {n : Bytes} {s : Str} (hn : FileNameOf (enc name) n) (hs : Decoded n s) (hd : DerivedArgs cx d)
    (hh : ¬ OwnHelp cx d) (h0 : ∀ v ∈ subVariants d, Char.ofNat 0 ∉ v.name) :
    renderLongHelp d name = .ok (helpPage cx (' ' :: s) d (commandList d)) := by
  obtain ⟨shown, h1, h2⟩ := C46_render hd hh h0 name
  have : progName (enc name) = shown := by
    simp only [start, List.cons.injEq, Prod.mk.injEq, CmdId.mk.injEq] at h1
    exact h1.1.1.2
  rw [h2, ← this, progName_spec hn hs]

/-- C85: the name of the program is determined by `argv[0]`. -/
theorem C85_determined (argv0 : Bytes) :
    ∃ s, (∃ n, FileNameOf argv0 n ∧ Decoded n s) ∧ ∀ s', (∃ n, FileNameOf argv0 n ∧ Decoded n s') → s' = s := by
  obtain ⟨n, hn⟩ := nameOf_exists argv0
  obtain ⟨s, hs⟩ := decoded_exists n
  refine ⟨s, ⟨n, hn, hs⟩, ?_⟩
  rintro s' ⟨n', hn', hs'⟩
  have : n' = n := by rw [← nameOf_eq hn', nameOf_eq hn]
  subst this
  rw [← decoded_eq hs', decoded_eq hs]

/-! ## The names of common paths -/

theorem decoded_enc (s : Str) : Decoded (enc s) s := by
  induction s with
  | nil => exact .nil
  | cons c s ih => rw [enc_cons]; exact .char c ih

/-- C85: for a path that ends with a file name in UTF-8, the name of the program is that file name: the outcome is the same as
for the file name alone. -/
theorem C85_path {dir : Bytes} {s : Str} (hs : '/' ∉ s) (h0 : s ≠ []) (h1 : s ≠ ['.']) (h2 : s ≠ ['.', '.']) :
    FileNameOf (dir ++ 47 :: enc s) (enc s) ∧ FileNameOf (enc s) (enc s) ∧ Decoded (enc s) s
      ∧ tryParseFrom d ((dir ++ 47 :: enc s) :: toks) = tryParseFrom d (enc s :: toks) := by
  have h47 : (47 : UInt8) ∉ enc s := fun h => hs ((mem_enc_ascii (s := s) (c := '/') (by decide)).1 h)
  have g0 : enc s ≠ [] := fun h => h0 (enc_eq_nil.1 h)
  have g1 : enc s ≠ [46] := fun h => h1 (enc_injective (h.trans (show [46] = enc ['.'] by decide)))
  have g2 : enc s ≠ [46, 46] := fun h => h2 (enc_injective (h.trans (show [46, 46] = enc ['.', '.'] by decide)))
  have n1 : FileNameOf (dir ++ 47 :: enc s) (enc s) :=
    .inl ⟨⟨dir ++ [47], [], by simp, .inr ⟨dir, rfl⟩, h47, g0, g1, .nil⟩, g2⟩
  have n2 : FileNameOf (enc s) (enc s) := .inl ⟨⟨[], [], by simp, .inl rfl, h47, g0, g1, .nil⟩, g2⟩
  refine ⟨n1, n2, decoded_enc s, ?_⟩
  unfold tryParseFrom
  simp only [nameOf_eq n1, nameOf_eq n2]

namespace Sample

/-- `/usr/bin/app/.` is shown as `app`. -/
example : FileNameOf (blit "/usr/bin/app/.") (blit "app") ∧ Decoded (blit "app") (lit "app") :=
  ⟨.inl ⟨⟨blit "/usr/bin/", blit "/.", by decide, .inr ⟨blit "/usr/bin", by decide⟩, by decide, by decide, by decide,
    .dot .nil⟩, by decide⟩, decoded_enc _⟩

/-- `bin/..` has no file name and is shown in full. -/
example : FileNameOf (blit "bin/..") (blit "bin/..") :=
  .inr ⟨rfl, .inl ⟨blit "bin/", [], by decide, .inr ⟨blit "bin", by decide⟩, by decide, by decide, by decide, .nil⟩⟩

/-- A byte that is no UTF-8 in the name. -/
example : Decoded [97, 0xE2, 0x82, 98] (lit "a\uFFFDb") := by
  obtain ⟨s, hs⟩ := decoded_exists [97, 0xE2, 0x82, 98]
  have : s = lit "a\uFFFDb" := by rw [← decoded_eq hs]; decide +kernel
  rwa [← this]

/-- The help of `tool`, started by its path. -/
example : failure (parse ["/opt/app", "--help"]) = failure (parse ["app", "--help"])
    ∧ failure (parse ["/opt/app", "--help"]) ≠ failure (parse ["/opt/tool", "--help"]) := by decide +kernel

end Sample

end Palc
