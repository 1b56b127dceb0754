import Verif.Lemmas.Past
import Verif.Lemmas.Output
import Verif.Props.Commute
/-!
# Global options before and after the name of a subcommand (C89)
-/

namespace Palc

open Spec

variable {V : Type} {cx : Cx V} {d : ArgsDef V} {argv0 : Bytes}

/-- C89: global options given before the name of a subcommand may as well be given right after it, if the subcommand does not declare
one of their names itself.  The outcome is the same in all respects: the same value, or the same error. -/
theorem C89_past_name (hd : DerivedArgs cx d) {pre xs : List Bytes} {evs ex : List Event} {i : CmdId} {e : ArgsDef V} {st : List (Entry V)}
    {k : Nat} {v : Variant V} (hpre : Reads cx (start argv0 d) pre evs ⟨(i, e) :: st, k, .opts⟩)
    (hx : Reads cx ⟨(i, e) :: st, k, .opts⟩ xs ex ⟨(i, e) :: st, k, .opts⟩) (hv : Selected e v) (hp : Plain (enc v.name))
    (hg : ∀ x ∈ ex, ∀ f, fieldAt ((i, e) :: st) x.1 = some f → f.src.global = true
      ∧ ∀ c ∈ structs (variantDef v), ∀ g ∈ c.fields, ∀ n, declares cx f n = true → declares cx g n = false)
    (post : List Bytes) :
    tryParseFrom d (argv0 :: (pre ++ (xs ++ [enc v.name]) ++ post)) = tryParseFrom d (argv0 :: (pre ++ ([enc v.name] ++ xs) ++ post)) := by
  have hy : Reads cx ⟨(i, e) :: st, k, .opts⟩ [enc v.name] [] ⟨[(⟨variantIdent v, v.name⟩, variantDef v)] ++ (i, e) :: st, 0, .opts⟩ :=
    .sub hv hp .done
  have hx' : Reads cx ⟨[(⟨variantIdent v, v.name⟩, variantDef v)] ++ (i, e) :: st, 0, .opts⟩ xs ex
      ⟨[(⟨variantIdent v, v.name⟩, variantDef v)] ++ (i, e) :: st, 0, .opts⟩ := by
    refine reads_elsewhere hx rfl rfl fun x hm n f hr => ?_
    obtain ⟨h1, h2⟩ := hg x hm f (resolves_fieldAt hr)
    refine resolves_below hr h1 fun b g hb hl => ?_
    have hlv : b.level = ((i, e) :: st).length := by have := fieldAt_level hb; simp at this hl ⊢; omega
    simp only [List.cons_append, List.nil_append, fieldAt, if_pos hlv] at hb
    split at hb
    · rename_i c hc
      exact h2 c (List.mem_of_getElem? hc) g (List.mem_of_getElem? hb) n (resolves_declares hr)
    · cases hb
  have h1 := steps_append (reads_steps (reads_append hpre (reads_append hx hy))) post
  have h2 := steps_append (reads_steps (reads_append hpre (reads_append hy hx'))) post
  rw [List.append_nil] at h1
  exact outcome_ext hd.wf h1 h2

/-- C89: conversely, options given right after the name of a subcommand that are read as arguments of enclosing commands may as well be
given right before it, if the command that has the subcommand declares their names only for global arguments. -/
theorem C89_before_name (hd : DerivedArgs cx d) {pre xs : List Bytes} {evs ex : List Event} {i : CmdId} {e : ArgsDef V} {st : List (Entry V)}
    {k : Nat} {v : Variant V} (hpre : Reads cx (start argv0 d) pre evs ⟨(i, e) :: st, k, .opts⟩) (hv : Selected e v)
    (hp : Plain (enc v.name)) (hx : Reads cx ⟨(⟨variantIdent v, v.name⟩, variantDef v) :: (i, e) :: st, 0, .opts⟩ xs ex
      ⟨(⟨variantIdent v, v.name⟩, variantDef v) :: (i, e) :: st, 0, .opts⟩)
    (hg : ∀ x ∈ ex, ∃ f, fieldAt ((i, e) :: st) x.1 = some f
      ∧ ∀ c ∈ structs e, ∀ g ∈ c.fields, ∀ n, declares cx f n = true → declares cx g n = true → g.src.global = true)
    (post : List Bytes) :
    tryParseFrom d (argv0 :: (pre ++ ([enc v.name] ++ xs) ++ post)) = tryParseFrom d (argv0 :: (pre ++ (xs ++ [enc v.name]) ++ post)) := by
  have hy : Reads cx ⟨(i, e) :: st, k, .opts⟩ [enc v.name] [] ⟨(⟨variantIdent v, v.name⟩, variantDef v) :: (i, e) :: st, 0, .opts⟩ :=
    .sub hv hp .done
  have hx' : Reads cx ⟨(i, e) :: st, k, .opts⟩ xs ex ⟨(i, e) :: st, k, .opts⟩ := by
    refine reads_elsewhere hx rfl rfl fun x hm n f hr => ?_
    obtain ⟨f', h1, h2⟩ := hg x hm
    have he : f = f' := by
      have := (resolves_fieldAt hr).symm.trans (fieldAt_ext_some (ext := [_]) h1)
      cases this
      rfl
    subst he
    refine resolves_above (ext := [_]) hr (fieldAt_level h1) fun b g hb hl hdc => ?_
    rw [fieldAt, if_pos (by simpa using hl)] at hb
    split at hb
    · rename_i c hc
      exact h2 c (List.mem_of_getElem? hc) g (List.mem_of_getElem? hb) n (resolves_declares hr) hdc
    · cases hb
  have h1 := steps_append (reads_steps (reads_append hpre (reads_append hx' hy))) post
  have h2 := steps_append (reads_steps (reads_append hpre (reads_append hy hx))) post
  rw [List.append_nil] at h1
  exact outcome_ext hd.wf h2 h1

/-- C89: global options may be moved over any arguments `ys` in which they do not occur, whichever commands are entered in between, if
none of these declares one of their names. -/
theorem C89_past (hd : DerivedArgs cx d) {pre xs ys : List Bytes} {evs ex ey : List Event} {st ext : List (Entry V)} {k k' : Nat}
    (hpre : Reads cx (start argv0 d) pre evs ⟨st, k, .opts⟩) (hx : Reads cx ⟨st, k, .opts⟩ xs ex ⟨st, k, .opts⟩)
    (hy : Reads cx ⟨st, k, .opts⟩ ys ey ⟨ext ++ st, k', .opts⟩) (hdis : ∀ x ∈ ex, ∀ y ∈ ey, x.1 ≠ y.1)
    (hg : ∀ x ∈ ex, ∀ f, fieldAt st x.1 = some f → f.src.global = true
      ∧ ∀ w ∈ ext, ∀ c ∈ structs w.2, ∀ g ∈ c.fields, ∀ n, declares cx f n = true → declares cx g n = false) (post : List Bytes) :
    (∀ out, tryParseFrom d (argv0 :: pre ++ (xs ++ ys) ++ post) = .ok out
        ↔ tryParseFrom d (argv0 :: pre ++ (ys ++ xs) ++ post) = .ok out)
    ∧ ∀ x, tryParseFrom d (argv0 :: pre ++ (xs ++ ys) ++ post) = .error x →
        tryParseFrom d (argv0 :: pre ++ (ys ++ xs) ++ post) = .error x
        ∨ ∃ e e', x = .error e ∧ tryParseFrom d (argv0 :: pre ++ (ys ++ xs) ++ post) = .error (.error e')
          ∧ (e.kind = .invalidValue ∨ e.kind = .duplicatedNamedArgument ∨ e.kind = .unexpectedInlineValue)
          ∧ (e'.kind = .invalidValue ∨ e'.kind = .duplicatedNamedArgument ∨ e'.kind = .unexpectedInlineValue) := by
  refine C08_move hd hpre hx hy ?_ hdis post
  refine reads_elsewhere hx rfl rfl fun x hm n f hr => ?_
  obtain ⟨h1, h2⟩ := hg x hm f (resolves_fieldAt hr)
  refine resolves_below hr h1 fun b g hb hl => ?_
  obtain ⟨l, j, w, outer, c, hst, hlv, hc, hf⟩ := fieldAt_split hb
  have hw : (j, w) ∈ ext := by
    rcases List.append_eq_append_iff.1 hst with ⟨r, h, h'⟩ | ⟨r, h, h'⟩
    · have := congrArg List.length h'
      simp at this
      omega
    · cases r with
      | nil =>
        have := congrArg List.length h'
        simp at this
        omega
      | cons y r =>
        simp only [List.cons_append, List.cons.injEq] at h'
        rw [h, ← h'.1]
        simp
  exact h2 (j, w) hw c (List.mem_of_getElem? hc) g (List.mem_of_getElem? hf) n (resolves_declares hr)

/-! ### Examples -/

namespace Sample

/-- `--config x` is read in the same way wherever `--config` is the argument of the root command. -/
theorem reads_config (st : List (Entry Sample.Val)) (k : Nat) (h : ((visible st).find? (fun x => declares Sample.cx x.2 (.long (lit "config")))).any
      (fun x => decide (x.1 = ⟨0, 0, 1⟩) && (takesValue x.2 && !x.2.src.requireEquals)) = true) :
    Reads Sample.cx ⟨st, k, .opts⟩ [blit "--config", blit "x"] [(⟨0, 0, 1⟩, some (blit "x"))] ⟨st, k, .opts⟩ := by
  obtain ⟨f, hr, hp⟩ := Sample.resolve (fun f => takesValue f && !f.src.requireEquals) (st := st) h
  simp only [Bool.and_eq_true, Bool.not_eq_true'] at hp
  exact .longSep (n := lit "config") hr (by decide) (by decide) hp.1 hp.2 (.inl (.inl (by decide))) .done

/-- Two arguments have no name in common. -/
def apart (f g : FieldInfo Sample.Val) : Bool :=
  (longNames Sample.cx f).all (fun n => !(longNames Sample.cx g).contains n) && (shortNames f).all (fun c => !(shortNames g).contains c)

theorem apart_sound {f g : FieldInfo Sample.Val} (h : apart f g = true) (n : Name) (hf : declares Sample.cx f n = true) :
    declares Sample.cx g n = false := by
  simp only [apart, Bool.and_eq_true, List.all_eq_true, Bool.not_eq_true'] at h
  cases n with
  | long s =>
    simp only [declares, Bool.and_eq_true, List.contains_iff_mem] at hf ⊢
    rw [h.1 s hf.2, Bool.and_false]
  | short c =>
    simp only [declares, Bool.and_eq_true, List.contains_iff_mem] at hf ⊢
    rw [h.2 c hf.2, Bool.and_false]

/-- `--config` is global, and no argument of the given structs has one of its names. -/
theorem config_free {st : List (Entry Sample.Val)} {cs : List (Core Sample.Val)}
    (h : (fieldAt st ⟨0, 0, 1⟩).all (fun f => f.src.global && cs.all (fun c => c.fields.all (apart f))) = true) :
    ∀ x ∈ [((⟨0, 0, 1⟩, some (blit "x")) : Event)], ∀ f, fieldAt st x.1 = some f → f.src.global = true
      ∧ ∀ c ∈ cs, ∀ g ∈ c.fields, ∀ n, declares Sample.cx f n = true → declares Sample.cx g n = false := by
  intro x hx f hf
  simp only [List.mem_singleton] at hx
  subst hx
  rw [hf] at h
  simp only [Option.all_some, Bool.and_eq_true, List.all_eq_true] at h
  exact ⟨h.1, fun c hc g hg n => apart_sound (h.2 c hc g hg) n⟩

end Sample

/-- `app --config x add ..` and `app add --config x ..`, whatever follows. -/
example (post : List Bytes) :
    tryParseFrom Sample.cli (blit "app" :: ([] ++ ([blit "--config", blit "x"] ++ [blit "add"]) ++ post))
      = tryParseFrom Sample.cli (blit "app" :: ([] ++ ([blit "add"] ++ [blit "--config", blit "x"]) ++ post)) :=
  C89_past_name (v := .args (lit "Add") (lit "add") Sample.add) Sample.cli_derived (by rw [Sample.start_app]; exact .done)
    (Sample.reads_config [Sample.root] 0 (by decide +kernel)) (Sample.selected (by exact List.mem_cons_self)) (.inl (by decide))
    (Sample.config_free (by decide +kernel)) post

/-- … and back. -/
example (post : List Bytes) :
    tryParseFrom Sample.cli (blit "app" :: ([] ++ ([blit "add"] ++ [blit "--config", blit "x"]) ++ post))
      = tryParseFrom Sample.cli (blit "app" :: ([] ++ ([blit "--config", blit "x"] ++ [blit "add"]) ++ post)) := by
  refine C89_before_name (v := .args (lit "Add") (lit "add") Sample.add) Sample.cli_derived (by rw [Sample.start_app]; exact .done)
    (Sample.selected (by exact List.mem_cons_self)) (.inl (by decide))
    (Sample.reads_config [Sample.entry "Add" "add" Sample.add, Sample.root] 0 (by decide +kernel)) (fun x hx => ?_) post
  simp only [List.mem_singleton] at hx
  subst hx
  have hk : (fieldAt [Sample.root] ⟨0, 0, 1⟩).any (fun f => (structs Sample.cli).all (fun c => c.fields.all (fun g => g.src.global || Sample.apart f g)))
      = true := by decide +kernel
  cases hf : fieldAt [Sample.root] ⟨0, 0, 1⟩ with
  | none => rw [hf] at hk; cases hk
  | some f =>
    rw [hf] at hk
    simp only [Option.any_some, List.all_eq_true, Bool.or_eq_true] at hk
    refine ⟨f, rfl, fun c hc g hg n h1 h2 => (hk c hc g hg).resolve_right fun h => ?_⟩
    rw [Sample.apart_sound h n h1] at h2
    cases h2

/-- `app --config x add -f ..` and `app add -f --config x ..`. -/
example (post : List Bytes) (out : Out Sample.Val) :
    tryParseFrom Sample.cli (blit "app" :: [] ++ ([blit "--config", blit "x"] ++ [blit "add", blit "-f"]) ++ post) = .ok out
      ↔ tryParseFrom Sample.cli (blit "app" :: [] ++ ([blit "add", blit "-f"] ++ [blit "--config", blit "x"]) ++ post) = .ok out := by
  obtain ⟨g, hg, hq⟩ := Sample.resolve (fun f => !takesValue f) (st := [Sample.entry "Add" "add" Sample.add, Sample.root])
    (n := .short 'f') (a := ⟨1, 0, 0⟩) (by decide +kernel)
  refine (C89_past (ext := [Sample.entry "Add" "add" Sample.add]) Sample.cli_derived (by rw [Sample.start_app]; exact .done)
    (Sample.reads_config [Sample.root] 0 (by decide +kernel))
    (.sub (v := .args (lit "Add") (lit "add") Sample.add) (Sample.selected (by exact List.mem_cons_self)) (.inl (by decide))
      (.cluster (b := encChar 'f') (evs := [_]) (by decide) (.bare hg (by simpa using hq)) .done)) (by decide) (fun x hx f hf => ?_) post).1 out
  obtain ⟨h1, h2⟩ := Sample.config_free (cs := structs Sample.add) (by decide +kernel) x hx f hf
  refine ⟨h1, fun w hw => ?_⟩
  simp only [List.mem_singleton] at hw
  subst hw
  exact h2

/-- Both are accepted. -/
example : Sample.isOk (Sample.parse ["app", "--config", "x", "add", "p"]) = true
    ∧ Sample.value (Sample.parse ["app", "add", "--config", "x", "p"]) ["config"] = some (.option (some (lit "x"))) := by
  decide +kernel

namespace Sample

/-- `struct Twice { #[arg(long, global = true)] config: Option<String>, #[command(subcommand)] cmd: TwiceCmd }` with
`enum TwiceCmd { Show { #[arg(long)] config: Option<String> } }`. -/
def twice : ArgsDef Sample.Val := Sample.get (deriveArgs Sample.cx none
  [ .arg (lit "config") (.option Sample.string) { long := some .inherit, global := true },
    .subcommand (lit "cmd") false (deriveSub Sample.cx [.args (lit "Show") (Sample.get (deriveArgs Sample.cx none
      [.arg (lit "config") (.option Sample.string) { long := some .inherit }]))]) ])

end Sample

/-- C89: without the condition on names it is false: the subcommand `show` has its own `--config`. -/
theorem C89_hidden : Sample.value (tryParseFrom Sample.twice ([ "app", "--config", "x", "show"].map blit)) ["config"] = some (.option (some (lit "x")))
    ∧ Sample.value (tryParseFrom Sample.twice ([ "app", "show", "--config", "x"].map blit)) ["config"] = some (.option none)
    ∧ Sample.value (tryParseFrom Sample.twice ([ "app", "show", "--config", "x"].map blit)) ["cmd", "Show", "config"]
      = some (.option (some (lit "x"))) := by
  decide +kernel

end Palc
