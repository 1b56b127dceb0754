import Verif.Lemmas.Write
import Verif.Lemmas.Visible
import Verif.Lemmas.Declared
import Verif.Props.Language
import Verif.Example
/-!
# Writing command lines (C62), normal form of command lines (C63)
-/

namespace Palc

open Spec

variable {V : Type} {cx : Cx V} {d : ArgsDef V} {argv0 : Bytes} {toks : List Bytes} {evs : List Event} {κ : Ctx V} {out : Out V}

/-! ## C62 -/

theorem options_steps {st : List (Entry V)} (hwf : StackWF cx st) {L : List (Written × Addr)} (hL : ∀ x ∈ L, Means cx st x.1 x.2)
    (k : Nat) (post : Toks) :
    Steps cx ⟨st, k, .opts⟩ (L.map (fun x => optToken x.1.1 x.1.2) ++ post) (L.map (fun x => (x.2, x.1.2))) ⟨st, k, .opts⟩ post := by
  induction L with
  | nil => exact .refl
  | cons x L ih => exact .step (option_step hwf (hL x (by simp)) k _) (ih (fun y hy => hL y (by simp [hy])))

theorem dashed_reads {i : CmdId} {e : ArgsDef V} {st : List (Entry V)} (hl : lastArg e = none)
    (hs : ∀ x ∈ singles e, x.1.src.trailingVarArg = false) :
    ∀ (L : List (Bytes × Nat)) (k : Nat),
      (∀ (j : Nat) v idx, L[j]? = some (v, idx) → ∃ f, posTarget e (k + j) = some (f, idx)) →
      ∃ k' m', Reads cx ⟨(i, e) :: st, k, .dashed⟩ (L.map (·.1)) (L.map (fun x => (⟨st.length, 0, x.2⟩, some x.1))) ⟨(i, e) :: st, k', m'⟩
  | [], k, _ => ⟨k, _, .done⟩
  | (v, idx) :: L, k, h => by
    obtain ⟨f, hf⟩ := h 0 v idx rfl
    rw [Nat.add_zero] at hf
    by_cases ht : f.src.trailingVarArg = true
    · -- a trailing list: everything else goes there, as it is the list
      have hnone : (singles e)[k]? = none := by
        cases hk : (singles e)[k]? with
        | none => rfl
        | some y =>
          have : y = (f, idx) := by simpa [posTarget, hk] using hf
          subst this
          have := hs _ (List.mem_of_getElem? hk)
          rw [ht] at this
          cases this
      have hva : varArg e = some (f, idx) := by simpa [posTarget, hnone] using hf
      have hall : ∀ x ∈ L, x.2 = idx := by
        intro x hx
        obtain ⟨j, hj⟩ := List.getElem?_of_mem hx
        obtain ⟨g, hg⟩ := h (j + 1) x.1 x.2 hj
        have : (singles e)[k + (j + 1)]? = none := by
          rw [List.getElem?_eq_none_iff] at hnone ⊢
          omega
        rw [posTarget, this] at hg
        dsimp only at hg
        rw [hva] at hg
        cases hg
        rfl
      have hmap : L.map (fun x => ((⟨st.length, 0, x.2⟩ : Addr), some x.1)) = (L.map (·.1)).map (fun v => (⟨st.length, 0, idx⟩, some v)) := by
        rw [List.map_map]
        exact List.map_congr_left (fun x hx => by simp [hall x hx])
      refine ⟨k + 1, .trailing idx, ?_⟩
      rw [List.map_cons, List.map_cons, hmap]
      refine .dashed hl hf ?_
      rw [modeAfter, if_pos ht]
      exact trailing_reads _
    · obtain ⟨k', m', hr⟩ := dashed_reads hl hs L (k + 1) (fun j v idx hj => by
        have := h (j + 1) v idx hj
        rwa [show k + (j + 1) = k + 1 + j by omega] at this)
      refine ⟨k', m', ?_⟩
      rw [List.map_cons, List.map_cons]
      refine .dashed hl hf ?_
      rw [modeAfter, if_neg ht]
      exact hr

/-- Acceptance and result of a command line that is read as `evs`. -/
theorem reads_accepts (hd : DerivedArgs cx d) (h : Reads cx (start argv0 d) toks evs κ) (out : Out V) :
    tryParseFrom d (argv0 :: toks) = .ok out ↔ AllOk evs κ.stack false ∧ outAll evs κ.stack none = some out := by
  rw [C23_accepts_iff hd]
  constructor
  · rintro ⟨evs', κ', h', h1, h2⟩
    obtain ⟨rfl, rfl⟩ := reads_det h h'
    exact ⟨h1, h2⟩
  · rintro ⟨h1, h2⟩
    exact ⟨evs, κ, h, h1, h2⟩

/-- C62: after arguments `pre` that entered some commands, any options, by any of their names and with any values, can be written
as arguments of their own.  The command line is accepted iff these values are valid and satisfy the constraints, and has
exactly them as its result. -/
theorem C62_options (hd : DerivedArgs cx d) {pre : List Bytes} {st : List (Entry V)} {k : Nat}
    (hpre : Reads cx (start argv0 d) pre evs ⟨st, k, .opts⟩) {L : List (Written × Addr)} (hL : ∀ x ∈ L, Means cx st x.1 x.2) (out : Out V) :
    tryParseFrom d (argv0 :: pre ++ L.map (fun x => optToken x.1.1 x.1.2)) = .ok out ↔
      AllOk (evs ++ L.map (fun x => (x.2, x.1.2))) st false ∧ outAll (evs ++ L.map (fun x => (x.2, x.1.2))) st none = some out := by
  have hwf := (stack_wf hd.wf (reads_steps hpre)).1
  have h := steps_append (reads_steps hpre) (L.map (fun x => optToken x.1.1 x.1.2))
  have h2 := options_steps hwf hL k []
  rw [List.append_nil] at h2
  have := steps_reads (steps_trans h h2) .done
  rw [List.append_nil] at this
  exact reads_accepts hd this out

/-- C62: followed by `--` and any positional values, whatever they look like.  `P` are the values with the index of the field
they are for. -/
theorem C62_positionals (hd : DerivedArgs cx d) {pre : List Bytes} {i : CmdId} {e : ArgsDef V} {st : List (Entry V)} {k : Nat}
    (hpre : Reads cx (start argv0 d) pre evs ⟨(i, e) :: st, k, .opts⟩) {L : List (Written × Addr)}
    (hL : ∀ x ∈ L, Means cx ((i, e) :: st) x.1 x.2) (hl : lastArg e = none) (hs : ∀ x ∈ singles e, x.1.src.trailingVarArg = false)
    {P : List (Bytes × Nat)} (hP : ∀ (j : Nat) v idx, P[j]? = some (v, idx) → ∃ f, posTarget e (k + j) = some (f, idx)) (out : Out V) :
    tryParseFrom d (argv0 :: pre ++ L.map (fun x => optToken x.1.1 x.1.2) ++ blit "--" :: P.map (·.1)) = .ok out ↔
      AllOk (evs ++ L.map (fun x => (x.2, x.1.2)) ++ P.map (fun x => (⟨st.length, 0, x.2⟩, some x.1))) ((i, e) :: st) false
      ∧ outAll (evs ++ L.map (fun x => (x.2, x.1.2)) ++ P.map (fun x => (⟨st.length, 0, x.2⟩, some x.1))) ((i, e) :: st) none = some out := by
  have hwf := (stack_wf hd.wf (reads_steps hpre)).1
  have h := steps_append (reads_steps hpre) (L.map (fun x => optToken x.1.1 x.1.2) ++ blit "--" :: P.map (·.1))
  have h2 := options_steps hwf hL k (blit "--" :: P.map (·.1))
  obtain ⟨k', m', h3⟩ := dashed_reads (cx := cx) (i := i) (st := st) hl hs P k hP
  have := steps_reads (steps_trans h h2) (.dashdash h3)
  rw [← List.append_assoc] at this
  exact reads_accepts hd this out

/-- C62: with an `arg(last)` field, everything after `--` is for it. -/
theorem C62_last (hd : DerivedArgs cx d) {pre : List Bytes} {i : CmdId} {e : ArgsDef V} {st : List (Entry V)} {k : Nat}
    (hpre : Reads cx (start argv0 d) pre evs ⟨(i, e) :: st, k, .opts⟩) {L : List (Written × Addr)}
    (hL : ∀ x ∈ L, Means cx ((i, e) :: st) x.1 x.2) {x : FieldInfo V × Nat} (hl : lastArg e = some x) (vals : List Bytes) (out : Out V) :
    tryParseFrom d (argv0 :: pre ++ L.map (fun x => optToken x.1.1 x.1.2) ++ blit "--" :: vals) = .ok out ↔
      AllOk (evs ++ L.map (fun x => (x.2, x.1.2)) ++ vals.map (fun v => (⟨st.length, 0, x.2⟩, some v))) ((i, e) :: st) false
      ∧ outAll (evs ++ L.map (fun x => (x.2, x.1.2)) ++ vals.map (fun v => (⟨st.length, 0, x.2⟩, some v))) ((i, e) :: st) none = some out := by
  have hwf := (stack_wf hd.wf (reads_steps hpre)).1
  have h := steps_append (reads_steps hpre) (L.map (fun x => optToken x.1.1 x.1.2) ++ blit "--" :: vals)
  have h2 := options_steps hwf hL k (blit "--" :: vals)
  have h3 := last_reads (cx := cx) (i := i) (st := st) (k := k) hl vals
  have := steps_reads (steps_trans h h2) (.dashdash h3)
  rw [← List.append_assoc] at this
  exact reads_accepts hd this out

theorem own_names_unique {c : Core V} (wf : CoreWF cx c) {i j : Nat} {f g : FieldInfo V} {n : Name} (hf : c.fields[i]? = some f)
    (hg : c.fields[j]? = some g) (hn : declares cx f n = true) (hm : declares cx g n = true) : i = j := by
  have mem : ∀ (k : Nat) (x : FieldInfo V), c.fields[k]? = some x → declares cx x n = true → encodeName n ∈ x.encNames := by
    intro k x hk hx
    rw [encNames_eq (wf.fields k x hk).toFieldPre]
    exact List.mem_map_of_mem (mem_fieldNames.2 hx)
  have h1 := mem i f hf hn
  have h2 := mem j g hg hm
  have hnd := wf.nodup
  have hp : c.fields.Pairwise (fun a b => ∀ x ∈ a.encNames, x ∉ b.encNames) := by
    rw [List.flatMap_def, List.nodup_iff_pairwise_ne, List.pairwise_flatten] at hnd
    have := List.pairwise_map.1 hnd.2
    exact this.imp (fun {a b} h x hx hx' => h x hx x hx' rfl)
  obtain ⟨hi, ei⟩ := List.getElem?_eq_some_iff.1 hf
  obtain ⟨hj, ej⟩ := List.getElem?_eq_some_iff.1 hg
  rw [List.pairwise_iff_getElem] at hp
  rcases Nat.lt_trichotomy i j with h | h | h
  · exact absurd (ej ▸ h2) (hp i j hi hj h _ (ei ▸ h1))
  · exact h
  · exact absurd (ei ▸ h1) (hp j i hj hi h _ (ej ▸ h2))

/-- C62: every option of the innermost command can be written, by each of its names. -/
theorem C62_own_option (hd : DerivedArgs cx d) {pre : List Bytes} {i : CmdId} {e : ArgsDef V} {st : List (Entry V)} {k : Nat}
    (hpre : Reads cx (start argv0 d) pre evs ⟨(i, e) :: st, k, .opts⟩) {j : Nat} {f : FieldInfo V} (hf : (coreOf e).fields[j]? = some f)
    {n : Name} (hn : declares cx f n = true) {v : Option Bytes} (hv : Takes f n v) :
    Means cx ((i, e) :: st) (n, v) ⟨st.length, 0, j⟩ := by
  have hwf := (stack_wf hd.wf (reads_steps hpre)).1 (i, e) (by simp)
  have hcore : (structs e)[0]? = some (coreOf e) := by cases e; simp [structs, coreOf]
  have hat : ∀ (b : Addr) (g : FieldInfo V), b.level = st.length → b.struct = 0 → fieldAt ((i, e) :: st) b = some g → (coreOf e).fields[b.field]? = some g := by
    intro b g h1 h2 h3
    rw [fieldAt, if_pos h1, h2, hcore] at h3
    exact h3
  refine ⟨f, resolves_iff.2 ⟨?_, .inl rfl, hn, ?_⟩, hv⟩
  · rw [fieldAt, if_pos rfl, hcore]; exact hf
  · intro b g hb _ hdg
    by_cases hlev : b.level = st.length
    · by_cases hstr : b.struct = 0
      · left
        have hw : CoreWF cx (coreOf e) := by cases e; exact hwf.1
        have := own_names_unique hw hf (hat b g hlev hstr hb) hn hdg
        obtain ⟨bl, bs, bf⟩ := b
        dsimp only at hlev hstr this
        subst hlev hstr this
        rfl
      · right; unfold Addr.precedes; dsimp only; omega
    · right
      have := fieldAt_lt hb
      rw [List.length_cons] at this
      unfold Addr.precedes
      dsimp only
      omega

/-- C62: every option has a name to write it with; only a short one if `arg(long)` is not given. -/
theorem C62_has_name {f : FieldInfo V} (hi : f.ident ≠ []) (h : isOption f = true) :
    (f.src.long.isSome = true → ∃ s, declares cx f (.long s) = true)
      ∧ (f.src.long.isSome = false → ∃ c, declares cx f (.short c) = true) := by
  unfold isOption at h
  constructor
  · intro hl
    rcases hlong : f.src.long with _ | (_ | s)
    · rw [hlong] at hl; cases hl
    · exact ⟨cx.kebab f.ident, by simp [declares, isOption, longNames, hlong]⟩
    · exact ⟨s, by simp [declares, isOption, longNames, hlong]⟩
  · intro hl
    rw [hl, Bool.false_or] at h
    rcases hshort : f.src.short with _ | (_ | c)
    · rw [hshort] at h; cases h
    · cases hid : f.ident with
      | nil => exact absurd hid hi
      | cons c r => exact ⟨c, by simp [declares, isOption, shortNames, hshort, hid]⟩
    · exact ⟨c, by simp [declares, isOption, shortNames, hshort]⟩

/-- `--config=-x=` (a value like an option, with `=`) and `-v` at the top level, then `--` and a file called `add`. -/
example : ∃ (L : List (Written × Addr)), (∀ x ∈ L, Means Sample.cx [Sample.root] x.1 x.2)
    ∧ L.map (fun x => optToken x.1.1 x.1.2) = [blit "--config=-x=", blit "-v"]
    ∧ L.map (fun x => (x.2, x.1.2)) = [(⟨0, 0, 1⟩, some (blit "-x=")), (⟨0, 0, 0⟩, none)] := by
  obtain ⟨f, hr, hp⟩ := Sample.resolve (fun f => decide (f.kind ≠ .bool))
    (st := [Sample.root]) (n := .long (lit "config")) (a := ⟨0, 0, 1⟩) (by decide +kernel)
  obtain ⟨g, hg, hq⟩ := Sample.resolve (fun f => decide (f.kind = .bool))
    (st := [Sample.root]) (n := .short 'v') (a := ⟨0, 0, 0⟩) (by decide +kernel)
  refine ⟨[((.long (lit "config"), some (blit "-x=")), ⟨0, 0, 1⟩), ((.short 'v', none), ⟨0, 0, 0⟩)], ?_, by decide, by decide⟩
  intro x hx
  simp only [List.mem_cons, List.not_mem_nil, or_false] at hx
  rcases hx with rfl | rfl
  · exact ⟨f, hr, by simpa [Takes] using hp⟩
  · exact ⟨g, hg, .inl (by simpa using hq)⟩

example : lastArg Sample.cli = none ∧ (posTarget Sample.cli 0).map (·.2) = some 8
    ∧ Sample.value (Sample.parse ["app", "--config=-x=", "-v", "--", "add"]) ["config"] = some (.option (some (lit "-x=")))
    ∧ Sample.value (Sample.parse ["app", "--config=-x=", "-v", "--", "add"]) ["file"] = some (.option (some (lit "add"))) := by
  refine ⟨?_, by decide +kernel, by decide +kernel, by decide +kernel⟩
  have : (lastArg Sample.cli).isNone = true := by decide +kernel
  simpa using this

/-! ## C63 -/

/-- C63: whatever can be read can be re-spelled with every occurrence of an option in an argument of its own and its value after
`=`, with the same outcome, whatever follows. -/
theorem C63_normal_form (hd : DerivedArgs cx d) {pre : List Bytes} (hpre : Reads cx (start argv0 d) pre evs κ) :
    ∃ pre', ReadsPlain cx (start argv0 d) pre' evs κ
      ∧ ∀ post, tryParseFrom d (argv0 :: pre ++ post) = tryParseFrom d (argv0 :: pre' ++ post) := by
  obtain ⟨pre', h'⟩ := reads_plain hpre
  have hwf : StackWF cx (start argv0 d).stack := (stack_wf hd.wf (.refl (toks := []))).1
  have hr := readsPlain_reads h' hwf
  refine ⟨pre', h', fun post => ?_⟩
  exact outcome_ext hd.wf (steps_append (reads_steps hpre) post) (steps_append (reads_steps hr) post)

/-- C63: in particular for accepted command lines. -/
theorem C63_accepted (hd : DerivedArgs cx d) (h : tryParseFrom d (argv0 :: toks) = .ok out) :
    ∃ toks' evs κ, ReadsPlain cx (start argv0 d) toks' evs κ ∧ tryParseFrom d (argv0 :: toks') = .ok out := by
  obtain ⟨evs, κ, hr, _⟩ := (C23_accepts_iff hd argv0 toks out).1 h
  obtain ⟨toks', h1, h2⟩ := C63_normal_form hd hr
  refine ⟨toks', evs, κ, h1, ?_⟩
  rw [← List.append_nil (argv0 :: toks'), ← h2 [], List.append_nil, h]

/-- `-vcx add -fp` is re-spelled as `-v -c=x add -f ..`: the outcome is the same, whatever follows. -/
example (post : List Bytes) : ∃ pre', (∃ evs κ, ReadsPlain Sample.cx (start (blit "app") Sample.cli) pre' evs κ)
    ∧ tryParseFrom Sample.cli (blit "app" :: [blit "-vcx", blit "add", blit "-f"] ++ post)
      = tryParseFrom Sample.cli (blit "app" :: pre' ++ post) := by
  obtain ⟨evs, κ, h, _⟩ := Sample.reads ["-vcx", "add", "-f"] (fun _ _ => true) (by decide +kernel)
  obtain ⟨pre', h1, h2⟩ := C63_normal_form Sample.cli_derived h
  exact ⟨pre', ⟨evs, κ, h1⟩, h2 post⟩

end Palc
