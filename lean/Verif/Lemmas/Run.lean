import Verif.Lemmas.Steps
/-! The machine follows the grammar. -/

namespace Palc

open Spec

variable {V : Type}

/-! ## Changes of context -/

theorem Sim.cases {cx : Cx V} {ls : List (Level V)} {κ : Ctx V} {log : List Event} (S : Sim cx ls κ log) :
    ∃ l outer, ls = l :: outer ∧ κ.stack = (⟨l.ident, l.name⟩, l.d) :: stackOf outer
      ∧ (stackOf outer).length = outer.length := by
  cases ls with
  | nil => exact absurd rfl S.ne
  | cons l outer => exact ⟨l, outer, rfl, S.stack.symm, by simp [stackOf]⟩

theorem Sim.reposition {cx : Cx V} {l : Level V} {outer : List (Level V)} {κ : Ctx V} {log : List Event}
    (S : Sim cx (l :: outer) κ log) {p k : Nat} {mode : Mode} (hp : PosOk { l with pos := p } k mode)
    (hle : p ≤ (coreOf l.d).positional.length) : Sim cx ({ l with pos := p } :: outer) ⟨κ.stack, k, mode⟩ log := by
  have hl := S.ok l (by simp)
  refine { ok := ?_, ne := by simp, stack := S.stack, pos := ?_, place := ?_, fresh := by simpa using S.fresh,
           }
  · intro x hx
    rcases List.mem_cons.1 hx with rfl | hx
    · exact { wf := hl.wf, len := hl.len, fits := hl.fits, pos := hle }
    · exact S.ok x (by simp [hx])
  · intro l' outer' h
    cases h
    exact hp
  · intro a f hf
    obtain ⟨v, h1, h2⟩ := S.place a f hf
    refine ⟨v, h1, ?_⟩
    unfold getPlace at h2 ⊢
    unfold levelAt at h2 ⊢
    split at h2
    · rename_i hl
      split at hl
      · cases hl
        rename_i he
        simp only [he, if_true]
        exact h2
      · rename_i he
        simp only [he, if_false]
        rw [hl]
        exact h2
    · simp at h2

theorem Spec.Selected.mem {d : ArgsDef V} {v : Variant V} (h : Selected d v) : v ∈ subVariants d := h.1

theorem mSub_variant {d : ArgsDef V} {v : Variant V} (hv : Selected d v) : mSub d (enc v.name) = some v := by
  rcases hv.2 with h | h
  · rcases mSub_spec d (enc v.name) with ⟨w, hw, h1, h2⟩ | ⟨_, h2⟩
    · rw [h1, h w hw (enc_injective h2)]
    · exact absurd rfl (h2 v hv.1)
  · exact h

theorem selected_of_mSub {d : ArgsDef V} {v : Variant V} {tok : Bytes} (h : mSub d tok = some v) :
    Selected d v ∧ enc v.name = tok := by
  rcases mSub_spec d tok with ⟨w, hw, h1, h2⟩ | ⟨h1, _⟩
  · rw [h1] at h
    cases h
    exact ⟨⟨hw, .inr (by rw [h2]; exact h1)⟩, h2⟩
  · rw [h1] at h; cases h

/-- A name selects one variant. -/
theorem selected_unique {d : ArgsDef V} {v w : Variant V} (hv : Selected d v) (hw : Selected d w) (h : v.name = w.name) : v = w := by
  have h1 := mSub_variant hv
  rw [h, mSub_variant hw] at h1
  cases h1
  rfl

/-- Every name of a variant selects one. -/
theorem selected_exists {d : ArgsDef V} {v : Variant V} (hv : v ∈ subVariants d) : ∃ w, Selected d w ∧ w.name = v.name := by
  rcases mSub_spec d (enc v.name) with ⟨w, hw, h1, h2⟩ | ⟨_, h2⟩
  · exact ⟨w, (selected_of_mSub h1).1, enc_injective h2⟩
  · exact absurd rfl (h2 v hv)

theorem mSub_other {d : ArgsDef V} {tok : Bytes} (h : ∀ v ∈ subVariants d, enc v.name ≠ tok) : mSub d tok = none := by
  rcases mSub_spec d tok with ⟨w, hw, _, h2⟩ | ⟨h1, _⟩
  · exact absurd h2 (h w hw)
  · exact h1

theorem occs_fresh {log : List Event} {a : Addr} {n : Nat} (h : ∀ e ∈ log, e.1.level < n) (ha : n ≤ a.level) :
    occs log a = [] := by
  unfold occs
  rw [List.map_eq_nil_iff, List.filter_eq_nil_iff]
  intro e he
  have := h e he
  simp only [decide_eq_true_eq]
  intro hc
  rw [hc] at this
  omega

theorem initLevel_get (ident name : Str) (d : ArgsDef V) {s i : Nat} {c : Core V} {f : FieldInfo V}
    (hc : (structs d)[s]? = some c) (hf : c.fields[i]? = some f) :
    (initLevel ident name d).get s i = some f.initializer := by
  have hpl : (initLevel ident name d).places = (structs d).map (fun c => c.fields.map (·.initializer)) := by
    rw [structs_eq]; rfl
  unfold Level.get
  rw [hpl, List.getElem?_map, hc]
  simp [hf]

theorem Sim.enter {cx : Cx V} {ls : List (Level V)} {κ : Ctx V} {log : List Event} (S : Sim cx ls κ log) {i : CmdId}
    {d : ArgsDef V} {st : List (Entry V)} (hst : κ.stack = (i, d) :: st) {v : Variant V} (hv : v ∈ subVariants d) :
    Sim cx (subLevel v :: ls) ⟨(⟨variantIdent v, v.name⟩, variantDef v) :: κ.stack, 0, .opts⟩ log := by
  obtain ⟨l, outer, rfl, h2, h3⟩ := S.cases
  rw [hst] at h2
  simp only [List.cons.injEq, Prod.mk.injEq] at h2
  obtain ⟨⟨rfl, rfl⟩, rfl⟩ := h2
  refine { ok := ?_, ne := by simp, stack := ?_, pos := ?_, place := ?_, fresh := ?_ }
  · intro x hx
    rcases List.mem_cons.1 hx with rfl | hx
    · exact subLevel_ok (S.ok l (by simp)).wf hv
    · exact S.ok x hx
  · rw [← S.stack]; rfl
  · intro l' outer' h
    cases h
    simp [PosOk, subLevel, initLevel]
  · intro a f hf
    simp only [fieldAt] at hf
    have hlen : κ.stack.length = outer.length + 1 := by rw [hst]; simp [h3]
    by_cases ha : a.level = κ.stack.length
    · simp only [ha, if_true] at hf
      refine ⟨.absent, ?_, ?_⟩
      · rw [occs_fresh S.fresh (by rw [ha, hlen]; simp)]; rfl
      · unfold getPlace levelAt
        rw [ha, hlen]
        simp only [List.length_cons, if_true]
        split at hf
        · rename_i c hc
          exact initLevel_get _ _ _ hc hf
        · simp at hf
    · simp only [ha, if_false] at hf
      obtain ⟨w, h1, h2⟩ := S.place a f hf
      refine ⟨w, h1, ?_⟩
      unfold getPlace levelAt
      rw [if_neg (by rw [List.length_cons, ← hlen]; exact ha)]
      exact h2
  · intro e he
    have := S.fresh e he
    simp only [List.length_cons] at this ⊢
    omega

/-! ## Positional arguments -/

theorem posTarget_field {d : ArgsDef V} {k : Nat} {x : FieldInfo V × Nat} (h : posTarget d k = some x) :
    x.1.src.last = false ∧ isOption x.1 = false ∧ (coreOf d).fields[x.2]? = some x.1 := by
  have key : x ∈ (coreOf d).fields.zipIdx → (coreOf d).fields[x.2]? = some x.1 := by
    intro hm
    exact List.mem_zipIdx_iff_getElem?.1 hm
  unfold posTarget at h
  split at h
  · rename_i y hy
    cases h
    have := List.mem_of_getElem? hy
    unfold singles at this
    rw [List.mem_filter] at this
    have h2 := this.2
    simp only [Bool.and_eq_true, Bool.not_eq_true'] at h2
    exact ⟨h2.2, h2.1.1, key this.1⟩
  · unfold varArg at h
    have h1 := List.mem_of_find?_eq_some h
    have h2 := List.find?_some h
    simp only [Bool.and_eq_true, Bool.not_eq_true'] at h2
    exact ⟨h2.2, h2.1.1, key h1⟩

theorem lastArg_field {d : ArgsDef V} {x : FieldInfo V × Nat} (h : lastArg d = some x) :
    x.1.src.last = true ∧ isOption x.1 = false ∧ (coreOf d).fields[x.2]? = some x.1 := by
  unfold lastArg at h
  have h1 := List.mem_of_find?_eq_some h
  have h2 := List.find?_some h
  simp only [Bool.and_eq_true, Bool.not_eq_true'] at h2
  exact ⟨h2.2, h2.1, List.mem_zipIdx_iff_getElem?.1 h1⟩

theorem fieldAt_main {st : List (Entry V)} {i : CmdId} {d : ArgsDef V} {j : Nat} {f : FieldInfo V}
    (h : (coreOf d).fields[j]? = some f) : fieldAt ((i, d) :: st) ⟨st.length, 0, j⟩ = some f := by
  simp [fieldAt, structs_zero, h]

/-- A positional argument that some field takes. -/
theorem positional_step {cx : Cx V} {ls : List (Level V)} {i : CmdId} {d : ArgsDef V} {st : List (Entry V)} {k : Nat}
    {mode : Mode} {log : List Event} (S : Sim cx ls ⟨(i, d) :: st, k, mode⟩ log) (hm : mode = .opts ∨ mode = .dashed)
    {f : FieldInfo V} {j : Nat} (hx : target d k mode = some (f, j)) (tok : Bytes) :
    (∃ ls1, Sim cx ls1 ⟨(i, d) :: st, if f.src.last then k else k + 1, nextMode (f, j) mode⟩
        (log ++ [(⟨st.length, 0, j⟩, some tok)])
      ∧ mPos ls mode tok = .ok (ls1, nextMode (f, j) mode))
    ∨ (∃ e, mPos ls mode tok = errR e ∧ FirstBad ((i, d) :: st) log [(⟨st.length, 0, j⟩, some tok)] e) := by
  obtain ⟨l, outer, rfl, h2, h3⟩ := S.cases
  simp only [List.cons.injEq, Prod.mk.injEq] at h2
  obtain ⟨⟨rfl, rfl⟩, rfl⟩ := h2
  have hl := S.ok l (by simp)
  have ht := mPos_target hl hm (S.pos l outer rfl) outer tok
  simp only at ht
  rw [hx] at ht
  obtain ⟨g1, g2, g3, pos', g4, g5⟩ := ht
  have hf := fieldAt_main (st := stackOf outer) (i := ⟨l.ident, l.name⟩) g1
  obtain ⟨v, hv, hpl, h⟩ := S.occur hf (some tok) (by simp)
  rw [Option.map_some, normalise_pos g3.toFieldPre g2] at h
  have hget : l.get 0 j = some (toPlace f v) := by
    have := hpl
    unfold getPlace levelAt at this
    simpa [h3] using this
  rw [hget] at g5
  simp only at g5
  rcases h with ⟨v', _, q1, q2⟩ | ⟨_, e, q1⟩
  · rw [q1] at g5
    simp only at g5
    refine .inl ⟨_, ?_, g5⟩
    have hset : setPlace (l :: outer) ⟨(stackOf outer).length, 0, j⟩ (toPlace f v') = l.set 0 j (toPlace f v') :: outer := by
      simp [setPlace, h3]
    rw [hset] at q2
    have hok := (mPos_ok S.ok g5).1 _ (List.mem_cons_self ..)
    have := q2.reposition (p := pos') (k := if f.src.last then k else k + 1) (mode := nextMode (f, j) mode) (by
        unfold PosOk at g4 ⊢
        simpa using g4) (by simpa using hok.pos)
    exact this
  · rw [q1] at g5
    simp only at g5
    refine .inr ⟨e, g5, ?_⟩
    have := S.bad hf (o := some tok) (by simp) hv (e := e)
      (by rw [Option.map_some, normalise_pos g3.toFieldPre g2]; exact q1)
    rw [about_positional g2] at this
    exact this

theorem positional_stuck {cx : Cx V} {ls : List (Level V)} {i : CmdId} {d : ArgsDef V} {st : List (Entry V)} {k : Nat}
    {mode : Mode} {log : List Event} (S : Sim cx ls ⟨(i, d) :: st, k, mode⟩ log) (hm : mode = .opts ∨ mode = .dashed)
    (hx : target d k mode = none) (tok : Bytes) : mPos ls mode tok = errR (surplus d tok) := by
  obtain ⟨l, outer, rfl, h2, h3⟩ := S.cases
  simp only [List.cons.injEq, Prod.mk.injEq] at h2
  obtain ⟨⟨rfl, rfl⟩, rfl⟩ := h2
  have ht := mPos_target (S.ok l (by simp)) hm (S.pos l outer rfl) outer tok
  simp only at ht
  rw [hx] at ht
  exact ht

/-- `--`. -/
theorem dash_step {cx : Cx V} {ls : List (Level V)} {st : List (Entry V)} {k : Nat} {log : List Event}
    (S : Sim cx ls ⟨st, k, .opts⟩ log) : Sim cx (mDash ls) ⟨st, k, .dashed⟩ log := by
  obtain ⟨l, outer, rfl, h2, h3⟩ := S.cases
  have hl := S.ok l (by simp)
  obtain ⟨ps, va, la, L⟩ := layout_of (core_wf hl)
  have hla : lastArg l.d = la.map (fun f => (f, (coreOf l.d).namedCnt + ps.length + va.toList.length)) := L.lastEq
  have hpos := S.pos l outer rfl
  simp only [PosOk] at hpos
  have hgl : (coreOf l.d).positional.getLast? = (la.or va).or ps.getLast? := by
    rw [L.eq]
    cases la <;> cases va <;> simp
  simp only [mDash]
  cases hlc : la with
  | some f =>
    rw [hgl, hlc]
    simp only [Option.some_or, (L.la f (by simp [hlc])).2.1, if_true]
    refine S.reposition ?_ (by omega)
    simp only [PosOk, hla, hlc, Option.map_some]
  | none =>
    have hnl : ∀ f, (coreOf l.d).positional.getLast? = some f → f.src.last = false := by
      intro f hf
      rw [hgl, hlc] at hf
      cases hvc : va with
      | some g => simp [hvc] at hf; subst hf; exact (L.va g (by simp [hvc])).2.2
      | none =>
        simp [hvc] at hf
        exact (L.ps f (List.mem_of_getLast? hf)).2.2
    have : Sim cx ({ l with pos := l.pos } :: outer) ⟨st, k, .dashed⟩ log := by
      refine S.reposition ?_ hl.pos
      simp only [PosOk, hla, hlc, Option.map_none]
      exact hpos
    split
    · rename_i f hf
      rw [hnl f hf]
      exact this
    · exact this

/-- A trailing argument. -/
theorem trailing_step {cx : Cx V} {ls : List (Level V)} {i : CmdId} {d : ArgsDef V} {st : List (Entry V)} {k j : Nat}
    {log : List Event} (S : Sim cx ls ⟨(i, d) :: st, k, .trailing j⟩ log) (tok : Bytes) :
    (∃ ls1, Sim cx ls1 ⟨(i, d) :: st, k, .trailing j⟩ (log ++ [(⟨st.length, 0, j⟩, some tok)])
      ∧ mTrail ls j tok = .ok ls1)
    ∨ (∃ e, mTrail ls j tok = errR e ∧ FirstBad ((i, d) :: st) log [(⟨st.length, 0, j⟩, some tok)] e) := by
  obtain ⟨l, outer, rfl, h2, h3⟩ := S.cases
  simp only [List.cons.injEq, Prod.mk.injEq] at h2
  obtain ⟨⟨rfl, rfl⟩, rfl⟩ := h2
  have hpos := S.pos l outer rfl
  simp only [PosOk] at hpos
  obtain ⟨f, g1, g2⟩ := hpos
  have hf := fieldAt_main (st := stackOf outer) (i := ⟨l.ident, l.name⟩) g1
  have g3 := S.fieldWF hf
  obtain ⟨v, hv, hpl, h⟩ := S.occur hf (some tok) (by simp)
  rw [Option.map_some, normalise_pos g3.toFieldPre g2] at h
  have hget : l.get 0 j = some (toPlace f v) := by
    have := hpl
    unfold getPlace levelAt at this
    simpa [h3] using this
  simp only [mTrail, hget]
  rcases h with ⟨v', _, q1, q2⟩ | ⟨_, e, q1⟩
  · rw [q1]
    refine .inl ⟨_, ?_, rfl⟩
    have hset : setPlace (l :: outer) ⟨(stackOf outer).length, 0, j⟩ (toPlace f v') = l.set 0 j (toPlace f v') :: outer := by
      simp [setPlace, h3]
    rw [hset] at q2
    exact q2
  · rw [q1]
    refine .inr ⟨e, rfl, ?_⟩
    have := S.bad hf (o := some tok) (by simp) hv (e := e)
      (by rw [Option.map_some, normalise_pos g3.toFieldPre g2]; exact q1)
    rw [about_positional g2] at this
    exact this

/-! ## Long options -/

theorem mLong_eq {ls : List (Level V)} {name v : Bytes} (h : eqSign ∉ name) (next : Option Bytes) :
    mLong ls (name ++ eqSign :: v) next = mNamed ls false name (.eq v) next := by
  unfold mLong; rw [splitOnceEq_app h]

theorem mLong_bare {ls : List (Level V)} {name : Bytes} (h : eqSign ∉ name) (next : Option Bytes) :
    mLong ls name next = mNamed ls false name .none next := by
  unfold mLong; rw [splitOnceEq_none.2 h]

theorem eq_not_mem_long {n : Str} (h : '=' ∉ n) : eqSign ∉ enc ('-' :: '-' :: n) := by
  rw [eqSign_mem_enc]; simp [h]

theorem mrun_long {ls : List (Level V)} {arg : Bytes} {rest : Toks} (h : argShape arg = .long) :
    mrun ls .opts (arg :: rest) = match mLong ls arg rest.head? with
      | .error e => .error e
      | .ok (ls, .brk true) =>
        match rest with
        | _ :: rest => mrun ls .opts rest
        | [] => panicR
      | .ok (ls, _) => mrun ls .opts rest := by
  rw [mrun.eq_def]; simp only [h]; rfl

theorem mrun_bundle {ls : List (Level V)} {arg b : Bytes} {rest : Toks} (h : argShape arg = .bundle b) :
    mrun ls .opts (arg :: rest) = match mBundle ls b rest.head? with
      | .error e => .error e
      | .ok (ls, .brk true) =>
        match rest with
        | _ :: rest => mrun ls .opts rest
        | [] => panicR
      | .ok (ls, _) => mrun ls .opts rest := by
  rw [mrun.eq_def]; simp only [h]; rfl

theorem mrun_dash {ls : List (Level V)} {rest : Toks} :
    mrun ls .opts ([dash, dash] :: rest) = mrun (mDash ls) .dashed rest := by
  rw [mrun.eq_def]; simp only [shape_dashdash]

theorem mrun_sub {l : Level V} {outer : List (Level V)} {arg : Bytes} {rest : Toks} (h : Plain arg) {v : Variant V}
    (hv : mSub l.d arg = some v) : mrun (l :: outer) .opts (arg :: rest) = mrun (subLevel v :: l :: outer) .opts rest := by
  rw [mrun.eq_def]; simp only [shape_plain h, mSubTop, hv]

theorem mrun_pos {l : Level V} {outer : List (Level V)} {arg : Bytes} {rest : Toks} (h : Plain arg)
    (hv : mSub l.d arg = none) : mrun (l :: outer) .opts (arg :: rest) = match mPos (l :: outer) .opts arg with
        | .error e => .error e
        | .ok (ls, mode) => mrun ls mode rest := by
  rw [mrun.eq_def]; simp only [shape_plain h, mSubTop, hv]; rfl

theorem mrun_dashed {ls : List (Level V)} {arg : Bytes} {rest : Toks} :
    mrun ls .dashed (arg :: rest) = match mPos ls .dashed arg with
        | .error e => .error e
        | .ok (ls, mode) => mrun ls mode rest := by
  rw [mrun.eq_def]; rfl

theorem mrun_trail {ls : List (Level V)} {j : Nat} {arg : Bytes} {rest : Toks} :
    mrun ls (.trailing j) (arg :: rest) = match mTrail ls j arg with
        | .error e => .error e
        | .ok ls => mrun ls (.trailing j) rest := by
  rw [mrun.eq_def]; rfl

theorem nextMode_opt {x : FieldInfo V × Nat} (h : x.1.src.last = false) (mode : Mode) :
    nextMode x mode = modeAfter x mode := by
  simp [nextMode, modeAfter, h]

theorem cluster_ne {cx : Cx V} {st : List (Entry V)} {next : Option Bytes} {b : Bytes} {evs : List Event}
    {took : Bool} (hc : Cluster cx st next b evs took) : b ≠ [] := by
  cases hc <;> simp [encChar_ne_nil]

theorem clusterStuck_ne {cx : Cx V} {st : List (Entry V)} {next : Option Bytes} {b : Bytes} {evs : List Event}
    {e : Error} (hc : ClusterStuck cx st next b evs e) : b ≠ [] := by
  cases hc <;> first | assumption | simp [encChar_ne_nil]

/-! ## Steps -/

theorem step_sound {cx : Cx V} {κ κ1 : Ctx V} {toks rest : Toks} {evs : List Event} (hs : Step cx κ toks evs κ1 rest)
    {ls : List (Level V)} {log : List Event} (S : Sim cx ls κ log) :
    (∃ ls1, Sim cx ls1 κ1 (log ++ evs) ∧ mrun ls κ.mode toks = mrun ls1 κ1.mode rest)
    ∨ (∃ e, mrun ls κ.mode toks = errR e ∧ FirstBad κ1.stack log evs e) := by
  cases hs with
  | @longEq st k n v a f toks hr hn ht =>
    rw [mrun_long (by rw [enc_dashdash]; exact shape_long (by simp)), mLong_eq (eq_not_mem_long hn)]
    rcases named_step S hr false (.eq v) rest.head? (select_eq _ _ _) (by simp) with ⟨ls1, h1, h2⟩ | ⟨e, h1, h2⟩
    · simp only [nameBytes] at h2
      rw [h2]
      refine .inl ⟨ls1, h1, ?_⟩
      cases takesValue f <;> rfl
    · simp only [nameBytes] at h1
      rw [h1]
      exact .inr ⟨e, rfl, h2⟩
  | @longBare st k n a f toks hr hn hne ht =>
    have hp := (S.fieldWF (resolves_fieldAt hr)).toFieldPre
    rw [mrun_long (by rw [enc_dashdash]; exact shape_long (by simpa [enc_eq_nil] using hne)),
      mLong_bare (eq_not_mem_long hn)]
    rcases named_step S hr false .none rest.head? (select_bare hp ht _) (by simp [ht]) with ⟨ls1, h1, h2⟩ | ⟨e, h1, h2⟩
    · simp only [nameBytes] at h2
      rw [h2]
      refine .inl ⟨ls1, h1, ?_⟩
      simp [ht]
    · simp only [nameBytes] at h1
      rw [h1]
      exact .inr ⟨e, rfl, h2⟩
  | @longSep st k n v a f toks hr hn hne ht hq hsa =>
    have hp := (S.fieldWF (resolves_fieldAt hr)).toFieldPre
    rw [mrun_long (by rw [enc_dashdash]; exact shape_long (by simpa [enc_eq_nil] using hne)),
      mLong_bare (eq_not_mem_long hn)]
    rcases named_step S hr false .none (v :: rest).head? (select_sep hp ht hq hsa) (by simp) with ⟨ls1, h1, h2⟩ | ⟨e, h1, h2⟩
    · simp only [nameBytes] at h2
      rw [h2]
      refine .inl ⟨ls1, h1, ?_⟩
      simp [ht]
    · simp only [nameBytes] at h1
      rw [h1]
      exact .inr ⟨e, rfl, h2⟩
  | @cluster st k b toks evs hb hc =>
    rw [mrun_bundle (shape_bundle (cluster_ne hc) hb)]
    rcases cluster_sound hc rfl S with ⟨ls1, flow, h1, h2, h3⟩ | ⟨e, h1, h2⟩
    · rw [h2]
      refine .inl ⟨ls1, h1, ?_⟩
      rcases h3 with ⟨h, _⟩ | ⟨_, h⟩
      · cases h
      · cases flow with
        | cont => rfl
        | brk t =>
          cases t with
          | true => exact absurd rfl h
          | false => rfl
    · rw [h1]
      exact .inr ⟨e, rfl, h2⟩
  | @clusterSep st k b v toks evs hb hc =>
    rw [mrun_bundle (shape_bundle (cluster_ne hc) hb)]
    rcases cluster_sound hc rfl S with ⟨ls1, flow, h1, h2, h3⟩ | ⟨e, h1, h2⟩
    · simp only [List.head?_cons]
      rw [h2]
      refine .inl ⟨ls1, h1, ?_⟩
      rcases h3 with ⟨_, h⟩ | ⟨h, _⟩
      · rw [h]
      · cases h
    · simp only [List.head?_cons]
      rw [h1]
      exact .inr ⟨e, rfl, h2⟩
  | @sub i d st k v toks hv hp =>
    have he := S.enter rfl hv.mem
    obtain ⟨l, outer, rfl, h2, h3⟩ := S.cases
    simp only [List.cons.injEq, Prod.mk.injEq] at h2
    obtain ⟨⟨rfl, rfl⟩, rfl⟩ := h2
    rw [mrun_sub hp (mSub_variant hv)]
    exact .inl ⟨_, by rw [List.append_nil]; exact he, rfl⟩
  | @positional i d st k tok x toks hp hns hx =>
    have hps := positional_step S (.inl rfl) (f := x.1) (j := x.2) (by simpa [target] using hx) tok
    obtain ⟨l, outer, rfl, h2, h3⟩ := S.cases
    simp only [List.cons.injEq, Prod.mk.injEq] at h2
    obtain ⟨⟨rfl, rfl⟩, rfl⟩ := h2
    have hf := posTarget_field hx
    rw [nextMode_opt hf.1, hf.1] at hps
    rw [mrun_pos hp (mSub_other hns)]
    rcases hps with ⟨ls1, h1, h2⟩ | ⟨e, h1, h2⟩
    · rw [h2]
      exact .inl ⟨ls1, h1, rfl⟩
    · rw [h1]
      exact .inr ⟨e, rfl, h2⟩
  | @dashdash st k toks =>
    rw [mrun_dash]
    exact .inl ⟨_, by rw [List.append_nil]; exact dash_step S, rfl⟩
  | @last i d st k tok x toks hx =>
    have hps := positional_step S (.inr rfl) (f := x.1) (j := x.2) (by simp [target, hx]) tok
    have hf := lastArg_field hx
    have hm : nextMode (x.1, x.2) .dashed = .dashed := by simp [nextMode, hf.1]
    rw [hm, hf.1] at hps
    rw [mrun_dashed]
    rcases hps with ⟨ls1, h1, h2⟩ | ⟨e, h1, h2⟩
    · rw [h2]
      exact .inl ⟨ls1, h1, rfl⟩
    · rw [h1]
      exact .inr ⟨e, rfl, h2⟩
  | @dashed i d st k tok x toks hl hx =>
    have hps := positional_step S (.inr rfl) (f := x.1) (j := x.2) (by simp [target, hl, hx]) tok
    have hf := posTarget_field hx
    rw [nextMode_opt hf.1, hf.1] at hps
    rw [mrun_dashed]
    rcases hps with ⟨ls1, h1, h2⟩ | ⟨e, h1, h2⟩
    · rw [h2]
      exact .inl ⟨ls1, h1, rfl⟩
    · rw [h1]
      exact .inr ⟨e, rfl, h2⟩
  | @trailing i d st k tok j toks =>
    rw [mrun_trail]
    rcases trailing_step S tok with ⟨ls1, h1, h2⟩ | ⟨e, h1, h2⟩
    · rw [h2]
      exact .inl ⟨ls1, h1, rfl⟩
    · rw [h1]
      exact .inr ⟨e, rfl, h2⟩

theorem stuck_sound {cx : Cx V} {κ : Ctx V} {toks : Toks} {evs : List Event} {e : Error} (hs : Stuck cx κ toks evs e)
    {ls : List (Level V)} {log : List Event} (S : Sim cx ls κ log) :
    (mrun ls κ.mode toks = errR e ∧ Acceptable κ.stack (log ++ evs))
    ∨ (∃ e', mrun ls κ.mode toks = errR e' ∧ FirstBad κ.stack log evs e') := by
  have hacc : Acceptable κ.stack (log ++ []) := by rw [List.append_nil]; exact S.given_ne
  cases hs with
  | @longUnknown st k name tail toks hd hne hn ht hu hh =>
    refine .inl ⟨?_, hacc⟩
    have hsh : argShape (name ++ tail) = .long := by
      obtain ⟨r, rfl⟩ := hd
      exact shape_long (r := r ++ tail) (fun h => hne (by simp [h]))
    have hfind : mFind ls name = none := by
      cases hf : mFind ls name with
      | none => rfl
      | some x =>
        obtain ⟨n, e, hr⟩ := mFind_bytes S.ok hf
        rw [S.stack] at hr
        cases n with
        | short c =>
          obtain ⟨r, rfl⟩ := hd
          exact absurd e.symm (encChar_dashdash c _)
        | long n =>
          have h1 := hu n e
          have h2 := resolves_declares hr
          have h3 := h1 _ (List.mem_of_find?_eq_some hr)
          simp only at h3
          rw [h2] at h3
          cases h3
    have hm : ∀ inl next, mNamed ls false name inl next = errR (unexpected name) := by
      intro inl next
      unfold mNamed
      rw [hfind]
      simp only
      rw [unknownErr_long S hd, if_neg hh]
    rw [mrun_long hsh]
    rcases ht with rfl | ht
    · rw [List.append_nil, mLong_bare hn, hm]
      rfl
    · obtain ⟨v, rfl⟩ : ∃ v, tail = eqSign :: v := by
        cases tail with
        | nil => simp at ht
        | cons b v => simp at ht; exact ⟨v, by rw [ht]⟩
      rw [mLong_eq hn, hm]
      rfl
  | @longHelp st k tail toks ht hu =>
    refine .inl ⟨?_, hacc⟩
    have hb : blit "--help" = enc ('-' :: '-' :: lit "help") := blit_help
    have hn : eqSign ∉ blit "--help" := by decide
    have hd : [dash, dash] <+: blit "--help" := by decide
    have hsh : argShape (blit "--help" ++ tail) = .long := by
      rw [hb, enc_dashdash]
      exact shape_long (r := enc (lit "help") ++ tail) (by
        intro h
        have := (List.append_eq_nil_iff.1 h).1
        rw [enc_eq_nil] at this
        exact absurd this (by decide))
    have hm : ∀ inl next, mNamed ls false (blit "--help") inl next = errR (helpRequest st) := by
      intro inl next
      have := mNamed_unknown S hu false inl next
      simp only [nameBytes] at this
      rw [hb, this, ← hb, unknownErr_long S hd, if_pos rfl]
    rw [mrun_long hsh]
    rcases ht with rfl | ht
    · rw [List.append_nil, mLong_bare hn, hm]
      rfl
    · obtain ⟨v, rfl⟩ : ∃ v, tail = eqSign :: v := by
        cases tail with
        | nil => simp at ht
        | cons b v => simp at ht; exact ⟨v, by rw [ht]⟩
      rw [mLong_eq hn, hm]
      rfl
  | @flagValue st k n v a f toks hr hn hk =>
    refine .inl ⟨?_, hacc⟩
    rw [mrun_long (by rw [enc_dashdash]; exact shape_long (by simp)), mLong_eq (eq_not_mem_long hn)]
    have := flag_value S hr hk false v toks.head?
    simp only [nameBytes] at this
    rw [this]
    rfl
  | @missingEq st k n a f toks hr hn hne ht hq =>
    refine .inl ⟨?_, hacc⟩
    have hp := (S.fieldWF (resolves_fieldAt hr)).toFieldPre
    rw [mrun_long (by rw [enc_dashdash]; exact shape_long (by simpa [enc_eq_nil] using hne)),
      mLong_bare (eq_not_mem_long hn)]
    have := select_stuck S hr false .none toks.head? (select_missingEq hp ht hq _)
    simp only [nameBytes] at this
    rw [this]
    rfl
  | @missingValue st k n a f toks hr hn hne ht hq hv =>
    refine .inl ⟨?_, hacc⟩
    have hp := (S.fieldWF (resolves_fieldAt hr)).toFieldPre
    rw [mrun_long (by rw [enc_dashdash]; exact shape_long (by simpa [enc_eq_nil] using hne)),
      mLong_bare (eq_not_mem_long hn)]
    have := select_stuck S hr false .none toks.head? (select_missingValue hp ht hq hv)
    simp only [nameBytes] at this
    rw [this]
    rfl
  | @cluster st k b toks evs e hb hc =>
    rw [mrun_bundle (shape_bundle (clusterStuck_ne hc) hb)]
    rcases cluster_stuck hc rfl S with ⟨h1, h2⟩ | ⟨e', h1, h2⟩
    · rw [h1]
      exact .inl ⟨rfl, h2⟩
    · rw [h1]
      exact .inr ⟨e', rfl, h2⟩
  | @surplus i d st k tok toks hp hns hx =>
    refine .inl ⟨?_, hacc⟩
    have hps := positional_stuck S (.inl rfl) (by simpa [target] using hx) tok
    obtain ⟨l, outer, rfl, h2, h3⟩ := S.cases
    simp only [List.cons.injEq, Prod.mk.injEq] at h2
    obtain ⟨⟨rfl, rfl⟩, rfl⟩ := h2
    rw [mrun_pos hp (mSub_other hns), hps]
    rfl
  | @dashed i d st k tok toks hl hx =>
    refine .inl ⟨?_, hacc⟩
    rw [mrun_dashed, positional_stuck S (.inr rfl) (by simp [target, hl, hx]) tok]
    rfl

/-! ## Progress -/

theorem cluster_progress (cx : Cx V) (st : List (Entry V)) (next : Option Bytes) (b : Bytes) (hne : b ≠ []) :
    (∃ evs, Cluster cx st next b evs false) ∨ (∃ evs v, next = some v ∧ Cluster cx st next b evs true)
    ∨ (∃ evs e, ClusterStuck cx st next b evs e) := by
  induction hn : b.length using Nat.strongRecOn generalizing b with
  | _ n ih =>
  by_cases hb : ∃ c r, b = encChar c ++ r
  · obtain ⟨c, r, rfl⟩ := hb
    rcases resolves_or_unknown cx st (.short c) with ⟨a, f, hr⟩ | hu
    · by_cases hr0 : r = []
      · subst hr0
        rw [List.append_nil]
        cases ht : takesValue f with
        | false => exact .inl ⟨_, .bare hr ht⟩
        | true =>
          cases hq : f.src.requireEquals with
          | true => exact .inr (.inr ⟨_, _, .missingEq hr ht hq⟩)
          | false =>
            by_cases hs : ∃ v, next = some v ∧ Standalone f v
            · obtain ⟨v, h1, h2⟩ := hs
              exact .inr (.inl ⟨_, v, h1, .sep hr ht hq h1 h2⟩)
            · exact .inr (.inr ⟨_, _, .missingValue hr ht hq (fun v h1 h2 => hs ⟨v, h1, h2⟩)⟩)
      · by_cases he : r.head? = some eqSign
        · obtain ⟨v, rfl⟩ : ∃ v, r = eqSign :: v := by
            cases r with
            | nil => simp at he
            | cons b v => simp at he; exact ⟨v, by rw [he]⟩
          cases ht : takesValue f with
          | true => exact .inl ⟨_, .eq hr ht⟩
          | false =>
            by_cases hk : f.kind = .bool
            · exact .inr (.inr ⟨_, _, .flagValue hr hk⟩)
            · have : f.kind = .optionOption := by
                unfold takesValue at ht
                cases h : f.kind <;> simp [h] at ht hk ⊢
              exact .inr (.inr ⟨_, _, .optionalValue hr this⟩)
        · cases hq : f.src.requireEquals with
          | true => exact .inr (.inr ⟨_, _, .missingEqAttached hr hq hr0 he⟩)
          | false =>
            cases ht : takesValue f with
            | true => exact .inl ⟨_, .attached hr ht hq hr0 he⟩
            | false =>
              have hlt : r.length < n := by
                rw [← hn, List.length_append]
                have := encChar_length_pos c
                omega
              rcases ih _ hlt r hr0 rfl with ⟨evs, h⟩ | ⟨evs, v, h1, h⟩ | ⟨evs, e, h⟩
              · exact .inl ⟨_, .more hr ht hq hr0 he h⟩
              · exact .inr (.inl ⟨_, v, h1, .more hr ht hq hr0 he h⟩)
              · exact .inr (.inr ⟨_, _, .more hr ht hq hr0 he h⟩)
    · by_cases hc : c = 'h'
      · subst hc
        exact .inr (.inr ⟨_, _, .help hu⟩)
      · exact .inr (.inr ⟨_, _, .unknown hu hc⟩)
  · exact .inr (.inr ⟨_, _, .invalid hne (fun c r h => hb ⟨c, r, h⟩)⟩)

theorem progress {cx : Cx V} {ls : List (Level V)} {κ : Ctx V} {log : List Event} (S : Sim cx ls κ log)
    {toks : Toks} (hne : toks ≠ []) :
    (∃ evs κ1 rest, Step cx κ toks evs κ1 rest ∧ rest.length < toks.length) ∨ (∃ evs e, Stuck cx κ toks evs e) := by
  obtain ⟨tok, toks, rfl⟩ := List.exists_cons_of_ne_nil hne
  obtain ⟨l, outer, hls, h2, h3⟩ := S.cases
  obtain ⟨stack, k, mode⟩ := κ
  simp only at h2
  cases mode with
  | trailing j =>
    subst h2
    exact .inl ⟨_, _, _, .trailing, by simp⟩
  | dashed =>
    subst h2
    cases hl : lastArg l.d with
    | some x => exact .inl ⟨_, _, _, .last hl, by simp⟩
    | none =>
      cases hx : posTarget l.d k with
      | some x => exact .inl ⟨_, _, _, .dashed hl hx, by simp⟩
      | none => exact .inr ⟨_, _, .dashed hl hx⟩
  | opts =>
    rcases shape_cases tok with rfl | ⟨r, hr, rfl⟩ | ⟨b, hb1, hb2, rfl⟩ | hp
    · exact .inl ⟨_, _, _, .dashdash, by simp⟩
    · obtain ⟨name, tail, h4, h5, h6⟩ := split_eq r
      have hne' : eqSign ∉ dash :: dash :: name := by
        simp only [List.mem_cons, not_or]
        exact ⟨by decide, by decide, h5⟩
      have h6' : tail = [] ∨ tail.head? = some eqSign := by
        rcases h6 with h | ⟨v, h⟩
        · exact .inl h
        · exact .inr (by rw [h]; rfl)
      rw [h4]
      cases hu8 : fromUtf8 name with
      | none =>
        refine .inr ⟨_, _, .longUnknown (name := dash :: dash :: name) (tail := tail) ⟨name, rfl⟩ ?_ hne' h6' ?_ ?_⟩
        · intro h; simp at h; exact hr (by rw [h4, h.1, h.2]; rfl)
        · intro n hn
          rw [enc_dashdash] at hn
          simp only [List.cons.injEq, true_and] at hn
          rw [hn, fromUtf8_enc] at hu8
          cases hu8
        · intro h
          rw [blit_help, enc_dashdash] at h
          simp only [List.cons.injEq, true_and] at h
          rw [h, fromUtf8_enc] at hu8
          cases hu8
      | some n =>
        rw [fromUtf8_eq_some] at hu8
        subst hu8
        have hn : '=' ∉ n := by rw [← eqSign_mem_enc]; exact h5
        have hcons : dash :: dash :: (enc n ++ tail) = enc ('-' :: '-' :: n) ++ tail := by rw [enc_dashdash]; rfl
        rw [hcons]
        rcases resolves_or_unknown cx stack (.long n) with ⟨a, f, hr'⟩ | hu
        · have hp := (S.fieldWF (resolves_fieldAt hr')).toFieldPre
          rcases h6 with rfl | ⟨v, rfl⟩
          · rw [List.append_nil]
            have hnn : n ≠ [] := by
              rintro rfl
              exact hr (by rw [h4]; rfl)
            cases ht : takesValue f with
            | false => exact .inl ⟨_, _, _, .longBare hr' hn hnn ht, by simp⟩
            | true =>
              cases hq : f.src.requireEquals with
              | true => exact .inr ⟨_, _, .missingEq hr' hn hnn ht hq⟩
              | false =>
                by_cases hs : ∃ v, toks.head? = some v ∧ Standalone f v
                · obtain ⟨v, h1, h2⟩ := hs
                  obtain ⟨v', rest', rfl⟩ : ∃ v' rest', toks = v' :: rest' := by
                    cases toks with
                    | nil => simp at h1
                    | cons x y => exact ⟨x, y, rfl⟩
                  simp at h1
                  subst h1
                  exact .inl ⟨_, _, _, .longSep hr' hn hnn ht hq h2, by simp only [List.length_cons]; omega⟩
                · exact .inr ⟨_, _, .missingValue hr' hn hnn ht hq (fun v h1 h2 => hs ⟨v, h1, h2⟩)⟩
          · by_cases hk : f.kind = .bool
            · exact .inr ⟨_, _, .flagValue hr' hn hk⟩
            · exact .inl ⟨_, _, _, .longEq hr' hn hk, by simp⟩
        · by_cases hh : n = lit "help"
          · subst hh
            rw [← blit_help]
            exact .inr ⟨_, _, .longHelp h6' hu⟩
          · refine .inr ⟨_, _, .longUnknown ?_ ?_ ?_ h6' ?_ ?_⟩
            · rw [enc_dashdash]; exact ⟨enc n, rfl⟩
            · rw [enc_dashdash]
              intro h
              simp at h
              exact hr (by rw [h4, h.1, h.2]; rfl)
            · exact eq_not_mem_long hn
            · intro n' hn'
              have := enc_injective hn'
              simp only [List.cons.injEq, true_and] at this
              rw [← this]
              exact hu
            · intro h
              rw [blit_help] at h
              have := enc_injective h
              simp only [List.cons.injEq, true_and] at this
              exact hh this
    · rcases cluster_progress cx _ toks.head? b hb1 with ⟨evs, h⟩ | ⟨evs, v, h1, h⟩ | ⟨evs, e, h⟩
      · exact .inl ⟨_, _, _, .cluster hb2 h, by simp⟩
      · obtain ⟨v', rest', rfl⟩ : ∃ v' rest', toks = v' :: rest' := by
          cases toks with
          | nil => simp at h1
          | cons x y => exact ⟨x, y, rfl⟩
        exact .inl ⟨_, _, _, .clusterSep hb2 h, by simp only [List.length_cons]; omega⟩
      · exact .inr ⟨_, _, .cluster hb2 h⟩
    · subst h2
      by_cases hsub : ∃ v ∈ subVariants l.d, enc v.name = tok
      · obtain ⟨v, hv, rfl⟩ := hsub
        obtain ⟨w, hw, h⟩ := selected_exists hv
        rw [← h] at hp ⊢
        exact .inl ⟨_, _, _, .sub hw hp, by simp⟩
      · have hns : ∀ v ∈ subVariants l.d, enc v.name ≠ tok := fun v hv h => hsub ⟨v, hv, h⟩
        cases hx : posTarget l.d k with
        | some x => exact .inl ⟨_, _, _, .positional hp hns hx, by simp⟩
        | none => exact .inr ⟨_, _, .surplus hp hns hx⟩

/-! ## Reading is a sequence of steps -/

theorem reads_steps {cx : Cx V} {κ κ' : Ctx V} {toks : Toks} {evs : List Event} (h : Reads cx κ toks evs κ') :
    Steps cx κ toks evs κ' [] := by
  induction h with
  | done => exact .refl
  | longEq hr hn ht _ ih => exact .step (.longEq hr hn ht) ih
  | longBare hr hn hne ht _ ih => exact .step (.longBare hr hn hne ht) ih
  | longSep hr hn hne ht hq hs _ ih => exact .step (.longSep hr hn hne ht hq hs) ih
  | cluster hb hc _ ih => exact .step (.cluster hb hc) ih
  | clusterSep hb hc _ ih => exact .step (.clusterSep hb hc) ih
  | sub hv hp _ ih => exact .step (.sub hv hp) ih
  | positional hp hns hx _ ih => exact .step (.positional hp hns hx) ih
  | dashdash _ ih => exact .step .dashdash ih
  | last hx _ ih => exact .step (.last hx) ih
  | dashed hl hx _ ih => exact .step (.dashed hl hx) ih
  | trailing _ ih => exact .step .trailing ih

theorem step_reads {cx : Cx V} {κ κ1 κ' : Ctx V} {toks rest : Toks} {evs evs' : List Event}
    (h : Step cx κ toks evs κ1 rest) (hr : Reads cx κ1 rest evs' κ') : Reads cx κ toks (evs ++ evs') κ' := by
  cases h with
  | longEq h1 hn ht => exact .longEq h1 hn ht hr
  | longBare h1 hn hne ht => exact .longBare h1 hn hne ht hr
  | longSep h1 hn hne ht hq hs => exact .longSep h1 hn hne ht hq hs hr
  | cluster hb hc => exact .cluster hb hc hr
  | clusterSep hb hc => exact .clusterSep hb hc hr
  | sub hv hp => exact .sub hv hp hr
  | positional hp hns hx => exact .positional hp hns hx hr
  | dashdash => exact .dashdash hr
  | last hx => exact .last hx hr
  | dashed hl hx => exact .dashed hl hx hr
  | trailing => exact .trailing hr

theorem steps_reads {cx : Cx V} {κ κ1 κ' : Ctx V} {toks rest : Toks} {evs evs' : List Event}
    (h : Steps cx κ toks evs κ1 rest) (hr : Reads cx κ1 rest evs' κ') : Reads cx κ toks (evs ++ evs') κ' := by
  induction h with
  | refl => exact hr
  | step h _ ih => rw [List.append_assoc]; exact step_reads h (ih hr)

theorem reads_iff_steps {cx : Cx V} {κ κ' : Ctx V} {toks : Toks} {evs : List Event} :
    Reads cx κ toks evs κ' ↔ Steps cx κ toks evs κ' [] :=
  ⟨reads_steps, fun h => by have := steps_reads h .done; simpa using this⟩

theorem cluster_next {cx : Cx V} {st : List (Entry V)} {next : Option Bytes} {b : Bytes} {evs : List Event} {took : Bool}
    (hc : Cluster cx st next b evs took) (hf : took = false) (next' : Option Bytes) : Cluster cx st next' b evs false := by
  induction hc with
  | bare hr ht => exact .bare hr ht
  | more hr ht hq hne heq _ ih => exact .more hr ht hq hne heq (ih hf)
  | eq hr ht => exact .eq hr ht
  | attached hr ht hq hne heq => exact .attached hr ht hq hne heq
  | sep => cases hf

theorem step_append {cx : Cx V} {κ κ1 : Ctx V} {toks rest : Toks} {evs : List Event}
    (h : Step cx κ toks evs κ1 rest) (post : Toks) : Step cx κ (toks ++ post) evs κ1 (rest ++ post) := by
  cases h with
  | longEq h1 hn ht => exact .longEq h1 hn ht
  | longBare h1 hn hne ht => exact .longBare h1 hn hne ht
  | longSep h1 hn hne ht hq hs => exact .longSep h1 hn hne ht hq hs
  | cluster hb hc => exact .cluster hb (cluster_next hc rfl _)
  | clusterSep hb hc => exact .clusterSep hb hc
  | sub hv hp => exact .sub hv hp
  | positional hp hns hx => exact .positional hp hns hx
  | dashdash => exact .dashdash
  | last hx => exact .last hx
  | dashed hl hx => exact .dashed hl hx
  | trailing => exact .trailing

theorem steps_append {cx : Cx V} {κ κ1 : Ctx V} {toks rest : Toks} {evs : List Event}
    (h : Steps cx κ toks evs κ1 rest) (post : Toks) : Steps cx κ (toks ++ post) evs κ1 (rest ++ post) := by
  induction h with
  | refl => exact .refl
  | step h _ ih => exact .step (step_append h post) ih

theorem steps_trans {cx : Cx V} {κ κ1 κ2 : Ctx V} {toks rest rest' : Toks} {evs evs' : List Event}
    (h : Steps cx κ toks evs κ1 rest) (h' : Steps cx κ1 rest evs' κ2 rest') : Steps cx κ toks (evs ++ evs') κ2 rest' := by
  induction h with
  | refl => exact h'
  | step h _ ih => rw [List.append_assoc]; exact .step h (ih h')

theorem reads_append {cx : Cx V} {κ κ1 κ2 : Ctx V} {toks toks' : Toks} {evs evs' : List Event}
    (h : Reads cx κ toks evs κ1) (h' : Reads cx κ1 toks' evs' κ2) : Reads cx κ (toks ++ toks') (evs ++ evs') κ2 := by
  have := steps_append (reads_steps h) toks'
  exact steps_reads (by simpa using this) h'

/-! ## Stacks only grow -/

theorem step_stack {cx : Cx V} {κ κ1 : Ctx V} {toks rest : Toks} {evs : List Event}
    (h : Step cx κ toks evs κ1 rest) : ∃ ext, κ1.stack = ext ++ κ.stack := by
  cases h <;> first | exact ⟨[], rfl⟩ | exact ⟨[_], rfl⟩

theorem steps_stack {cx : Cx V} {κ κ1 : Ctx V} {toks rest : Toks} {evs : List Event}
    (h : Steps cx κ toks evs κ1 rest) : ∃ ext, κ1.stack = ext ++ κ.stack := by
  induction h with
  | refl => exact ⟨[], rfl⟩
  | step h _ ih =>
    obtain ⟨e1, h1⟩ := step_stack h
    obtain ⟨e2, h2⟩ := ih
    exact ⟨e2 ++ e1, by rw [h2, h1, List.append_assoc]⟩

theorem fieldAt_ext {ext st : List (Entry V)} {a : Addr} (ha : a.level < st.length) :
    fieldAt (ext ++ st) a = fieldAt st a := by
  induction ext with
  | nil => rfl
  | cons x ext ih =>
    obtain ⟨i, d⟩ := x
    rw [List.cons_append, fieldAt, if_neg (by rw [List.length_append]; omega), ih]

theorem fieldAt_ext_some {ext st : List (Entry V)} {a : Addr} {f : FieldInfo V} (h : fieldAt st a = some f) :
    fieldAt (ext ++ st) a = some f := by
  rw [fieldAt_ext (fieldAt_level h), h]

/-- Everything before the first unacceptable occurrence is within the levels seen so far. -/
theorem Spec.FirstBad.ext {st : List (Entry V)} {log evs : List Event} {e : Error} (h : FirstBad st log evs e)
    (hfresh : ∀ x ∈ log ++ evs, x.1.level < st.length) (ext : List (Entry V)) : FirstBad (ext ++ st) log evs e := by
  obtain ⟨pre, a, o, post, f, e0, rfl, h2, h3, h4, h5⟩ := h
  refine ⟨pre, a, o, post, f, e0, rfl, fieldAt_ext_some h2, ?_, h4, h5⟩
  intro b g hg
  by_cases hb : b.level < st.length
  · rw [fieldAt_ext hb] at hg
    exact h3 b g hg
  · rw [occs_fresh (n := st.length) (fun x hx => hfresh x (by
      rcases List.mem_append.1 hx with hx | hx <;> simp [hx])) (by omega)]
    simp [given_nil]

theorem cluster_fields {cx : Cx V} {st : List (Entry V)} {next : Option Bytes} {b : Bytes} {evs : List Event} {took : Bool}
    (h : Cluster cx st next b evs took) : ∀ x ∈ evs, ∃ f, fieldAt st x.1 = some f := by
  induction h with
  | bare hr => intro x hx; rw [List.mem_singleton] at hx; subst hx; exact ⟨_, resolves_fieldAt hr⟩
  | more hr _ _ _ _ _ ih =>
    intro x hx
    rcases List.mem_cons.1 hx with rfl | hx
    · exact ⟨_, resolves_fieldAt hr⟩
    · exact ih x hx
  | eq hr => intro x hx; rw [List.mem_singleton] at hx; subst hx; exact ⟨_, resolves_fieldAt hr⟩
  | attached hr => intro x hx; rw [List.mem_singleton] at hx; subst hx; exact ⟨_, resolves_fieldAt hr⟩
  | sep hr => intro x hx; rw [List.mem_singleton] at hx; subst hx; exact ⟨_, resolves_fieldAt hr⟩

theorem clusterStuck_fields {cx : Cx V} {st : List (Entry V)} {next : Option Bytes} {b : Bytes} {evs : List Event}
    {e : Error} (h : ClusterStuck cx st next b evs e) : ∀ x ∈ evs, ∃ f, fieldAt st x.1 = some f := by
  induction h with
  | more hr _ _ _ _ _ ih =>
    intro x hx
    rcases List.mem_cons.1 hx with rfl | hx
    · exact ⟨_, resolves_fieldAt hr⟩
    · exact ih x hx
  | optionalValue hr => intro x hx; rw [List.mem_singleton] at hx; subst hx; exact ⟨_, resolves_fieldAt hr⟩
  | _ => simp

theorem step_fresh {cx : Cx V} {κ κ1 : Ctx V} {toks rest : Toks} {evs : List Event} (h : Step cx κ toks evs κ1 rest) :
    ∀ x ∈ evs, x.1.level < κ.stack.length := by
  intro x hx
  cases h with
  | longEq hr | longBare hr | longSep hr =>
    rw [List.mem_singleton] at hx; subst hx; exact fieldAt_level (resolves_fieldAt hr)
  | cluster hb hc | clusterSep hb hc => obtain ⟨f, hf⟩ := cluster_fields hc x hx; exact fieldAt_level hf
  | sub | dashdash => simp at hx
  | positional | last | dashed | trailing => rw [List.mem_singleton] at hx; subst hx; simp

theorem stuck_fresh {cx : Cx V} {κ : Ctx V} {toks : Toks} {evs : List Event} {e : Error} (h : Stuck cx κ toks evs e) :
    ∀ x ∈ evs, x.1.level < κ.stack.length := by
  intro x hx
  cases h with
  | cluster hb hc => obtain ⟨f, hf⟩ := clusterStuck_fields hc x hx; exact fieldAt_level hf
  | _ => simp at hx

theorem steps_fresh {cx : Cx V} {κ κ1 : Ctx V} {toks rest : Toks} {evs : List Event} (h : Steps cx κ toks evs κ1 rest) :
    ∀ x ∈ evs, x.1.level < κ1.stack.length := by
  induction h with
  | refl => simp
  | step h hs ih =>
    intro x hx
    rcases List.mem_append.1 hx with hx | hx
    · have h1 := step_fresh h x hx
      obtain ⟨e1, q1⟩ := step_stack h
      obtain ⟨e2, q2⟩ := steps_stack hs
      rw [q2, q1]
      simp only [List.length_append]
      omega
    · exact ih x hx

theorem Sim.fresh' {cx : Cx V} {ls : List (Level V)} {κ : Ctx V} {log : List Event} (S : Sim cx ls κ log) :
    ∀ e ∈ log, e.1.level < κ.stack.length := by
  intro e he
  rw [← S.stack]
  simpa [stackOf] using S.fresh e he

/-! ## Runs -/

theorem steps_sound {cx : Cx V} {κ κ1 : Ctx V} {toks rest : Toks} {evs : List Event} (hs : Steps cx κ toks evs κ1 rest)
    {ls : List (Level V)} {log : List Event} (S : Sim cx ls κ log) :
    (∃ ls1, Sim cx ls1 κ1 (log ++ evs) ∧ mrun ls κ.mode toks = mrun ls1 κ1.mode rest)
    ∨ (∃ e, mrun ls κ.mode toks = errR e ∧ FirstBad κ1.stack log evs e) := by
  induction hs generalizing ls log with
  | refl => exact .inl ⟨ls, by rw [List.append_nil]; exact S, rfl⟩
  | @step κ toks evs κ1 rest evs' κ' toks' h hs ih =>
    rcases step_sound h S with ⟨ls1, S1, h1⟩ | ⟨e, h1, h2⟩
    · rcases ih S1 with ⟨ls2, S2, h2⟩ | ⟨e, h2, h3⟩
      · exact .inl ⟨ls2, by rw [← List.append_assoc]; exact S2, by rw [h1, h2]⟩
      · exact .inr ⟨e, by rw [h1, h2], h3.shift⟩
    · refine .inr ⟨e, h1, ?_⟩
      obtain ⟨ext, he⟩ := steps_stack hs
      obtain ⟨ext1, he1⟩ := step_stack h
      rw [he]
      refine (h2.ext ?_ ext).append _
      intro x hx
      rw [he1, List.length_append]
      rcases List.mem_append.1 hx with hx | hx
      · have := S.fresh' x hx; omega
      · have := step_fresh h x hx; omega

/-- Where reading ends. -/
theorem run_cases {cx : Cx V} {ls : List (Level V)} {κ : Ctx V} {log : List Event} (S : Sim cx ls κ log) (toks : Toks) :
    (∃ evs κ', Reads cx κ toks evs κ') ∨ (∃ evs κ' e, Halts cx κ toks evs κ' e)
    ∨ (∃ evs κ' rest e, Steps cx κ toks evs κ' rest ∧ mrun ls κ.mode toks = errR e ∧ FirstBad κ'.stack log evs e) := by
  induction hn : toks.length using Nat.strongRecOn generalizing toks ls κ log with
  | _ n ih =>
  by_cases hne : toks = []
  · subst hne
    exact .inl ⟨_, _, .done⟩
  · rcases progress S hne with ⟨evs, κ1, rest, h, hlt⟩ | ⟨evs, e, h⟩
    · rcases step_sound h S with ⟨ls1, S1, h1⟩ | ⟨e, h1, h2⟩
      · rcases ih _ (by omega) S1 rest rfl with ⟨evs', κ', h2⟩ | ⟨evs', κ', e, evs1, evs2, rest', h2, h3, h4⟩
          | ⟨evs', κ', rest', e, h2, h3, h4⟩
        · exact .inl ⟨_, _, step_reads h h2⟩
        · exact .inr (.inl ⟨_, _, e, evs ++ evs1, evs2, rest', .step h h2, h3, rfl⟩)
        · exact .inr (.inr ⟨_, _, rest', e, .step h h2, by rw [h1, h3], h4.shift⟩)
      · refine .inr (.inr ⟨_, _, rest, e, .step h .refl, h1, ?_⟩)
        rw [List.append_nil]; exact h2
    · exact .inr (.inl ⟨_, _, e, [], evs, toks, .refl, h, rfl⟩)

end Palc
