import Verif.Lemmas.Machine
/-! The generated `__parse` functions: one run of the parser on a chain of frames followed by validation. -/

namespace Palc

open Spec

variable {V : Type}

/-! ## Validation, separately -/

mutual
/-- Validation of a struct, given the final places of all structs of the command. -/
def finArgs : ArgsDef V → List (List (Place V)) → Option (Out V) → R (Out V)
  | .mk _ _ _, [], _ => panicR
  | .mk core flats sub, pls :: rest, subOut =>
    match finFlats flats rest with
    | .error e => .error e
    | .ok outs => finish core sub (ArgsDef.mk core flats sub).info pls outs subOut
def finFlats : Flats V → List (List (Place V)) → R (List (Str × Out V))
  | .nil, _ => .ok []
  | .cons ident d rest, plss =>
    match finArgs d (plss.take (structs d).length) none with
    | .error e => .error e
    | .ok out =>
      match finFlats rest (plss.drop (structs d).length) with
      | .error e => .error e
      | .ok outs => .ok ((ident, out) :: outs)
end

/-- Initial frame of a struct. -/
def mainFrame (d : ArgsDef V) : ArgsFrame V :=
  { fields := (coreOf d).fields.map (·.initializer), info := d.info, nextPositional := 0 }

/-- Initial frames of flattened structs. -/
def flatFrames0 (fl : Flats V) : List (ArgsFrame V) :=
  (flatStructInfos fl).zipWith (fun info pls => { fields := pls, info, nextPositional := 0 })
    ((flatStructs fl).map (fun c => c.fields.map (·.initializer)))

theorem flatFrames0_nil : flatFrames0 (V := V) .nil = [] := by
  unfold flatFrames0; rw [flatStructInfos]; rfl

theorem flatFrames0_cons (ident : Str) (d : ArgsDef V) (rest : Flats V) :
    flatFrames0 (.cons ident d rest) = mainFrame d :: (flatFrames0 (flatsOf d) ++ flatFrames0 rest) := by
  unfold flatFrames0
  rw [flatStructInfos, flatStructs, structInfos_eq, structs_eq]
  rw [List.map_append, List.map_cons, List.cons_append, List.cons_append, List.zipWith_cons_cons]
  rw [List.zipWith_append (by simp [(flatStructInfos_ok (flatsOf d)).1])]
  rfl

theorem flatFrames0_length (fl : Flats V) : (flatFrames0 fl).length = (flatStructs fl).length := by
  unfold flatFrames0
  simp [(flatStructInfos_ok fl).1]

theorem initLevel_cur (ident name : Str) (d : ArgsDef V) : (initLevel ident name d).cur = mainFrame d := rfl

theorem initLevel_flatFrames (ident name : Str) (d : ArgsDef V) :
    (initLevel ident name d).flatFrames = flatFrames0 (flatsOf d) := rfl

theorem structs_length (d : ArgsDef V) : (structs d).length = (flatStructs (flatsOf d)).length + 1 := by
  rw [structs_eq]; rfl

/-- Result of validation with the rest of the run. -/
def finOut {α : Type} (ch : Chain V) (toks : Toks) (a : α) : R (Out V) → R (Out V × Chain V × Toks × α)
  | .error e => .error e
  | .ok out => .ok (out, ch, toks, a)

/-- Result of validation with the rest of the run. -/
def finFlatOut {β : Type} (b : β) (ch : Chain V) (toks : Toks) :
    R (List (Str × Out V)) → R (β × List (Str × Out V) × Chain V × Toks)
  | .error e => .error e
  | .ok outs => .ok (b, outs, ch, toks)

mutual
theorem argsParse_linear : (d : ArgsDef V) → {α : Type} → (chain : Chain V) → (run : RunParser V α) → (toks : Toks) →
    (∀ e, run (mainFrame d) (subPlace (subOf d)) ((flatFrames0 (flatsOf d)).map .args ++ chain) toks = .error e →
      argsParse d chain run toks = .error e)
    ∧ (∀ fr subOut (frs : List (ArgsFrame V)) ch' toks' a,
      run (mainFrame d) (subPlace (subOf d)) ((flatFrames0 (flatsOf d)).map .args ++ chain) toks
        = .ok (fr, subOut, frs.map .args ++ ch', toks', a) →
      frs.length = (flatStructs (flatsOf d)).length →
      argsParse d chain run toks = finOut ch' toks' a (finArgs d (fr.fields :: frs.map (·.fields)) subOut))
  | .mk core flats sub, α, chain, run, toks => by
    have hl := flatsParse_linear flats (β := ArgsFrame V × Option (Out V) × α)
      (runInner run ⟨core.fields.map (·.initializer), (ArgsDef.mk core flats sub).info, 0⟩ (subPlace sub)) chain toks
    constructor
    · intro e h
      rw [argsParse]
      rw [hl.1 e]
      unfold runInner
      simp only [mainFrame, subOf, flatsOf, coreOf] at h
      rw [h]
    · intro fr subOut frs ch' toks' a h hlen
      rw [argsParse]
      rw [hl.2 (fr, subOut, a) frs ch' toks' (by
        unfold runInner
        simp only [mainFrame, subOf, flatsOf, coreOf] at h
        rw [h]) hlen]
      rw [finArgs]
      cases finFlats flats (frs.map (·.fields)) with
      | error e => rfl
      | ok outs =>
        simp only [finFlatOut]
        cases finish core sub (ArgsDef.mk core flats sub).info fr.fields outs subOut <;> rfl
theorem flatsParse_linear : (fl : Flats V) → {β : Type} → (inner : Chain V → Toks → R (β × Chain V × Toks)) →
    (chain : Chain V) → (toks : Toks) →
    (∀ e, inner ((flatFrames0 fl).map .args ++ chain) toks = .error e → flatsParse fl inner chain toks = .error e)
    ∧ (∀ b (frs : List (ArgsFrame V)) ch' toks',
      inner ((flatFrames0 fl).map .args ++ chain) toks = .ok (b, frs.map .args ++ ch', toks') →
      frs.length = (flatStructs fl).length →
      flatsParse fl inner chain toks = finFlatOut b ch' toks' (finFlats fl (frs.map (·.fields))))
  | .nil, β, inner, chain, toks => by
    rw [flatFrames0_nil]
    constructor
    · intro e h
      rw [flatsParse]
      rw [show inner chain toks = _ from h]
    · intro b frs ch' toks' h hlen
      rw [flatStructs] at hlen
      have : frs = [] := by simpa using hlen
      subst this
      rw [flatsParse, finFlats]
      rw [show inner chain toks = _ from h]
      rfl
  | .cons ident d rest, β, inner, chain, toks => by
    have hr := flatsParse_linear rest (β := β × Out V) (fun chain toks =>
        pairOut (argsParse d chain (wrapFrame inner) toks)) chain toks
    have hd := argsParse_linear d ((flatFrames0 rest).map .args ++ chain) (wrapFrame inner) toks
    rw [flatFrames0_cons]
    constructor
    · intro e h
      rw [flatsParse]
      rw [hr.1 e]
      rw [hd.1 e]
      · rfl
      unfold wrapFrame
      simp only [List.map_cons, List.map_append, List.cons_append, List.append_assoc] at h
      rw [h]
    · intro b frs ch' toks' h hlen
      rw [flatStructs, List.length_append] at hlen
      rw [flatsParse, finFlats]
      obtain ⟨fr, frs', rfl⟩ : ∃ fr frs', frs = fr :: frs' := by
        cases frs with
        | nil => rw [structs_length] at hlen; simp at hlen; omega
        | cons fr frs' => exact ⟨_, _, rfl⟩
      rw [structs_length] at hlen
      simp only [List.length_cons] at hlen
      have hn := Nat.add_right_cancel (m := 1) (show frs'.length + 1
        = ((flatStructs (flatsOf d)).length + (flatStructs rest).length) + 1 by omega)
      have hsplit : frs' = frs'.take (flatStructs (flatsOf d)).length ++ frs'.drop (flatStructs (flatsOf d)).length :=
        (List.take_append_drop ..).symm
      have hd2 := hd.2 fr none (frs'.take (flatStructs (flatsOf d)).length)
        ((frs'.drop (flatStructs (flatsOf d)).length).map .args ++ ch') toks' b (by
          unfold wrapFrame
          simp only [List.map_cons, List.map_append, List.cons_append, List.append_assoc] at h
          rw [h]
          simp only [Except.ok.injEq, Prod.mk.injEq, true_and, and_true]
          rw [← List.append_assoc, ← List.map_append, List.take_append_drop]) (by rw [List.length_take]; omega)
      have htake : ((fr :: frs').map (·.fields)).take (structs d).length
          = fr.fields :: (frs'.take (flatStructs (flatsOf d)).length).map (·.fields) := by
        rw [structs_length]
        simp
      have hdrop : ((fr :: frs').map (·.fields)).drop (structs d).length
          = (frs'.drop (flatStructs (flatsOf d)).length).map (·.fields) := by
        rw [structs_length]
        simp
      rw [htake, hdrop]
      cases hfin : finArgs d (fr.fields :: (frs'.take (flatStructs (flatsOf d)).length).map (·.fields)) none with
      | error e =>
        rw [hr.1 e]
        · rfl
        · rw [hd2, hfin]
          rfl
      | ok out =>
        rw [hr.2 (b, out) (frs'.drop (flatStructs (flatsOf d)).length) ch' toks']
        · cases finFlats rest ((frs'.drop (flatStructs (flatsOf d)).length).map (·.fields)) <;> rfl
        · rw [hd2, hfin]
          rfl
        · rw [List.length_drop]; omega
end

/-! ## Variants -/

theorem unitInfo_eq (cmeta : Option CommandMeta) :
    unitInfo cmeta = (ArgsDef.mk (V := V) { fields := [], namedCnt := 0, cmdMeta := cmeta } .nil .none).info := by
  rw [ArgsDef.info, Flats.infos, SubField.info]
  unfold unitInfo
  have : helpDisplay (V := Unit) none cmeta [] =
      helpDisplay (some ({ fields := [], namedCnt := 0, cmdMeta := cmeta } : Core V)) cmeta [] := by
    funext n
    match n with
    | 0 => rfl
    | 1 => rfl
    | 2 => rfl
    | 3 => rfl
    | 4 => rfl
    | 5 => rfl
    | _ + 6 => rfl
  rw [this]
  rfl

theorem variantParse_eq (v : Variant V) (chain : Chain V) (toks : Toks) :
    variantParse v chain toks = match argsParse (variantDef v) chain rawRun toks with
      | .error e => .error e
      | .ok (out, chain, toks, ()) => .ok (.variant (variantIdent v) out, chain, toks) := by
  cases v with
  | args ident name d => rw [variantParse]; rfl
  | unit ident name cmeta =>
    rw [variantParse, variantDef, argsParse, flatsParse, unitInfo_eq (V := V), subPlace]
    simp only [List.map_nil]
    unfold runInner
    cases rawRun (V := V) ⟨[], (ArgsDef.mk (V := V) { fields := [], namedCnt := 0, cmdMeta := cmeta } .nil .none).info,
        0⟩ none chain toks with
    | error e => rfl
    | ok r => rfl

theorem variantsParse_eq (vs : Variants V) (idx : Nat) (chain : Chain V) (toks : Toks) (v : Variant V)
    (h : (variantList vs)[idx]? = some v) : variantsParse vs idx chain toks = variantParse v chain toks := by
  induction idx generalizing vs with
  | zero =>
    cases vs with
    | nil => simp [variantList] at h
    | cons w rest =>
      simp only [variantList, List.getElem?_cons_zero, Option.some.injEq] at h
      subst h
      rw [variantsParse]
  | succ n ih =>
    cases vs with
    | nil => simp [variantList] at h
    | cons w rest =>
      simp only [variantList, List.getElem?_cons_succ] at h
      rw [variantsParse]
      exact ih rest h

theorem variants_names (vs : Variants V) : vs.names = (variantList vs).map (·.name) := by
  induction h : variantList vs generalizing vs with
  | nil =>
    cases vs with
    | nil => rfl
    | cons v r => simp [variantList] at h
  | cons v l ih =>
    cases vs with
    | nil => simp [variantList] at h
    | cons w r =>
      simp only [variantList, List.cons.injEq] at h
      rw [Variants.names, ih r h.2, h.1]
      rfl

/-- Search for a subcommand. -/
theorem search_sub (vs : Variants V) (si : SubcmdInfo) (hm : si.map = subcmdMap vs.names) (arg : Bytes) :
    (∃ (idx : Nat) (v : Variant V), si.search arg = some (v.name, idx) ∧ (variantList vs)[idx]? = some v ∧ enc v.name = arg)
    ∨ (si.search arg = none ∧ ∀ v ∈ variantList vs, enc v.name ≠ arg) := by
  have hs := sortByKey_sorted (fun e : Str × Nat => enc e.1) vs.names.zipIdx
  have hmem : ∀ e : Str × Nat, e ∈ subcmdMap vs.names ↔ ∃ v : Variant V, (variantList vs)[e.2]? = some v ∧ v.name = e.1 := by
    intro e
    unfold subcmdMap
    rw [(sortByKey_perm _ _).mem_iff, List.mem_zipIdx_iff_getElem?, variants_names, List.getElem?_map,
      Option.map_eq_some_iff]
  have hlook : si.search arg = (match binarySearch ((subcmdMap vs.names).map (fun e : Str × Nat => enc e.1)) arg with
        | some i => (subcmdMap vs.names)[i]?
        | none => none) := by
    unfold SubcmdInfo.search
    rw [hm]
    cases hb : binarySearch ((subcmdMap vs.names).map (fun e : Str × Nat => enc e.1)) arg <;> rfl
  rcases table_lookup (subcmdMap vs.names) hs arg with ⟨e, he, hek, hr⟩ | ⟨hno, hr⟩
  · left
    obtain ⟨v, h1, h2⟩ := (hmem e).1 he
    refine ⟨e.2, v, ?_, h1, by rw [h2]; exact hek⟩
    rw [hlook, h2]
    exact hr
  · right
    refine ⟨by rw [hlook, hr], ?_⟩
    intro v hv he
    obtain ⟨i, hi⟩ := List.getElem?_of_mem hv
    exact hno (v.name, i) ((hmem _).2 ⟨v, hi, rfl⟩) he

theorem mSub_spec (d : ArgsDef V) (arg : Bytes) :
    (∃ v ∈ subVariants d, mSub d arg = some v ∧ enc v.name = arg)
    ∨ (mSub d arg = none ∧ ∀ v ∈ subVariants d, enc v.name ≠ arg) := by
  unfold mSub searched subVariants
  cases subOf d with
  | none => right; rw [SubField.info]; exact ⟨rfl, by simp⟩
  | some i o vs =>
    rw [SubField.info]
    simp only
    rcases search_sub vs { names := packNul vs.names, map := subcmdMap vs.names, variantHelps := vs.helps } rfl arg with
      ⟨idx, v, h1, h2, h3⟩ | ⟨h1, h2⟩
    · left
      rw [h1]
      exact ⟨v, List.mem_of_getElem? h2, h2, h3⟩
    · right
      rw [h1]
      exact ⟨rfl, h2⟩

theorem WFVariants.mem {cx : Cx V} (vs : Variants V) (h : WFVariants cx vs) : ∀ v ∈ variantList vs, WFVariant cx v := by
  induction hl : variantList vs generalizing vs with
  | nil => simp
  | cons v l ih =>
    cases vs with
    | nil => simp [variantList] at hl
    | cons w r =>
      simp only [variantList, List.cons.injEq] at hl
      rw [WFVariants] at h
      intro x hx
      rcases List.mem_cons.1 hx with rfl | hx
      · rw [← hl.1]; exact h.1
      · exact ih r h.2 hl.2 x hx

theorem WFVariant.def {cx : Cx V} (v : Variant V) (h : WFVariant cx v) : WFArgs cx (variantDef v) := by
  cases v with
  | args i n d => rw [WFVariant] at h; exact h
  | unit i n m =>
    rw [variantDef, WFArgs, WFFlats, WFSub]
    refine ⟨?_, trivial, trivial, by simp⟩
    refine { len := by simp, fields := by simp, cnt := by simp, named := by simp, layout := ?_, nodup := by simp,
             idents := by simp, depsOk := by simp, confsOk := by simp }
    exact ⟨[], none, none, by simp, by simp, by simp, by simp⟩

theorem initLevel_ok {cx : Cx V} (ident name : Str) {d : ArgsDef V} (h : WFArgs cx d) : (initLevel ident name d).Ok cx := by
  have hpl : (initLevel ident name d).places = (structs d).map (fun c => c.fields.map (·.initializer)) := by
    rw [structs_eq]; rfl
  refine { wf := h, len := by rw [hpl]; simp [initLevel], fits := ?_, pos := by simp [initLevel] }
  intro s c pls hc hp
  have hc' : (structs d)[s]? = some c := hc
  rw [hpl, List.getElem?_map, hc'] at hp
  simp only [Option.map_some, Option.some.injEq] at hp
  subst hp
  refine ⟨by simp, ?_⟩
  intro i f pl hf hpl
  rw [List.getElem?_map, hf] at hpl
  simp only [Option.map_some, Option.some.injEq] at hpl
  subst hpl
  exact fits_initializer ((WFArgs.structs d h c (List.mem_of_getElem? hc')).fields i f hf).toFieldPre

theorem subLevel_ok {cx : Cx V} {d : ArgsDef V} (h : WFArgs cx d) {v : Variant V} (hv : v ∈ subVariants d) :
    (subLevel v).Ok cx := by
  refine initLevel_ok _ _ (WFVariant.def v ?_)
  obtain ⟨core, flats, sub⟩ := d
  rw [WFArgs] at h
  unfold subVariants subOf at hv
  cases sub with
  | none => simp at hv
  | some i o vs =>
    have := h.2.2.1
    rw [WFSub] at this
    exact WFVariants.mem vs this v hv

/-! ## The whole run -/

/-- Validation of levels, innermost first, each becoming the subcommand of the next. -/
def finLevels : List (Level V) → Option (Out V) → R (Option (Out V))
  | [], sub => .ok sub
  | l :: outer, sub =>
    match finArgs l.d l.places sub with
    | .error e => .error e
    | .ok out => finLevels outer (some (.variant l.ident out))

theorem finLevels_append (xs ys : List (Level V)) (sub : Option (Out V)) :
    finLevels (xs ++ ys) sub = match finLevels xs sub with
      | .error e => .error e
      | .ok sub => finLevels ys sub := by
  induction xs generalizing sub with
  | nil => rfl
  | cons x xs ih =>
    simp only [List.cons_append, finLevels]
    cases finArgs x.d x.places sub with
    | error e => rfl
    | ok out => exact ih _

/-- What `run_parser` returns for the innermost of `n + 1` levels when the machine ended with `ls`. -/
def runOut (n : Nat) (ls : List (Level V)) : R (ArgsFrame V × Option (Out V) × Chain V × Toks) :=
  match finLevels (ls.take (ls.length - (n + 1))) none with
  | .error e => .error e
  | .ok sub =>
    match ls.drop (ls.length - (n + 1)) with
    | l :: outer => .ok (l.cur, sub, parentsOf (l :: outer), [])
    | [] => panicR

theorem runOut_same (l : Level V) (outer : List (Level V)) :
    runOut outer.length (l :: outer) = .ok (l.cur, none, parentsOf (l :: outer), []) := by
  unfold runOut
  simp [finLevels]

/-- The result of a run. -/
def machineOut (n : Nat) : R (List (Level V) × Mode) → R (ArgsFrame V × Option (Out V) × Chain V × Toks)
  | .error e => .error e
  | .ok (ls, _) => runOut n ls

theorem mrun_ok {cx : Cx V} {toks : Toks} {mode mode' : Mode} {ls ls' : List (Level V)} (h : ∀ x ∈ ls, x.Ok cx)
    (hm : mrun ls mode toks = .ok (ls', mode')) :
    (∀ x ∈ ls', x.Ok cx) ∧ ∃ ext, sig ls' = ext ++ sig ls := by
  induction hn : toks.length using Nat.strongRecOn generalizing toks mode ls with
  | _ n ih =>
  cases toks with
  | nil => simp only [mrun] at hm; cases hm; exact ⟨h, [], rfl⟩
  | cons arg rest =>
    simp only [List.length_cons] at hn
    have step : ∀ {ls1 : List (Level V)} {m1 : Mode} {ts : Toks}, ts.length < n → (∀ x ∈ ls1, x.Ok cx) →
        (∃ ext, sig ls1 = ext ++ sig ls) → mrun ls1 m1 ts = .ok (ls', mode') →
        (∀ x ∈ ls', x.Ok cx) ∧ ∃ ext, sig ls' = ext ++ sig ls := by
      intro ls1 m1 ts hlt h1 h2 hr
      obtain ⟨h3, ext, h4⟩ := ih _ hlt h1 hr rfl
      obtain ⟨ext2, h2⟩ := h2
      exact ⟨h3, ext ++ ext2, by rw [h4, h2, List.append_assoc]⟩
    cases mode with
    | trailing j =>
      simp only [mrun] at hm
      split at hm
      · simp at hm
      · rename_i ls1 h1
        obtain ⟨h2, h3⟩ := mTrail_ok h h1
        exact step (by omega) h2 ⟨[], h3⟩ hm
    | dashed =>
      simp only [mrun] at hm
      split at hm
      · simp at hm
      · rename_i ls1 m1 h1
        obtain ⟨h2, h3⟩ := mPos_ok h h1
        exact step (by omega) h2 ⟨[], h3⟩ hm
    | opts =>
      simp only [mrun] at hm
      split at hm
      · obtain ⟨h2, h3⟩ := mDash_ok h
        exact step (by omega) h2 ⟨[], h3⟩ hm
      · split at hm
        · simp at hm
        · rename_i ls1 h1
          obtain ⟨h2, h3⟩ := mLong_ok h h1
          split at hm
          · rename_i t ts _
            exact step (by simp at hn; omega) h2 ⟨[], h3⟩ hm
          · simp [panicR] at hm
        · rename_i h1
          obtain ⟨h2, h3⟩ := mLong_ok h h1
          exact step (by omega) h2 ⟨[], h3⟩ hm
      · split at hm
        · simp at hm
        · rename_i ls1 h1
          obtain ⟨h2, h3⟩ := mBundle_ok h h1
          split at hm
          · rename_i t ts _
            exact step (by simp at hn; omega) h2 ⟨[], h3⟩ hm
          · simp [panicR] at hm
        · rename_i h1
          obtain ⟨h2, h3⟩ := mBundle_ok h h1
          exact step (by omega) h2 ⟨[], h3⟩ hm
      · split at hm
        · rename_i v hv
          cases ls with
          | nil => simp [mSubTop] at hv
          | cons l outer =>
            have hv' : v ∈ subVariants l.d := by
              rcases mSub_spec l.d arg with ⟨w, hw, e, _⟩ | ⟨e, _⟩
              · rw [show mSub l.d arg = _ from hv] at e; cases e; exact hw
              · rw [show mSub l.d arg = _ from hv] at e; simp at e
            refine step (by omega) ?_ ⟨[(variantIdent v, v.name, variantDef v)], rfl⟩ hm
            intro x hx
            rcases List.mem_cons.1 hx with rfl | hx
            · exact subLevel_ok (h l (by simp)).wf hv'
            · exact h x hx
        · split at hm
          · simp at hm
          · rename_i h1
            obtain ⟨h2, h3⟩ := mPos_ok h h1
            exact step (by omega) h2 ⟨[], h3⟩ hm


theorem runOut_append (xs : List (Level V)) (l : Level V) (outer : List (Level V)) :
    runOut outer.length (xs ++ l :: outer) = match finLevels xs none with
      | .error e => .error e
      | .ok sub => .ok (l.cur, sub, parentsOf (l :: outer), []) := by
  unfold runOut
  have : (xs ++ l :: outer).length - (outer.length + 1) = xs.length := by simp
  rw [this, List.take_left, List.drop_left]

theorem sig_append {ls : List (Level V)} {ext : List (Str × Str × ArgsDef V)} {base : List (Level V)}
    (h : sig ls = ext ++ sig base) : ∃ xs ys, ls = xs ++ ys ∧ sig ys = sig base ∧ sig xs = ext := by
  refine ⟨ls.take ext.length, ls.drop ext.length, (List.take_append_drop ..).symm, ?_, ?_⟩
  · unfold sig at h ⊢
    rw [List.map_drop, h, List.drop_left]
  · unfold sig at h ⊢
    rw [List.map_take, h, List.take_left]

theorem sig_cons_inv {ls : List (Level V)} {l : Level V} {outer : List (Level V)} (h : sig ls = sig (l :: outer)) :
    ∃ l' outer', ls = l' :: outer' ∧ l'.ident = l.ident ∧ l'.name = l.name ∧ l'.d = l.d ∧ sig outer' = sig outer := by
  obtain ⟨l', outer', rfl⟩ := sig_cons_ne h
  simp only [sig, List.map_cons, List.cons.injEq, Prod.mk.injEq] at h
  exact ⟨l', outer', rfl, h.1.1, h.1.2.1, h.1.2.2, h.2⟩

theorem sig_length {xs ys : List (Level V)} (h : sig xs = sig ys) : xs.length = ys.length := by
  have := congrArg List.length h
  simpa [sig] using this

theorem flatFrames_fields {cx : Cx V} {l : Level V} (h : l.Ok cx) : l.flatFrames.map (·.fields) = l.flats := by
  unfold Level.flatFrames
  rw [List.map_zipWith]
  have h1 := (flatStructInfos_ok (flatsOf l.d)).1
  have h2 := h.flats_len
  apply List.ext_getElem
  · simp [h1, h2]
  · intro i h3 h4
    simp

theorem flatFrames_length {cx : Cx V} {l : Level V} (h : l.Ok cx) :
    l.flatFrames.length = (flatStructs (flatsOf l.d)).length := by
  rw [← h.flats_len, ← flatFrames_fields h, List.length_map]

theorem runParser_eq {cx : Cx V} (toks : Toks) (l : Level V) (outer : List (Level V)) (h : ∀ x ∈ l :: outer, x.Ok cx) :
    runParser (subPlace (subOf l.d)) l.cur (parentsOf (l :: outer)) toks
      = machineOut outer.length (mrun (l :: outer) .opts toks) := by
  induction hn : toks.length using Nat.strongRecOn generalizing toks l outer with
  | _ n ih =>
  cases toks with
  | nil =>
    rw [runParser, mrun, machineOut, runOut_same]
  | cons arg rest =>
    simp only [List.length_cons] at hn
    have step : ∀ (ls1 : List (Level V)) (ts : Toks), ts.length < n → (∀ x ∈ ls1, x.Ok cx) →
        sig ls1 = sig (l :: outer) → ∃ l1 outer1, ls1 = l1 :: outer1 ∧
        runParser (subPlace (subOf l.d)) l1.cur (parentsOf (l1 :: outer1)) ts
          = machineOut outer.length (mrun (l1 :: outer1) .opts ts) := by
      intro ls1 ts hlt h1 h2
      obtain ⟨l1, outer1, rfl, _, _, hd, ho⟩ := sig_cons_inv h2
      refine ⟨l1, outer1, rfl, ?_⟩
      rw [← sig_length ho, ← hd]
      exact ih _ hlt ts l1 outer1 h1 rfl
    rw [runParser.eq_def]
    simp only [mrun]
    cases hsh : argShape arg with
    | dashDash =>
      simp only
      obtain ⟨l', h1, h2⟩ := enterDash_eq l outer (h l (by simp))
      rw [h2, h1]
      simp only
      have hok := (mDash_ok h).1
      rw [h1] at hok
      rw [dashLoop_eq l' outer hok]
      cases hm : mrun (l' :: outer) .dashed rest with
      | error e => rfl
      | ok r =>
        obtain ⟨ls, m⟩ := r
        obtain ⟨_, l'', rfl⟩ := mrun_outer (by simp) hm
        simp only [topOut, machineOut]
        rw [runOut_same]
        have hp : parentsOf (l :: outer) = parentsOf (l'' :: outer) := by
          have : l''.flatFrames = l.flatFrames ∧ l''.name = l.name := by
            have h0 : l'.flatFrames = l.flatFrames ∧ l'.name = l.name := by
              simp only [mDash] at h1
              split at h1
              · split at h1
                · cases h1; exact ⟨rfl, rfl⟩
                · cases h1; exact ⟨rfl, rfl⟩
              · cases h1; exact ⟨rfl, rfl⟩
            have := mrun_flats (by simp) hm
            exact ⟨this.1.trans h0.1, this.2.trans h0.2⟩
          simp only [parentsOf, this.1, this.2]
        rw [hp]
    | long =>
      simp only
      rw [visitLong_eq l outer h]
      cases hm : mLong (l :: outer) arg rest.head? with
      | error e => rfl
      | ok r =>
        obtain ⟨ls1, flow⟩ := r
        obtain ⟨h1, h2⟩ := mLong_ok h hm
        cases flow with
        | cont =>
          obtain ⟨l1, outer1, rfl, h3⟩ := step ls1 rest (by omega) h1 h2
          exact h3
        | brk took =>
          cases took with
          | false =>
            obtain ⟨l1, outer1, rfl, h3⟩ := step ls1 rest (by omega) h1 h2
            exact h3
          | true =>
            cases rest with
            | nil =>
              obtain ⟨l1, outer1, rfl, _⟩ := sig_cons_inv h2
              rfl
            | cons t ts =>
              obtain ⟨l1, outer1, rfl, h3⟩ := step ls1 ts (by simp at hn; omega) h1 h2
              exact h3
    | bundle b =>
      simp only
      rw [visitBundle_eq l outer h]
      cases hm : mBundle (l :: outer) b rest.head? with
      | error e => rfl
      | ok r =>
        obtain ⟨ls1, flow⟩ := r
        obtain ⟨h1, h2⟩ := mBundle_ok h hm
        cases flow with
        | cont =>
          obtain ⟨l1, outer1, rfl, h3⟩ := step ls1 rest (by omega) h1 h2
          exact h3
        | brk took =>
          cases took with
          | false =>
            obtain ⟨l1, outer1, rfl, h3⟩ := step ls1 rest (by omega) h1 h2
            exact h3
          | true =>
            cases rest with
            | nil =>
              obtain ⟨l1, outer1, rfl, _⟩ := sig_cons_inv h2
              rfl
            | cons t ts =>
              obtain ⟨l1, outer1, rfl, h3⟩ := step ls1 ts (by simp at hn; omega) h1 h2
              exact h3
    | plain =>
      have hinfo : l.cur.info.subcmdInfo = (subOf l.d).info := info_sub l.d
      have hpos : mSub l.d arg = none →
          (match visitPositional l.cur false arg rest with
            | .error e => .error e
            | .ok (cur, true) => .ok (cur, none, parentsOf (l :: outer), [])
            | .ok (cur, false) => runParser (subPlace (subOf l.d)) cur (parentsOf (l :: outer)) rest)
          = machineOut outer.length (match mPos (l :: outer) .opts arg with
              | .error e => .error e
              | .ok (ls, mode) => mrun ls mode rest) := by
        intro _
        have hv := visitPositional_eq l outer (h l (by simp)) .opts arg rest
        rw [show decide (Mode.opts = Mode.dashed) = false from rfl] at hv
        have hpar : ∀ {l' : Level V} {m : Mode}, mPos (l :: outer) .opts arg = .ok (l' :: outer, m) →
            l'.flatFrames = l.flatFrames ∧ l'.name = l.name := fun h => mPos_flats h
        rcases hv with ⟨e, h1, h2⟩ | ⟨l', h1, h2⟩ | ⟨l', m', h1, e, h2, h3⟩ | ⟨l', m', l'', m'', h1, hm', h2, h3⟩
        · rw [h1, h2]; rfl
        · rw [h1, h2]
          simp only
          obtain ⟨h3, h4⟩ := mPos_ok h h1
          obtain ⟨l1, o1, he, h5⟩ := step (l' :: outer) rest (by omega) h3 h4
          cases he
          rw [← h5]
          have := hpar h1
          simp only [parentsOf, this.1, this.2]
        · rw [h1, h3]; simp only; rw [h2]; rfl
        · rw [h1, h3]; simp only; rw [h2]
          simp only [machineOut]
          rw [runOut_same]
          have g1 := hpar h1
          have g2 := mrun_flats hm' h2
          simp only [parentsOf, g1.1, g1.2, g2.1, g2.2]
      simp only [mSubTop]
      cases hsub : subOf l.d with
      | none =>
        have hns : mSub l.d arg = none := by unfold mSub searched; rw [hsub, SubField.info]
        have := hpos hns
        rw [hsub] at this
        rw [hns]
        simp only [subPlace]
        rw [subPlace] at this
        exact this
      | some si so vs =>
        rw [hsub] at hinfo hpos
        rw [hinfo, SubField.info, subPlace]
        simp only
        have hmsub : mSub l.d arg = match (SubcmdInfo.mk (packNul vs.names) (subcmdMap vs.names) vs.helps).search arg with
            | none => none
            | some (_, idx) => (variantList vs)[idx]? := by
          unfold mSub searched subVariants
          rw [hsub, SubField.info]
          rfl
        rcases search_sub vs (SubcmdInfo.mk (packNul vs.names) (subcmdMap vs.names) vs.helps) rfl arg with
          ⟨idx, v, h1, h2, h3⟩ | ⟨h1, h2⟩
        · rw [h1] at hmsub ⊢
          simp only at hmsub ⊢
          rw [hmsub, h2]
          simp only
          rw [variantsParse_eq vs idx _ _ v h2, variantParse_eq]
          have hv : v ∈ subVariants l.d := by
            unfold subVariants; rw [hsub]; exact List.mem_of_getElem? h2
          have hok : ∀ x ∈ subLevel v :: l :: outer, x.Ok cx := by
            intro x hx
            rcases List.mem_cons.1 hx with rfl | hx
            · exact subLevel_ok (h l (by simp)).wf hv
            · exact h x hx
          have hih := ih rest.length (by omega) rest (subLevel v) (l :: outer) hok rfl
          have hlin := argsParse_linear (variantDef v) (.command v.name :: .args l.cur :: parentsOf (l :: outer)) rawRun rest
          have hrun : rawRun (mainFrame (variantDef v)) (subPlace (subOf (variantDef v)))
              ((flatFrames0 (flatsOf (variantDef v))).map .args
                ++ .command v.name :: .args l.cur :: parentsOf (l :: outer)) rest
              = match machineOut (l :: outer).length (mrun (subLevel v :: l :: outer) .opts rest) with
                | .ok (cur, out, parents, toks) => .ok (cur, out, parents, toks, ())
                | .error e => .error e := by
            rw [← hih]; rfl
          rw [hrun] at hlin
          cases hm : mrun (subLevel v :: l :: outer) .opts rest with
          | error e =>
            rw [hm] at hlin
            simp only [machineOut] at hlin ⊢
            rw [hlin.1 e rfl]
          | ok r =>
            obtain ⟨ls', m'⟩ := r
            obtain ⟨hok', ext, hext⟩ := mrun_ok hok hm
            obtain ⟨xs, ys, rfl, hys, _⟩ := sig_append hext
            obtain ⟨lv, ys', rfl, e1, e2, e3, hys'⟩ := sig_cons_inv hys
            obtain ⟨l', outer', rfl, _, _, _, ho⟩ := sig_cons_inv hys'
            rw [hm] at hlin
            simp only [machineOut] at hlin ⊢
            have hlen1 : (l :: outer).length = (l' :: outer').length := by simp [sig_length ho]
            rw [hlen1, runOut_append] at hlin
            rw [← sig_length ho, show xs ++ lv :: l' :: outer' = (xs ++ [lv]) ++ l' :: outer' by simp,
              runOut_append, finLevels_append]
            cases hfin : finLevels xs none with
            | error e =>
              rw [hfin] at hlin
              simp only at hlin ⊢
              rw [hlin.1 e rfl]
            | ok sub =>
              rw [hfin] at hlin
              simp only at hlin ⊢
              have hlv : lv.Ok cx := hok' lv (by simp)
              have hd : lv.d = variantDef v := e3
              have := hlin.2 lv.cur sub lv.flatFrames (.command lv.name :: chainOf (l' :: outer')) [] () rfl
                (by rw [flatFrames_length hlv, hd])
              rw [this, flatFrames_fields hlv]
              simp only [finLevels, hd]
              rw [show lv.cur.fields :: lv.flats = lv.places from rfl, e1]
              cases finArgs (variantDef v) lv.places sub with
              | error e => rfl
              | ok out => rfl
        · have hns : mSub l.d arg = none := by rw [hmsub, h1]
          have := hpos hns
          rw [hns, h1]
          simp only
          rw [subPlace] at this
          exact this

/-- The root level. -/
def rootLevel (d : ArgsDef V) (arg0 : Bytes) : Level V := initLevel [] (lossy ((fileName arg0).getD arg0)) d

/-- Validation of all levels. -/
def finAll : List (Level V) → Option (Out V) → R (Out V)
  | [], _ => panicR
  | l :: outer, sub =>
    match finArgs l.d l.places sub with
    | .error e => .error e
    | .ok out =>
      match outer with
      | [] => .ok out
      | _ :: _ => finAll outer (some (.variant l.ident out))

theorem finAll_append (xs : List (Level V)) (l : Level V) (sub : Option (Out V)) :
    finAll (xs ++ [l]) sub = match finLevels xs sub with
      | .error e => .error e
      | .ok sub => finArgs l.d l.places sub := by
  induction xs generalizing sub with
  | nil =>
    simp only [List.nil_append, finAll, finLevels]
    cases finArgs l.d l.places sub <;> rfl
  | cons x xs ih =>
    simp only [List.cons_append, finAll, finLevels]
    cases finArgs x.d x.places sub with
    | error e => rfl
    | ok out =>
      simp only
      rw [← ih]
      cases xs <;> rfl

/-- Parsing is: run the machine, then validate. -/
theorem tryParseFrom_eq {cx : Cx V} {d : ArgsDef V} (h : WFArgs cx d) (arg0 : Bytes) (toks : Toks) :
    tryParseFrom d (arg0 :: toks) = match mrun [rootLevel d arg0] .opts toks with
      | .error e => .error e
      | .ok (ls, _) => finAll ls none := by
  have hok : ∀ x ∈ [rootLevel d arg0], x.Ok cx := by
    intro x hx
    rw [List.mem_singleton] at hx
    subst hx
    exact initLevel_ok _ _ h
  have hr := runParser_eq toks (rootLevel d arg0) [] hok
  have hlin := argsParse_linear d [.command (lossy ((fileName arg0).getD arg0))] rawRun toks
  have hrun : rawRun (mainFrame d) (subPlace (subOf d))
      ((flatFrames0 (flatsOf d)).map .args ++ [.command (lossy ((fileName arg0).getD arg0))]) toks
      = match machineOut 0 (mrun [rootLevel d arg0] .opts toks) with
        | .ok (cur, out, parents, toks) => .ok (cur, out, parents, toks, ())
        | .error e => .error e := by
    have hr' := hr
    simp only [List.length_nil] at hr'
    rw [← hr']; rfl
  rw [hrun] at hlin
  unfold tryParseFrom structRunParser
  simp only
  cases hm : mrun [rootLevel d arg0] .opts toks with
  | error e =>
    rw [hm] at hlin
    simp only [machineOut] at hlin ⊢
    rw [hlin.1 e rfl]
  | ok r =>
    obtain ⟨ls', m'⟩ := r
    obtain ⟨hok', ext, hext⟩ := mrun_ok hok hm
    obtain ⟨xs, ys, rfl, hys, _⟩ := sig_append hext
    obtain ⟨lv, ys', rfl, e1, e2, e3, hys'⟩ := sig_cons_inv hys
    have hnil : ys' = [] := by
      have := sig_length hys'
      simpa using this
    subst hnil
    rw [hm] at hlin
    simp only [machineOut] at hlin ⊢
    rw [show (0 : Nat) = ([] : List (Level V)).length from rfl, runOut_append] at hlin
    rw [finAll_append]
    cases hfin : finLevels xs none with
    | error e =>
      rw [hfin] at hlin
      simp only at hlin ⊢
      rw [hlin.1 e rfl]
    | ok sub =>
      rw [hfin] at hlin
      simp only at hlin ⊢
      have hlv : lv.Ok cx := hok' lv (by simp)
      have hd : lv.d = d := e3
      have := hlin.2 lv.cur sub lv.flatFrames [.command lv.name] [] () rfl
        (by rw [flatFrames_length hlv, hd])
      rw [this, flatFrames_fields hlv, hd]
      rw [show lv.cur.fields :: lv.flats = lv.places from rfl]
      cases finArgs d lv.places sub <;> rfl

end Palc
