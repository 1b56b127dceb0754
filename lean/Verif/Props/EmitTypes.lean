import Verif.Lemmas.EmitTypes
import Verif.Props.Emit
/-!
# Types of the emitted code (C70)
-/

namespace Palc

open Spec Emit

variable {V : Type} {cx : Cx V}

/-- The type of a field as it was declared. -/
def declTy : FieldDecl V → FieldTy
  | .arg _ ty _ => .arg (classify ty).1
  | .flatten _ _ => .inner
  | .subcommand _ optional _ => if optional then .optional else .inner

theorem outTypes_perm {cmeta : Option CommandMeta} {ds : List (FieldDecl V)} {core : Core V} {flats : Flats V}
    {sub : SubField V} (h : deriveArgs cx cmeta ds = .ok (.mk core flats sub)) :
    (outTypes core.fields (flatIdents flats) (subIdent sub)).Perm (ds.map (fun x => (x.ident, declTy x))) := by
  have acc := deriveArgs_ok h
  have h1 : (core.fields.map (fun f => (f.ident, FieldTy.arg f.kind))).Perm
      ((declFields cx ds).map (fun f => (f.ident, FieldTy.arg f.kind))) := fields_perm h _ (fun _ _ => rfl)
  have h2 : (flatIdents flats).map (fun i => (i, FieldTy.inner)) = (ds.filterMap declFlat).map (fun x => (x.1, FieldTy.inner)) := by
    rw [acc.flatsEq, flatIdents_ofList, List.map_map]
    rfl
  have h3 : (subIdent sub).toList.map (fun x => (x.1, if x.2 then FieldTy.optional else .inner))
      = (ds.filterMap declSub).map (fun x => (x.1, if x.2.1 then FieldTy.optional else .inner)) := by
    rw [← acc.subEq]
    cases sub <;> rfl
  unfold outTypes
  rw [h2, h3]
  refine ((h1.append_right _).append_right _).trans ?_
  clear h1 h2 h3 acc h
  induction ds with
  | nil => exact .nil
  | cons x ds ih =>
    cases x with
    | arg i ty m =>
      have h1 : declFields cx (.arg i ty m :: ds) = (argField cx i ty m).2 :: declFields cx ds := by
        simp [declFields, declField]
      rw [h1, List.map_cons, (argField_src cx i ty m).2.1, (argField_src cx i ty m).2.2]
      exact ih.cons (i, FieldTy.arg (classify ty).1)
    | subcommand i o vs =>
      have h1 : declFields cx (.subcommand i o vs :: ds) = declFields cx ds := rfl
      have h2 : (FieldDecl.subcommand i o vs :: ds).filterMap declFlat = ds.filterMap declFlat := rfl
      have h3 : (FieldDecl.subcommand i o vs :: ds).filterMap declSub = (i, o, vs) :: ds.filterMap declSub := rfl
      rw [h1, h2, h3, List.map_cons, List.map_cons]
      exact List.perm_middle.trans (ih.cons (i, if o then FieldTy.optional else .inner))
    | flatten i d =>
      have h1 : declFields cx (.flatten i d :: ds) = declFields cx ds := rfl
      have h2 : (FieldDecl.flatten i d :: ds).filterMap declFlat = (i, d) :: ds.filterMap declFlat := rfl
      have h3 : (FieldDecl.flatten i d :: ds).filterMap declSub = ds.filterMap declSub := rfl
      rw [h1, h2, h3, List.map_cons, List.map_cons, List.append_assoc, List.cons_append]
      refine List.perm_middle.trans (List.Perm.cons (i, FieldTy.inner) ?_)
      rw [← List.append_assoc]
      exact ih

/-- C70: the code emitted for every accepted struct passes the type checker if no field has a name used by emitted code, and
the struct it builds has exactly the declared fields, each once and with its declared type. -/
theorem C70_well_typed {cmeta : Option CommandMeta} {ds : List (FieldDecl V)} {core : Core V} {flats : Flats V} {sub : SubField V}
    (h : deriveArgs cx cmeta ds = .ok (.mk core flats sub)) (hr : ∀ x ∈ ds, x.ident ∉ reserved) :
    ∃ outs, tyBody (emitBody core.fields (flatIdents flats) (subIdent sub)) = some outs
      ∧ outs.Perm (ds.map (fun x => (x.ident, declTy x))) ∧ (outs.map (·.1)).Nodup := by
  have acc := deriveArgs_ok h
  have hn := derive_nodup h
  have hp := outTypes_perm h
  have hnames : (outTypes core.fields (flatIdents flats) (subIdent sub)).map (·.1) = stateIdents core flats sub := by
    simp [outTypes, stateIdents, Function.comp_def]
  have hget : ∀ f ∈ core.fields, ∃ i, i < 254 ∧ FieldWF cx f i := by
    intro f hf
    obtain ⟨i, hi, rfl⟩ := List.getElem_of_mem hf
    exact ⟨i, by have := acc.wf.len; omega, acc.wf.fields i _ (List.getElem?_eq_getElem hi)⟩
  have hres : ∀ (ids : List Str) (o : Option (List Nat)), ResolvedOk core ids o → ∀ idxs, o = some idxs →
      ∀ r ∈ ids.zip idxs, r.1 ∈ core.fields.map (·.ident) ∧ r.2 < 256 := by
    intro ids o ho idxs he r hr
    rcases ho with ⟨_, hnone⟩ | ⟨ns, hns, hlen, hall⟩
    · rw [he] at hnone; cases hnone
    · rw [he, Option.some.injEq] at hns
      subst hns
      obtain ⟨k, hk, rfl⟩ := List.getElem_of_mem hr
      rw [List.length_zip] at hk
      rw [List.getElem_zip]
      obtain ⟨g, h1, h2⟩ := hall k ids[k] idxs[k] (List.getElem?_eq_getElem (by omega)) (List.getElem?_eq_getElem (by omega))
      refine ⟨List.mem_map.2 ⟨g, List.mem_of_getElem? h1, h2⟩, ?_⟩
      have := (List.getElem?_eq_some_iff.1 h1).1
      have := acc.wf.len
      show idxs[k] < 256
      omega
  refine ⟨_, tyBody_ok hn ?_ ?_ ?_ ?_ ?_, hp, by rw [hnames]; exact hn⟩
  · intro x hx
    have hx : x ∈ (outTypes core.fields (flatIdents flats) (subIdent sub)).map (·.1) := by rw [hnames]; exact hx
    have := (hp.map (·.1)).mem_iff.1 hx
    rw [List.map_map, List.mem_map] at this
    obtain ⟨y, hy, rfl⟩ := this
    exact hr y hy
  · intro f hf
    obtain ⟨i, hi, hw⟩ := hget f hf
    rw [hw.idx]
    omega
  · exact fun f hf => hres _ _ (acc.wf.depsOk f hf)
  · exact fun f hf => hres _ _ (acc.wf.confsOk f hf)
  · intro f hf
    obtain ⟨i, _, hw⟩ := hget f hf
    exact hw.defaultTy

namespace Sample

/-- The emitted code of a definition. -/
def bodyOf : ArgsDef Val → Body Val
  | .mk core flats sub => emitBody core.fields (flatIdents flats) (subIdent sub)

end Sample

/-- The sample with constraints, defaults, a flattened struct and a subcommand: its code in order. -/
example : tyBody (Sample.bodyOf Sample.cli) = some
    [(lit "verbose", .arg .bool), (lit "config", .arg .option), (lit "jobs", .arg .value), (lit "define", .arg .vec),
      (lit "color", .arg .optionOption), (lit "level", .arg .option), (lit "offset", .arg .option),
      (lit "pattern", .arg .option), (lit "file", .arg .option), (lit "output", .inner), (lit "cmd", .optional)] := by
  decide +kernel

example : ∃ core flats sub, deriveArgs Sample.cx none Sample.cliDecls = .ok (.mk core flats sub)
    ∧ ∀ x ∈ Sample.cliDecls, x.ident ∉ reserved := by
  cases h : Sample.cli with
  | mk core flats sub => exact ⟨core, flats, sub, h ▸ Sample.get_ok (by decide), by decide⟩

/-- Exclusive arguments. -/
example : tyBody (Sample.bodyOf Sample.drop) = some [(lit "all", .arg .bool), (lit "soft", .arg .bool), (lit "name", .arg .option)] := by
  decide +kernel

/-- The checker finds variables that are not in scope, wrong types, labels out of their block, and indexes that are too large. -/
example : tyBody { Sample.bodyOf Sample.drop with validate := [.ifE (.gt (.var totalName) (.u8 1)) []] } = none
    ∧ tyBody { Sample.bodyOf Sample.drop with output := [(lit "all", .dot0)] } = none
    ∧ tyBody { Sample.bodyOf Sample.drop with validate := [.ret (.call2 .conflict (.u8 0) (.brk .conflict))] } = none
    ∧ tyBody { Sample.bodyOf Sample.drop with validate := [.ret (.call1 .missingArg (.u8 256))] } = none
    ∧ tyBody { Sample.bodyOf Sample.drop with fieldRefs := [lit "all", lit "all"] } = none := by
  decide +kernel

/-- C70: the condition on names is needed. -/
theorem C70_reserved_breaks : tyBody (Sample.bodyOf (Sample.get (deriveArgs Sample.cx none Sample.outDecls))) = none
    ∧ tyBody (Sample.bodyOf (Sample.get (deriveArgs Sample.cx none Sample.totalDecls))) = none
    ∧ Sample.isOk (deriveArgs Sample.cx none Sample.outDecls) = true
    ∧ Sample.isOk (deriveArgs Sample.cx none Sample.totalDecls) = true := by decide +kernel

end Palc
