import Verif.Lemmas.Flatten
import Verif.Lemmas.Legal
/-! The fields of a struct in another order (C65). -/

namespace Palc

open Spec

variable {V : Type} {cx : Cx V} {cm cm' : Option CommandMeta} {ds ds' : List (FieldDecl V)} {d d' : ArgsDef V}

/-- The index at which `d'` declares the argument that `d` declares at index `i`. -/
def sameIdent (d d' : ArgsDef V) (i : Nat) : Nat :=
  match (coreOf d).fields[i]? with
  | some f => (coreOf d').fields.findIdx (fun g => decide (g.ident = f.ident))
  | none => i

/-- Arguments of the struct itself are found by name, those of flattened structs stay. -/
def renumbered (d d' : ArgsDef V) (p : Pos) : Pos := if p.1 = 0 then (0, sameIdent d d' p.2) else p

theorem sameIdent_eq (wf' : CoreWF cx (coreOf d')) {i k : Nat} {f f' : FieldInfo V} (hf : (coreOf d).fields[i]? = some f)
    (hf' : (coreOf d').fields[k]? = some f') (he : f'.ident = f.ident) : sameIdent d d' i = k := by
  unfold sameIdent
  rw [hf]
  dsimp only
  have hlt := (List.getElem?_eq_some_iff.1 hf').1
  have hex : ∃ x ∈ (coreOf d').fields, decide (x.ident = f.ident) = true :=
    ⟨f', List.mem_of_getElem? hf', by simpa using he⟩
  have hj := List.findIdx_lt_length_of_exists hex
  have hp := List.findIdx_getElem (w := hj)
  have h1 : (coreOf d').fields.findIdx (fun g => decide (g.ident = f.ident)) < ((coreOf d').fields.map (·.ident)).length := by
    simpa using hj
  refine (List.getElem?_inj h1 wf'.idents).1 ?_
  rw [decide_eq_true_eq] at hp
  simp only [List.getElem?_map, hf', List.getElem?_eq_getElem hj, Option.map_some, hp, he]

/-- Two structs with the same options in any order, the same positional arguments and the same flattened structs. -/
structure Reordering (cx : Cx V) (d d' : ArgsDef V) (O O' P : List (FieldInfo V)) (S : List (Core V)) : Prop where
  wf : CoreWF cx (coreOf d)
  wf' : CoreWF cx (coreOf d')
  structs : structs d = coreOf d :: S
  structs' : Spec.structs d' = coreOf d' :: S
  own : (coreOf d).fields.map withoutIndex = O ++ P
  own' : (coreOf d').fields.map withoutIndex = O' ++ P
  perm : O.Perm O'
  options : ∀ f ∈ O, isOption f = true

namespace Reordering

variable {O O' P : List (FieldInfo V)} {S : List (Core V)}

theorem symm (h : Reordering cx d d' O O' P S) : Reordering cx d' d O' O P S :=
  ⟨h.wf', h.wf, h.structs', h.structs, h.own', h.own, h.perm.symm, fun f hf => h.options f (h.perm.mem_iff.2 hf)⟩

theorem find (h : Reordering cx d d' O O' P S) {i : Nat} {f : FieldInfo V} (hf : (coreOf d).fields[i]? = some f) :
    ∃ (k : Nat) (f' : FieldInfo V), (coreOf d').fields[k]? = some f' ∧ withoutIndex f' = withoutIndex f := by
  have hm : withoutIndex f ∈ (coreOf d).fields.map withoutIndex := List.mem_map.2 ⟨f, List.mem_of_getElem? hf, rfl⟩
  rw [h.own, (h.perm.append_right P).mem_iff, ← h.own', List.mem_map] at hm
  obtain ⟨f', hf', e⟩ := hm
  obtain ⟨k, hk⟩ := List.getElem?_of_mem hf'
  exact ⟨k, f', hk, e⟩

theorem other (h : Reordering cx d d' O O' P S) {s : Nat} (hs : s ≠ 0) (i : Nat) : argAt d' (s, i) = argAt d (s, i) := by
  unfold argAt
  rw [h.structs, h.structs']
  obtain ⟨s, rfl⟩ : ∃ t, s = t + 1 := ⟨s - 1, by omega⟩
  rfl

theorem to (h : Reordering cx d d' O O' P S) {p : Pos} {f : FieldInfo V} (hf : argAt d p = some f) :
    ∃ f', argAt d' (renumbered d d' p) = some f' ∧ withoutIndex f' = withoutIndex f := by
  obtain ⟨s, i⟩ := p
  by_cases hs : s = 0
  · subst hs
    rw [argAt_main] at hf
    obtain ⟨k, f', hk, e⟩ := h.find hf
    refine ⟨f', ?_, e⟩
    unfold renumbered
    rw [if_pos rfl, sameIdent_eq h.wf' hf hk (alike_ident e), argAt_main]
    exact hk
  · refine ⟨f, ?_, rfl⟩
    unfold renumbered
    rw [if_neg hs, h.other hs]
    exact hf

theorem left (h : Reordering cx d d' O O' P S) {p : Pos} {f : FieldInfo V} (hf : argAt d p = some f) :
    renumbered d' d (renumbered d d' p) = p := by
  obtain ⟨s, i⟩ := p
  by_cases hs : s = 0
  · subst hs
    rw [argAt_main] at hf
    obtain ⟨k, f', hk, e⟩ := h.find hf
    unfold renumbered
    rw [if_pos rfl, sameIdent_eq h.wf' hf hk (alike_ident e), if_pos rfl, sameIdent_eq h.wf hk hf (alike_ident e).symm]
  · unfold renumbered
    rw [if_neg hs, if_neg hs]

theorem same_struct (p : Pos) : (renumbered d d' p).1 = p.1 := by
  unfold renumbered
  split <;> rename_i h
  · exact h.symm
  · rfl

theorem sameArgs (h : Reordering cx d d' O O' P S) : SameArgs cx d d' (renumbered d d') (renumbered d' d) where
  to p f hf := h.to hf
  back p f hf := h.symm.to hf
  left p f hf := h.left hf
  right p f hf := h.symm.left hf
  order := by
    rintro ⟨s, i⟩ ⟨t, j⟩ f g n hp hq hf hg he
    rcases he with he | ⟨he, hlt⟩
    · refine .inl ?_
      rw [same_struct, same_struct]
      exact he
    · simp only at he
      subst he
      by_cases hs : s = 0
      · subst hs
        rw [argAt_main] at hp hq
        have := declares_index h.wf hp hq hf hg
        simp only at hlt
        omega
      · unfold renumbered
        rw [if_neg hs, if_neg hs]
        exact .inr ⟨rfl, hlt⟩
  main x _ := same_struct _
  positionals := by
    have key : ∀ (D : ArgsDef V) (g : Nat → Nat), (Spec.positionals D).map (fun x => (withoutIndex x.1, g x.2))
        = ((((coreOf D).fields.map withoutIndex).zipIdx).filter (fun x => !isOption x.1)).map (fun x => (x.1, g x.2)) := by
      intro D g
      unfold Spec.positionals
      rw [List.zipIdx_map, List.filter_map, List.map_map]
      rfl
    have nil : ∀ (l : List (FieldInfo V)) (k : Nat), (∀ f ∈ l, isOption f = true) → (l.zipIdx k).filter (fun x => !isOption x.1) = [] := by
      intro l k hl
      rw [List.filter_eq_nil_iff]
      intro x hx
      have := hl x.1 (List.fst_mem_of_mem_zipIdx hx)
      simp [this]
    refine (key d' id).trans ?_
    rw [key d (fun i => (renumbered d d' (0, i)).2), h.own, h.own', List.zipIdx_append, List.zipIdx_append, List.filter_append,
      List.filter_append, nil O _ h.options, nil O' _ h.symm.options, h.perm.length_eq]
    simp only [List.nil_append]
    refine List.map_congr_left fun x hx => ?_
    have hx' := List.mem_zipIdx (List.mem_filter.1 hx).1
    obtain ⟨y, i⟩ := x
    obtain ⟨h1, h2, h3⟩ := hx'
    simp only [Nat.zero_add] at h1 h2 h3
    have e1 : ((coreOf d).fields.map withoutIndex)[i]? = some y := by
      rw [h.own, List.getElem?_append_right (by rw [h.perm.length_eq]; exact h1), h.perm.length_eq, List.getElem?_eq_getElem (by omega), h3]
    have e2 : ((coreOf d').fields.map withoutIndex)[i]? = some y := by
      rw [h.own', List.getElem?_append_right h1, List.getElem?_eq_getElem (by omega), h3]
    rw [List.getElem?_map, Option.map_eq_some_iff] at e1 e2
    obtain ⟨f, hf, ef⟩ := e1
    obtain ⟨f', hf', ef'⟩ := e2
    have : sameIdent d d' i = i := sameIdent_eq h.wf' hf hf' (alike_ident (ef'.trans ef.symm))
    simp only [id_eq, renumbered, if_true, this]

theorem sameConstraints : SameConstraints d (renumbered d d') where
  together p q f g _ _ he := by rw [same_struct, same_struct]; exact he
  exclusive p f _ _ := by
    refine ⟨fun q g _ he => ?_, ?_⟩
    · rwa [same_struct, same_struct] at he
    · rw [same_struct]

end Reordering

theorem perm_one {α : Type} {l l' : List α} (h : l.Perm l') (h1 : l.length ≤ 1) : l = l' := by
  match l, h1 with
  | [], _ => exact (List.nil_perm.1 h).symm
  | [a], _ => exact List.singleton_perm.1 h

theorem declFields_select {p : FieldInfo V → Bool} {q : FieldDecl V → Bool} (h : ∀ i ty m, p (argField cx i ty m).2 = q (.arg i ty m))
    (ds : List (FieldDecl V)) : (declFields cx ds).filter p = declFields cx (ds.filter q) := by
  unfold declFields
  rw [List.filter_filterMap, List.filterMap_filter]
  refine filterMap_congr' fun x _ => ?_
  cases x with
  | arg i ty m =>
    simp only [declField, Option.filter_some, h]
  | subcommand => simp [declField]
  | flatten => simp [declField]

theorem reordering (hd : deriveArgs cx cm ds = .ok d) (hd' : deriveArgs cx cm' ds' = .ok d') (hp : ds.Perm ds')
    (hpos : ds.filter (fun x => isSinglePos x || isManyPos x) = ds'.filter (fun x => isSinglePos x || isManyPos x))
    (hflat : ds.filterMap declFlat = ds'.filterMap declFlat) :
    ∃ O O' P, Reordering cx d d' O O' P (flatStructs (Flats.ofList (ds.filterMap declFlat))) := by
  have hF : (declFields cx ds).Perm (declFields cx ds') := hp.filterMap _
  have sub : ∀ (q : FieldDecl V → Bool), (∀ x, q x = true → (isSinglePos x || isManyPos x) = true) → ds.filter q = ds'.filter q := by
    intro q hq
    have : ∀ l : List (FieldDecl V), l.filter q = (l.filter (fun x => isSinglePos x || isManyPos x)).filter q := by
      intro l
      rw [List.filter_filter]
      refine List.filter_congr fun x _ => ?_
      cases h : q x with
      | false => rfl
      | true => rw [hq x h]; rfl
    rw [this ds, this ds', hpos]
  have e1 : (declFields cx ds').filter isSingle = (declFields cx ds).filter isSingle := by
    rw [declFields_select single_decl, declFields_select single_decl, sub isSinglePos (by intro x h; rw [h]; rfl)]
  have e2 : (declFields cx ds').filter isVar = (declFields cx ds).filter isVar := by
    rw [declFields_select many_decl, declFields_select many_decl, sub isManyPos (by intro x h; rw [h, Bool.or_true])]
  have e3 : (declFields cx ds).filter isLastF = (declFields cx ds').filter isLastF := by
    refine perm_one (hF.filter _) ?_
    obtain ⟨core, flats, sub⟩ := d
    exact (deriveArgs_ok hd).oneLast
  refine ⟨((declFields cx ds).filter isOption).map withoutIndex, ((declFields cx ds').filter isOption).map withoutIndex,
    ((declFields cx ds).filter isSingle ++ (declFields cx ds).filter isVar ++ (declFields cx ds).filter isLastF).map withoutIndex,
    accepted_wf hd, accepted_wf hd', accepted_structs hd, ?_, ?_, ?_, (hF.filter _).map _, ?_⟩
  · rw [accepted_structs hd', hflat]
  · rw [accepted_stripped hd, List.map_append]
  · rw [accepted_stripped hd', e1, e2, ← e3, List.map_append]
  · intro f hf
    obtain ⟨g, hg, rfl⟩ := List.mem_map.1 hf
    exact (List.mem_filter.1 hg).2

theorem reordering_sub (hd : deriveArgs cx cm ds = .ok d) (hd' : deriveArgs cx cm' ds' = .ok d') (hp : ds.Perm ds') : subOf d' = subOf d := by
  apply subToList_inj
  rw [accepted_sub hd', accepted_sub hd]
  refine perm_one (hp.symm.filterMap _) ?_
  rw [← accepted_sub hd']
  cases subOf d' <;> simp [subToList]

/-- The root command is at the bottom. -/
theorem root_field {argv0 : Bytes} {toks : List Bytes} {evs : List Event} {κ : Ctx V} (h : Reads cx (start argv0 d) toks evs κ) (s k : Nat) :
    fieldAt κ.stack ⟨0, s, k⟩ = argAt d (s, k) := by
  obtain ⟨pre, hpre⟩ := steps_stack (reads_steps h)
  rw [hpre, fieldAt_ext (by simp [start])]
  rfl

end Palc
