import Verif.SpecEvolve
import Verif.Lemmas.Extend
import Verif.Lemmas.Reorder
/-! Structs with added fields are extensions (C66). -/

namespace Palc

open Spec

variable {V : Type} {cx : Cx V} {T : Bytes → Prop} {G : Name → Prop} {cm cm' : Option CommandMeta} {ds ds' : List (FieldDecl V)} {d d' : ArgsDef V}

/-! ## Omissible arguments -/

theorem omissible_of {f : FieldInfo V} {ty : Ty V} (hk : KindOf ty f.kind) (hp : ParsesWith cx (valueType ty) f.parser)
    (hdv : DefaultIs cx ty f.src f.defaultValue) (hdel : f.valueDelimiter = f.src.valueDelimiter) (hl : LegalArg cx f.ident ty f.src)
    (h : CanOmit cx ty f.src) : Omissible f := by
  have hkind := kindOf_iff.1 hk
  cases h with
  | absent hr h1 h2 h3 =>
    have hnone : f.defaultValue = none := by
      generalize f.defaultValue = dv at hdv
      cases hdv <;> simp_all
    have hkv : f.kind ≠ .value := by
      rw [hkind]
      intro he
      rcases ty with _ | t | t | w
      · cases he
      · rcases t with _ | t | t | w <;> cases he
      · cases he
      · exact h3 w rfl
    refine ⟨?_, ?_⟩
    · simp [isRequired, hr, hkv]
    · cases hf : f.kind <;> simp [fieldOut, defaultContent, hnone, toField, hf] at hkv ⊢
  | value h1 =>
    have hfit : ∃ v shown, f.defaultValue = some (.valueExpr v shown) ∧ DefaultFits ty v := by
      generalize f.defaultValue = dv at hdv
      cases hdv with
      | none _ h2 => rw [Option.isNone_iff_eq_none] at h2; rw [h2] at h1; cases h1
      | text _ h2 => rw [Option.isNone_iff_eq_none] at h2; rw [h2] at h1; cases h1
      | expr _ h2 => exact ⟨_, _, rfl, hl.defaultFits _ _ h2⟩
      | flag _ _ h3 => subst h3; exact ⟨_, _, rfl, trivial⟩
      | optBool _ _ h3 _ => subst h3; exact ⟨_, _, rfl, trivial⟩
      | impl _ _ h3 _ => rcases h3 with h3 | h3 <;> subst h3 <;> exact ⟨_, _, rfl, trivial⟩
    obtain ⟨v, shown, hv, hfit⟩ := hfit
    refine ⟨by simp [isRequired, hv], ?_⟩
    rcases ty with _ | t | t | w
    · cases v <;> simp [DefaultFits, fieldOut, defaultContent, hv, toField, hkind, classify] at hfit ⊢
    · rcases t with _ | t | t | w <;> cases v <;> simp [DefaultFits, fieldOut, defaultContent, hv, toField, hkind, classify] at hfit ⊢
    · cases v <;> simp [DefaultFits, fieldOut, defaultContent, hv, toField, hkind, classify] at hfit ⊢
    · cases v <;> simp [DefaultFits, fieldOut, defaultContent, hv, toField, hkind, classify] at hfit ⊢
  | @text s p v h1 h2 h3 h4 h5 =>
    have hv : f.defaultValue = some (.parseStr s) := by
      generalize f.defaultValue = dv at hdv
      cases hdv <;> simp_all
    have hpp : p = f.parser := by
      rw [parsesWith_iff] at hp h4
      rw [hp] at h4
      exact (Option.some.inj h4).symm
    subst hpp
    have hpd : parsed f (enc s) = some v := by unfold parsed; rw [h5]
    refine ⟨by simp [isRequired, hv], ?_⟩
    have hkb : f.kind ≠ .bool := by rw [hkind, ne_eq, kind_bool]; exact h2
    cases hf : f.kind <;>
      simp [fieldOut, defaultContent, hv, content, hf, hpd, toField, allValues, pieces, hdel, h3, parsedAll] at hkb ⊢

/-! ## Fields -/

theorem own_declared (hd : deriveArgs cx cm ds = .ok d) {f : FieldInfo V} (hf : f ∈ (coreOf d).fields) :
    ∃ ty, FieldDecl.arg f.ident ty f.src ∈ ds ∧ KindOf ty f.kind ∧ ParsesWith cx (valueType ty) f.parser
      ∧ DefaultIs cx ty f.src f.defaultValue ∧ f.valueDelimiter = f.src.valueDelimiter := by
  obtain ⟨ty, h1, h2, h3, h4⟩ := field_default hd hf
  obtain ⟨k, hk⟩ := List.getElem?_of_mem hf
  exact ⟨ty, h1, kindOf_iff.2 h2, parsesWith_iff.2 h3, fieldDefault_is h4, ((accepted_wf hd).fields k f hk).delim⟩

theorem declares_requested {f : FieldInfo V} {n : Name} (ty : Ty V) (h : declares cx f n = true) :
    n ∈ requestedNames cx (.arg f.ident ty f.src) := by
  rw [← mem_fieldNames] at h
  unfold fieldNames at h
  split at h
  · rename_i ho
    unfold isOption at ho
    unfold requestedNames
    dsimp only
    rw [if_neg (by cases h1 : f.src.long <;> cases h2 : f.src.short <;> simp_all)]
    exact h
  · cases h

/-- A kept argument. -/
theorem kept_field (hd : deriveArgs cx cm ds = .ok d) (hd' : deriveArgs cx cm' ds' = .ok d') (hk : ∀ x ∈ ds, isSubDecl x = false → x ∈ ds')
    {i : Nat} {f : FieldInfo V} (hf : (coreOf d).fields[i]? = some f) :
    ∃ (k : Nat) (f' : FieldInfo V), (coreOf d').fields[k]? = some f' ∧ withoutIndex f' = withoutIndex f := by
  have hm : withoutIndex f ∈ (coreOf d).fields.map withoutIndex := List.mem_map.2 ⟨f, List.mem_of_getElem? hf, rfl⟩
  rw [(fields_perm hd withoutIndex (fun _ _ => rfl)).mem_iff, List.mem_map] at hm
  obtain ⟨g, hg, e⟩ := hm
  obtain ⟨x, hx, hxg⟩ := List.mem_filterMap.1 hg
  have hg' : g ∈ declFields cx ds' := by
    refine List.mem_filterMap.2 ⟨x, hk x hx ?_, hxg⟩
    cases x <;> simp [declField] at hxg <;> rfl
  have hm' : withoutIndex g ∈ (declFields cx ds').map withoutIndex := List.mem_map.2 ⟨g, hg', rfl⟩
  rw [← (fields_perm hd' withoutIndex (fun _ _ => rfl)).mem_iff, List.mem_map] at hm'
  obtain ⟨f', hf', e'⟩ := hm'
  obtain ⟨k, hk⟩ := List.getElem?_of_mem hf'
  exact ⟨k, f', hk, e'.trans e⟩

theorem own_unique (hd : deriveArgs cx cm ds = .ok d) {i j : Nat} {f g : FieldInfo V} (hf : (coreOf d).fields[i]? = some f)
    (hg : (coreOf d).fields[j]? = some g) (he : f.ident = g.ident) : i = j := by
  have h1 : i < ((coreOf d).fields.map (·.ident)).length := by simpa using (List.getElem?_eq_some_iff.1 hf).1
  refine (List.getElem?_inj h1 (accepted_wf hd).idents).1 ?_
  simp [hf, hg, he]

theorem mem_flatStructs {l : List (Str × ArgsDef V)} {c : Core V} : c ∈ flatStructs (Flats.ofList l) ↔ ∃ x ∈ l, c ∈ structs x.2 := by
  induction l with
  | nil => simp [Flats.ofList, flatStructs]
  | cons x l ih =>
    obtain ⟨i, e⟩ := x
    simp [Flats.ofList, flatStructs, ih]

theorem mem_flattenFields {i : Str} {e : ArgsDef V} : (i, e) ∈ flattenFields ds ↔ FieldDecl.flatten i e ∈ ds := by
  unfold flattenFields
  rw [List.mem_filterMap]
  constructor
  · rintro ⟨x, hx, he⟩
    cases x <;> simp at he
    obtain ⟨rfl, rfl⟩ := he
    exact hx
  · intro h
    exact ⟨_, h, rfl⟩

theorem flattenFields_declFlat (ds : List (FieldDecl V)) : flattenFields ds = ds.filterMap declFlat := by
  unfold flattenFields
  refine filterMap_congr' fun x _ => ?_
  cases x <;> rfl

/-! ## Positional arguments -/

theorem accepted_oneVar (hd : deriveArgs cx cm ds = .ok d) : ((declFields cx ds).filter isVar).length ≤ 1 := by
  unfold deriveArgs at hd
  split at hd
  · simp at hd
  obtain ⟨he, _⟩ := ite_ok hd
  simp only [List.append_eq_nil_iff] at he
  rw [← (foldl_inv cx ds he.1.1.1).varArg]
  cases (ds.foldl (deriveStep cx) {}).varArg <;> simp

theorem select_stripped (hd : deriveArgs cx cm ds = .ok d) (p : FieldInfo V → Bool) (hp : p = isSingle ∨ p = isVar ∨ p = isLastF) :
    ((coreOf d).fields.filter p).map withoutIndex = ((declFields cx ds).filter p).map withoutIndex := by
  have hw : ∀ l : List (FieldInfo V), (l.filter p).map withoutIndex = (l.map withoutIndex).filter p := by
    intro l
    rw [List.filter_map]
    congr 1
    refine List.filter_congr fun x _ => ?_
    rcases hp with rfl | rfl | rfl <;> rfl
  rw [hw, accepted_stripped hd, ← hw]
  congr 1
  simp only [List.filter_append, List.filter_filter]
  have key : ∀ q : FieldInfo V → Bool, (∀ f, p f = true → q f = false) → (declFields cx ds).filter (fun f => p f && q f) = [] := by
    intro q hq
    rw [List.filter_eq_nil_iff]
    intro f _ hf
    simp only [Bool.and_eq_true] at hf
    rw [hq f hf.1] at hf
    cases hf.2
  have same : (declFields cx ds).filter (fun f => p f && p f) = (declFields cx ds).filter p := by
    refine List.filter_congr fun f _ => ?_
    cases p f <;> rfl
  rcases hp with rfl | rfl | rfl
  · rw [key isOption (by intro f hf; simp [isSingle] at hf; simp [hf]), key isVar (by intro f hf; simp [isSingle] at hf; simp [isVar, hf]),
      key isLastF (by intro f hf; simp [isSingle] at hf; simp [isLastF, hf]), same]
    simp
  · rw [key isOption (by intro f hf; simp [isVar] at hf; simp [hf]), key isSingle (by intro f hf; simp [isVar] at hf; simp [isSingle, hf]),
      key isLastF (by intro f hf; simp [isVar] at hf; simp [isLastF, hf]), same]
    simp
  · rw [key isOption (by intro f hf; simp [isLastF] at hf; simp [hf]), key isSingle (by intro f hf; simp [isLastF] at hf; simp [isSingle, hf]),
      key isVar (by intro f hf; simp [isLastF] at hf; simp [isVar, hf]), same]
    simp

theorem zipIdx_filter_fst {α : Type} (l : List α) (p : α → Bool) : (l.zipIdx.filter (fun x => p x.1)).map (·.1) = l.filter p := by
  have : ∀ k, ((l.zipIdx k).filter (fun x => p x.1)).map (·.1) = l.filter p := by
    induction l with
    | nil => intro k; rfl
    | cons a l ih =>
      intro k
      rw [List.zipIdx_cons, List.filter_cons, List.filter_cons]
      split <;> simp [ih]
  exact this 0

theorem zipIdx_find_fst {α : Type} (l : List α) (p : α → Bool) : (l.zipIdx.find? (fun x => p x.1)).map (·.1) = (l.filter p).head? := by
  rw [← zipIdx_filter_fst, List.head?_map, List.head?_filter]

theorem singles_stripped (hd : deriveArgs cx cm ds = .ok d) :
    (singles d).map (fun x => withoutIndex x.1) = ((declFields cx ds).filter isSingle).map withoutIndex := by
  rw [← select_stripped hd isSingle (.inl rfl), ← zipIdx_filter_fst, List.map_map]
  rfl

theorem varArg_stripped (hd : deriveArgs cx cm ds = .ok d) :
    (varArg d).map (fun x => withoutIndex x.1) = (((declFields cx ds).filter isVar).map withoutIndex).head? := by
  rw [← select_stripped hd isVar (.inr (.inl rfl)), List.head?_map, ← zipIdx_find_fst, Option.map_map]
  rfl

theorem lastArg_stripped (hd : deriveArgs cx cm ds = .ok d) :
    (lastArg d).map (fun x => withoutIndex x.1) = (((declFields cx ds).filter isLastF).map withoutIndex).head? := by
  rw [← select_stripped hd isLastF (.inr (.inr rfl)), List.head?_map, ← zipIdx_find_fst, Option.map_map]
  rfl

theorem singles_mem {x : FieldInfo V × Nat} (h : x ∈ singles d) : (coreOf d).fields[x.2]? = some x.1 := by
  rw [singles_eq] at h
  have := positionals_mem.1 (List.mem_filter.1 h).1
  rw [argAt_main] at this
  exact this.1

theorem varArg_mem {x : FieldInfo V × Nat} (h : varArg d = some x) : (coreOf d).fields[x.2]? = some x.1 := by
  rw [varArg_eq] at h
  have := positionals_mem.1 (List.mem_of_find?_eq_some h)
  rw [argAt_main] at this
  exact this.1

theorem lastArg_mem {x : FieldInfo V × Nat} (h : lastArg d = some x) : (coreOf d).fields[x.2]? = some x.1 := by
  rw [lastArg_eq] at h
  have := positionals_mem.1 (List.mem_of_find?_eq_some h)
  rw [argAt_main] at this
  exact this.1

theorem pos_pair (hd' : deriveArgs cx cm' ds' = .ok d') {x y : FieldInfo V × Nat} (hx : (coreOf d).fields[x.2]? = some x.1) (hy : (coreOf d').fields[y.2]? = some y.1)
    (e : withoutIndex y.1 = withoutIndex x.1) : renumbered d d' (0, x.2) = (0, y.2) := by
  unfold renumbered
  rw [if_pos rfl, sameIdent_eq (accepted_wf hd') hx hy (alike_ident e)]

theorem pos_prefix (h : AddedFields cx G ds ds') : ∃ R, (declFields cx ds').filter (fun f => isSingle f || isVar f) = (declFields cx ds).filter (fun f => isSingle f || isVar f) ++ R := by
  have hsel : ∀ l : List (FieldDecl V), (declFields cx l).filter (fun f => isSingle f || isVar f)
      = declFields cx (l.filter (fun x => isSinglePos x || isManyPos x)) :=
    fun l => declFields_select (fun i ty m => by rw [single_decl, many_decl]) l
  obtain ⟨r, hr⟩ := h.positionals
  refine ⟨declFields cx r, ?_⟩
  rw [hsel, hsel, ← hr]
  simp [declFields, List.filterMap_append]

section positionals

variable (hd : deriveArgs cx cm ds = .ok d) (hd' : deriveArgs cx cm' ds' = .ok d') (h : AddedFields cx G ds ds')

include hd hd' h

omit hd hd' in
theorem singles_prefix : ∃ R, (declFields cx ds').filter isSingle = (declFields cx ds).filter isSingle ++ R := by
  obtain ⟨R, hR⟩ := pos_prefix h
  have e : ∀ l : List (FieldInfo V), (l.filter (fun f => isSingle f || isVar f)).filter isSingle = l.filter isSingle := by
    intro l
    rw [List.filter_filter]
    refine List.filter_congr fun x _ => ?_
    cases isSingle x <;> rfl
  refine ⟨R.filter isSingle, ?_⟩
  rw [← e, hR, List.filter_append, e]

omit hd in
/-- If there is a positional argument taking all further values, none can be added. -/
theorem var_same (hv : (declFields cx ds).filter isVar ≠ []) :
    (declFields cx ds').filter isSingle = (declFields cx ds).filter isSingle ∧ (declFields cx ds').filter isVar = (declFields cx ds).filter isVar := by
  obtain ⟨R, hR⟩ := pos_prefix h
  have e1 : ∀ l : List (FieldInfo V), (l.filter (fun f => isSingle f || isVar f)).filter isSingle = l.filter isSingle := by
    intro l
    rw [List.filter_filter]
    refine List.filter_congr fun x _ => ?_
    cases isSingle x <;> rfl
  have e2 : ∀ l : List (FieldInfo V), (l.filter (fun f => isSingle f || isVar f)).filter isVar = l.filter isVar := by
    intro l
    rw [List.filter_filter]
    refine List.filter_congr fun x _ => ?_
    cases isVar x <;> simp
  have hone := accepted_oneVar hd'
  have horder : (declFields cx ds').filter (fun f => isSingle f || isVar f) = (declFields cx ds').filter isSingle ++ (declFields cx ds').filter isVar := by
    obtain ⟨core, flats, sub⟩ := d'
    exact (deriveArgs_ok hd').order
  have hsplit : (declFields cx ds').filter isVar = (declFields cx ds).filter isVar ++ R.filter isVar := by
    rw [← e2, hR, List.filter_append, e2]
  have hRv : R.filter isVar = [] := by
    have := congrArg List.length hsplit
    rw [List.length_append] at this
    have h1 : 0 < ((declFields cx ds).filter isVar).length := List.length_pos_iff.2 hv
    exact List.length_eq_zero_iff.1 (by omega)
  have hRnil : R = [] := by
    apply Classical.byContradiction
    intro hne
    have hlast : R.getLast hne ∈ (declFields cx ds').filter isVar := by
      have h1 : ((declFields cx ds').filter (fun f => isSingle f || isVar f)).getLast? = some (R.getLast hne) := by
        rw [hR, List.getLast?_append, List.getLast?_eq_some_getLast hne, Option.some_or]
      have hv' : (declFields cx ds').filter isVar ≠ [] := by rw [hsplit, hRv, List.append_nil]; exact hv
      rw [horder, List.getLast?_append, List.getLast?_eq_some_getLast hv', Option.some_or] at h1
      rw [← Option.some.inj h1]
      exact List.getLast_mem hv'
    have : R.getLast hne ∈ R.filter isVar := List.mem_filter.2 ⟨List.getLast_mem hne, (List.mem_filter.1 hlast).2⟩
    rw [hRv] at this
    cases this
  subst hRnil
  rw [List.append_nil] at hR
  exact ⟨by rw [← e1, hR, e1], by rw [← e2, hR, e2]⟩

theorem target_kept (k : Nat) (x : FieldInfo V × Nat) (hx : posTarget d k = some x) :
    ∃ y, posTarget d' k = some y ∧ withoutIndex y.1 = withoutIndex x.1 ∧ renumbered d d' (0, x.2) = (0, y.2) := by
  have hs := singles_stripped hd
  have hs' := singles_stripped hd'
  unfold posTarget at hx
  split at hx
  · rename_i z hz
    cases hx
    obtain ⟨R, hR⟩ := singles_prefix h
    rw [hR, List.map_append, ← hs] at hs'
    have hlt := (List.getElem?_eq_some_iff.1 hz).1
    have e : ((singles d').map (fun x => withoutIndex x.1))[k]? = _ := congrArg (·[k]?) hs'
    rw [List.getElem?_append_left (by simpa using hlt), List.getElem?_map, List.getElem?_map, hz] at e
    obtain ⟨y, hy, ey⟩ := Option.map_eq_some_iff.1 e
    refine ⟨y, ?_, ey, ?_⟩
    · unfold posTarget; rw [hy]
    · exact pos_pair hd' (singles_mem (List.mem_of_getElem? hz)) (singles_mem (List.mem_of_getElem? hy)) ey
  · rename_i hnone
    have hv := varArg_stripped hd
    have hv' := varArg_stripped hd'
    have hne : (declFields cx ds).filter isVar ≠ [] := by
      intro h0
      rw [hx, h0] at hv
      cases hv
    obtain ⟨h1, h2⟩ := var_same hd' h hne
    rw [h1, ← hs] at hs'
    rw [h2, ← hv, hx] at hv'
    obtain ⟨y, hy, ey⟩ := Option.map_eq_some_iff.1 hv'
    refine ⟨y, ?_, ey, ?_⟩
    · unfold posTarget
      have : (singles d')[k]? = none := by
        have hl := congrArg List.length hs'
        simp only [List.length_map] at hl
        rw [List.getElem?_eq_none_iff] at hnone ⊢
        omega
      rw [this]
      exact hy
    · exact pos_pair hd' (varArg_mem hx) (varArg_mem hy) ey

theorem last_same : (declFields cx ds').filter isLastF = (declFields cx ds).filter isLastF := by
  have hone : ((declFields cx ds').filter isLastF).length ≤ 1 := by
    obtain ⟨core, flats, sub⟩ := d'
    exact (deriveArgs_ok hd').oneLast
  have hone0 : ((declFields cx ds).filter isLastF).length ≤ 1 := by
    obtain ⟨core, flats, sub⟩ := d
    exact (deriveArgs_ok hd).oneLast
  rw [declFields_select last_decl] at hone hone0 ⊢
  rw [declFields_select last_decl]
  have hiff : ∀ g, g ∈ declFields cx (ds'.filter isLastPos) ↔ g ∈ declFields cx (ds.filter isLastPos) := by
    intro g
    unfold declFields
    rw [List.mem_filterMap, List.mem_filterMap]
    constructor
    · rintro ⟨x, hx, e⟩
      obtain ⟨h1, h2⟩ := List.mem_filter.1 hx
      exact ⟨x, List.mem_filter.2 ⟨h.last x h1 h2, h2⟩, e⟩
    · rintro ⟨x, hx, e⟩
      obtain ⟨h1, h2⟩ := List.mem_filter.1 hx
      refine ⟨x, List.mem_filter.2 ⟨h.kept x h1 ?_, h2⟩, e⟩
      cases x <;> simp [isLastPos] at h2 <;> rfl
  generalize declFields cx (ds'.filter isLastPos) = L' at *
  generalize declFields cx (ds.filter isLastPos) = L at *
  match L, L' with
  | [], [] => rfl
  | [], b :: _ => exact absurd ((hiff b).1 (by simp)) (by simp)
  | a :: _, [] => exact absurd ((hiff a).2 (by simp)) (by simp)
  | [a], [b] => have := (hiff b).1 (by simp); simp only [List.mem_singleton] at this; rw [this]
  | _ :: _ :: _, _ => simp at hone0
  | _, _ :: _ :: _ => simp at hone

end positionals

/-! ## Extension -/

theorem keeps_decls (hd : deriveArgs cx cm ds = .ok d) (hd' : deriveArgs cx cm' ds' = .ok d') (h : AddedFields cx G ds ds') :
    KeepsArgs cx G d d' (renumbered d d') := by
  obtain ⟨more, hmore, hnew⟩ := h.flats
  have hS : structs d = coreOf d :: flatStructs (Flats.ofList (flattenFields ds)) := by
    rw [flattenFields_declFlat]; exact accepted_structs hd
  have hS' : structs d' = coreOf d' :: (flatStructs (Flats.ofList (flattenFields ds)) ++ flatStructs (Flats.ofList more)) := by
    rw [← flatStructs_append, ← hmore, flattenFields_declFlat]; exact accepted_structs hd'
  have other : ∀ s i f, s ≠ 0 → argAt d (s, i) = some f → argAt d' (s, i) = some f := by
    intro s i f hs hf
    obtain ⟨s, rfl⟩ : ∃ t, s = t + 1 := ⟨s - 1, by omega⟩
    unfold argAt at hf ⊢
    rw [hS] at hf
    rw [hS']
    simp only [List.getElem?_cons_succ] at hf ⊢
    cases hc : (flatStructs (Flats.ofList (flattenFields ds)))[s]? with
    | none => rw [hc] at hf; cases hf
    | some c =>
      rw [List.getElem?_append_left (List.getElem?_eq_some_iff.1 hc).1, hc]
      rw [hc] at hf
      exact hf
  have flatDecl : ∀ s i f n, s ≠ 0 → argAt d (s, i) = some f → declares cx f n = true → FlatDeclares cx ds n := by
    intro s i f n hs hf hn
    obtain ⟨s, rfl⟩ : ∃ t, s = t + 1 := ⟨s - 1, by omega⟩
    obtain ⟨c, hc, hcf⟩ := argAt_core hf
    rw [hS] at hc
    simp only [List.getElem?_cons_succ] at hc
    obtain ⟨⟨j, e⟩, hx, hce⟩ := mem_flatStructs.1 (List.mem_of_getElem? hc)
    exact ⟨j, e, c, f, mem_flattenFields.1 hx, hce, List.mem_of_getElem? hcf, hn⟩
  have to : ∀ p f, argAt d p = some f → ∃ f', argAt d' (renumbered d d' p) = some f' ∧ withoutIndex f' = withoutIndex f := by
    rintro ⟨s, i⟩ f hf
    by_cases hs : s = 0
    · subst hs
      rw [argAt_main] at hf
      obtain ⟨k, f', hk, e⟩ := kept_field hd hd' h.kept hf
      refine ⟨f', ?_, e⟩
      unfold renumbered
      rw [if_pos rfl, sameIdent_eq (accepted_wf hd') hf hk (alike_ident e), argAt_main]
      exact hk
    · refine ⟨f, ?_, rfl⟩
      unfold renumbered
      rw [if_neg hs]
      exact other s i f hs hf
  refine ⟨to, ?_, fun p _ _ => Reordering.same_struct p, ?_, ?_, target_kept hd hd' h, ?_, ?_⟩
  · rintro ⟨s, i⟩ ⟨t, j⟩ f g hf hg he
    have hst : s = t := by
      have := congrArg Prod.fst he
      rw [Reordering.same_struct, Reordering.same_struct] at this
      exact this
    subst hst
    by_cases hs : s = 0
    · subst hs
      obtain ⟨f', hf', ef⟩ := to _ f hf
      obtain ⟨g', hg', eg⟩ := to _ g hg
      rw [he, hg'] at hf'
      cases hf'
      rw [argAt_main] at hf hg
      rw [own_unique hd hf hg ((alike_ident ef).symm.trans (alike_ident eg))]
    · unfold renumbered at he
      rw [if_neg hs, if_neg hs] at he
      exact he
  · rintro ⟨s, i⟩ ⟨t, j⟩ f g n hp hq hf hg he
    rcases he with he | ⟨he, hlt⟩
    · refine .inl ?_
      rw [Reordering.same_struct, Reordering.same_struct]
      exact he
    · simp only at he
      subst he
      by_cases hs : s = 0
      · subst hs
        rw [argAt_main] at hp hq
        have := declares_index (accepted_wf hd) hp hq hf hg
        simp only at hlt
        omega
      · unfold renumbered
        rw [if_neg hs, if_neg hs]
        exact .inr ⟨rfl, hlt⟩
  · intro q f' hq
    by_cases hold : ∃ p f, argAt d p = some f ∧ renumbered d d' p = q
    · exact .inl hold
    refine .inr ?_
    obtain ⟨s, k⟩ := q
    by_cases hs : s = 0
    · subst hs
      rw [argAt_main] at hq
      obtain ⟨ty, h1, h2, h3, h4, h5⟩ := own_declared hd' (List.mem_of_getElem? hq)
      rcases h.args _ _ _ h1 with hin | ⟨hcan, hnames⟩
      · obtain ⟨i, f, hf, hi, _⟩ := declared_field hd hin
        exfalso
        refine hold ⟨(0, i), f, by rw [argAt_main]; exact hf, ?_⟩
        unfold renumbered
        rw [if_pos rfl, sameIdent_eq (accepted_wf hd') hf hq hi.symm]
      · have hl : LegalArg cx f'.ident ty f'.src := by
          obtain ⟨core', flats', sub'⟩ := d'
          exact (argField_legal _ _ _).1 ((deriveArgs_ok hd').errs _ _ _ h1)
        refine ⟨omissible_of h2 h3 h4 h5 hl hcan, fun n hn => ?_⟩
        obtain ⟨n1, n2⟩ := hnames n (declares_requested ty hn)
        refine ⟨n1, ?_⟩
        rintro ⟨s, i⟩ f hf
        cases hdf : declares cx f n with
        | false => rfl
        | true =>
          exfalso
          by_cases hs : s = 0
          · subst hs
            obtain ⟨g, hg, eg⟩ := to _ f hf
            have hr : renumbered d d' (0, i) = (0, sameIdent d d' i) := by unfold renumbered; rw [if_pos rfl]
            rw [hr, argAt_main] at hg
            have := declares_index (accepted_wf hd') hg hq (by rw [alike_declares eg]; exact hdf) hn
            exact hold ⟨(0, i), f, hf, by rw [hr, this]⟩
          · exact n2 (flatDecl s i f n hs hf hdf)
    · obtain ⟨s, rfl⟩ : ∃ t, s = t + 1 := ⟨s - 1, by omega⟩
      obtain ⟨c, hc, hcf⟩ := argAt_core hq
      rw [hS'] at hc
      simp only [List.getElem?_cons_succ] at hc hcf
      by_cases hlt : s < (flatStructs (Flats.ofList (flattenFields ds))).length
      · exfalso
        refine hold ⟨(s + 1, k), f', ?_, ?_⟩
        · unfold argAt
          rw [hS]
          simp only [List.getElem?_cons_succ]
          rw [List.getElem?_append_left hlt] at hc
          rw [hc]
          exact hcf
        · unfold renumbered
          rw [if_neg (by simp)]
      · rw [List.getElem?_append_right (by omega)] at hc
        obtain ⟨x, hx, hcx⟩ := mem_flatStructs.1 (List.mem_of_getElem? hc)
        obtain ⟨h1, h2⟩ := hnew x hx c hcx f' (List.mem_of_getElem? hcf)
        refine ⟨h1, fun n hn => ?_⟩
        obtain ⟨n1, n2, n3⟩ := h2 n hn
        refine ⟨n1, ?_⟩
        rintro ⟨t, i⟩ f hf
        cases hdf : declares cx f n with
        | false => rfl
        | true =>
          exfalso
          by_cases ht : t = 0
          · subst ht
            rw [argAt_main] at hf
            obtain ⟨ty, h1, _⟩ := own_declared hd (List.mem_of_getElem? hf)
            exact n3 _ h1 (declares_requested ty hdf)
          · exact n2 (flatDecl t i f n ht hf hdf)
  · intro x hx
    have hl := lastArg_stripped hd
    have hl' := lastArg_stripped hd'
    rw [last_same hd hd' h, ← hl, hx] at hl'
    obtain ⟨y, hy, ey⟩ := Option.map_eq_some_iff.1 hl'
    exact ⟨y, hy, ey, pos_pair hd' (lastArg_mem hx) (lastArg_mem hy) ey⟩
  · intro hx
    have hl := lastArg_stripped hd
    have hl' := lastArg_stripped hd'
    rw [last_same hd hd' h, ← hl, hx] at hl'
    simpa using hl'

theorem keeps_refl (d : ArgsDef V) : KeepsArgs cx G d d id where
  to _ f hf := ⟨f, hf, rfl⟩
  inj _ _ _ _ _ _ he := he
  struct _ _ _ := rfl
  order _ _ _ _ _ _ _ _ _ he := he
  added q f' hq := .inl ⟨q, f', hq, rfl⟩
  target _ x hx := ⟨x, hx, rfl, rfl⟩
  last x hx := ⟨x, hx, rfl, rfl⟩
  noLast h := h

theorem extends_refl (d : ArgsDef V) : Extends cx T G d d id := by
  have key : ∀ n, ∀ (d : ArgsDef V) (G : Name → Prop), sizeOf d ≤ n → Extends cx T G d d id := by
    intro n
    induction n with
    | zero =>
      intro d G hn
      obtain ⟨_, _, _⟩ := d
      simp at hn
    | succ n ih =>
      intro d G hn
      refine .mk (keeps_refl d) (fun h => h) id (fun _ => id) (fun v hv => ⟨hv, rfl, rfl⟩) (fun v hv _ => ⟨v, hv, rfl⟩) ?_
      intro v hv
      rcases variant_below hv.mem with hb | hb
      · refine .mk (keeps_refl _) (fun h => h) id (fun _ => id) (fun v hv => ⟨hv, rfl, rfl⟩) (fun v hv _ => ⟨v, hv, rfl⟩) ?_
        intro w hw
        have := hw.mem
        rw [hb.2] at this
        cases this
      · exact ih _ _ (by omega)
  exact key _ d G (Nat.le_refl _)

theorem evolved_extends (h : Evolved cx T G d d') : ∃ φ, Extends cx T G d d' φ := by
  induction h with
  | same => exact ⟨id, extends_refl _⟩
  | @struct G cm cm' ds ds' d d' hd hd' fields required unique C kept added subs ih =>
    have : ∀ v, ∃ φ, Selected d v → Extends cx T
        (fun n => G n ∨ ∃ p f, argAt d p = some f ∧ f.src.global = true ∧ declares cx f n = true) (variantDef v) (variantDef (C v)) φ := by
      intro v
      by_cases hv : Selected d v
      · obtain ⟨φ, hφ⟩ := ih v hv.mem
        exact ⟨φ, fun _ => hφ⟩
      · exact ⟨id, fun h => absurd h hv⟩
    obtain ⟨Φ, hΦ⟩ := Classical.axiomOfChoice this
    refine ⟨_, .mk (keeps_decls hd hd' fields) required C Φ (fun v hv => ?_) added hΦ⟩
    obtain ⟨h1, h2⟩ := kept v hv.mem
    exact ⟨Selected.of_nodup unique h1, h2⟩

end Palc
