import Verif.Lemmas.DeriveField
/-! Everything the derive macros accept is well-formed. -/

namespace Palc

open Spec

variable {V : Type}

/-- The field of an argument declaration. -/
def declField (cx : Cx V) : FieldDecl V → Option (FieldInfo V)
  | .arg i ty m => some (argField cx i ty m).2
  | .subcommand _ _ _ => none
  | .flatten _ _ => none

/-- Argument fields in declaration order. -/
def declFields (cx : Cx V) (ds : List (FieldDecl V)) : List (FieldInfo V) := ds.filterMap (declField cx)

/-- Flattened fields in declaration order. -/
def declFlat : FieldDecl V → Option (Str × ArgsDef V)
  | .flatten i d => some (i, d)
  | _ => none

/-- Subcommand fields in declaration order. -/
def declSub : FieldDecl V → Option (Str × Bool × Variants V)
  | .subcommand i o vs => some (i, o, vs)
  | _ => none

def subToList : SubField V → List (Str × Bool × Variants V)
  | .none => []
  | .some i o vs => [(i, o, vs)]

def isSingle (f : FieldInfo V) : Bool := !isOption f && !isMulti f && !f.src.last
def isVar (f : FieldInfo V) : Bool := !isOption f && isMulti f && !f.src.last
def isLastF (f : FieldInfo V) : Bool := !isOption f && f.src.last

/-- State of the loop after reading `ds` without errors. -/
structure DInv (cx : Cx V) (s : DState V) (ds : List (FieldDecl V)) : Prop where
  errs : ∀ i ty m, FieldDecl.arg i ty m ∈ ds → (argField cx i ty m).1 = []
  named : s.named = (declFields cx ds).filter isOption
  positional : s.positional = (declFields cx ds).filter isSingle
  varArg : s.varArg.toList = (declFields cx ds).filter isVar
  last : s.last.toList = (declFields cx ds).filter isLastF
  flats : s.flats = ds.filterMap declFlat
  flatOk : ∀ x ∈ s.flats, x.2.info.positionalLen = 0 ∧ x.2.hasSub = false
  sub : subToList s.sub = ds.filterMap declSub
  seen : ∀ n, n ∈ s.seen ↔ n ∈ s.named.flatMap (·.encNames)
  nodup : (s.named.flatMap (·.encNames)).Nodup
  order : (declFields cx ds).filter (fun f => isSingle f || isVar f)
    = (declFields cx ds).filter isSingle ++ (declFields cx ds).filter isVar

theorem checkDup_ok {seen ns : List Str} (h : (checkDup seen ns).1 = []) :
    ns.Nodup ∧ (∀ n ∈ ns, n ∉ seen) ∧ ∀ n, n ∈ (checkDup seen ns).2 ↔ n ∈ seen ∨ n ∈ ns := by
  induction ns generalizing seen with
  | nil => simp [checkDup]
  | cons x xs ih =>
    simp only [checkDup] at h ⊢
    split at h
    · simp at h
    · rename_i hx
      obtain ⟨h1, h2, h3⟩ := ih h
      rw [if_neg hx]
      refine ⟨?_, ?_, ?_⟩
      · rw [List.nodup_cons]
        exact ⟨fun hm => h2 x hm (List.mem_cons_self ..), h1⟩
      · intro n hn
        rcases List.mem_cons.1 hn with rfl | hn
        · exact hx
        · exact fun hs => h2 n hn (List.mem_cons_of_mem _ hs)
      · intro n
        rw [h3 n]
        simp only [List.mem_cons]
        constructor
        · rintro ((h | h) | h) <;> simp [h]
        · rintro (h | h | h) <;> simp [h]

theorem deriveStep_errors (cx : Cx V) (s : DState V) (x : FieldDecl V)
    (h : (deriveStep cx s x).errors = []) : s.errors = [] := by
  cases x with
  | subcommand i o vs =>
    simp only [deriveStep] at h
    split at h
    · simp at h
    · exact h
  | flatten i d =>
    simp only [deriveStep, List.append_eq_nil_iff] at h
    exact h.1.1
  | arg i ty m =>
    simp only [deriveStep] at h
    split at h
    · split at h
      · simp only [List.append_eq_nil_iff] at h; exact h.1
      · simp only [List.append_eq_nil_iff] at h; exact h.1.1
    · split at h
      · simp only [List.append_eq_nil_iff] at h; exact h.1.1
      · split at h
        · simp only [List.append_eq_nil_iff] at h; exact h.1.1
        · split at h
          · simp at h
          · simp only [List.append_eq_nil_iff] at h; exact h.1

theorem argField_isOption (cx : Cx V) (i : Str) (ty : Ty V) (m : ArgMeta V) :
    isOption (argField cx i ty m).2 = m.isNamed := by
  unfold isOption; rw [(argField_src cx i ty m).1]; rfl

theorem DInv.step {cx : Cx V} {s : DState V} {ds : List (FieldDecl V)} {x : FieldDecl V}
    (inv : DInv cx s ds) (h : (deriveStep cx s x).errors = []) : DInv cx (deriveStep cx s x) (ds ++ [x]) := by
  cases x with
  | subcommand i o vs =>
    simp only [deriveStep] at h ⊢
    have hF : declFields cx (ds ++ [FieldDecl.subcommand i o vs]) = declFields cx ds := by
      simp [declFields, declField]
    split at h
    · simp at h
    · rename_i hs
      have hsub := inv.sub
      rw [hs] at hsub
      constructor
      · intro j ty m hm
        simp at hm
        exact inv.errs j ty m hm
      · rw [hF]; exact inv.named
      · rw [hF]; exact inv.positional
      · rw [hF]; exact inv.varArg
      · rw [hF]; exact inv.last
      · simp [declFlat, inv.flats]
      · exact inv.flatOk
      · simp only [List.filterMap_append, ← hsub]; simp [subToList, declSub]
      · exact inv.seen
      · exact inv.nodup
      · rw [hF]; exact inv.order
  | flatten i d =>
    simp only [deriveStep, List.append_eq_nil_iff] at h ⊢
    have hF : declFields cx (ds ++ [FieldDecl.flatten i d]) = declFields cx ds := by
      simp [declFields, declField]
    obtain ⟨⟨_, h1⟩, h2⟩ := h
    constructor
    · intro j ty m hm
      simp at hm
      exact inv.errs j ty m hm
    · rw [hF]; exact inv.named
    · rw [hF]; exact inv.positional
    · rw [hF]; exact inv.varArg
    · rw [hF]; exact inv.last
    · simp [declFlat, inv.flats]
    · intro y hy
      rcases List.mem_append.1 hy with hy | hy
      · exact inv.flatOk y hy
      · rw [List.mem_singleton] at hy
        subst hy
        refine ⟨?_, ?_⟩
        · refine Classical.byContradiction fun hne => ?_
          rw [if_neg hne] at h1
          simp at h1
        · have := ite_nil h2
          simpa using this
    · simp [declSub, inv.sub]
    · exact inv.seen
    · exact inv.nodup
    · rw [hF]; exact inv.order
  | arg i ty m =>
    have hopt := argField_isOption cx i ty m
    have hsrc := (argField_src cx i ty m).1
    have hmul := acceptsMultiple_eq (argField cx i ty m).2
    generalize hf : (argField cx i ty m).2 = f at hopt hsrc hmul
    have hF : declFields cx (ds ++ [FieldDecl.arg i ty m]) = declFields cx ds ++ [f] := by
      simp [declFields, declField, hf]
    have hE : ∀ e, (argField cx i ty m).1 = [] → (∀ i' ty' m', FieldDecl.arg i' ty' m' ∈ ds ++ [FieldDecl.arg i ty m] → (argField cx i' ty' m').1 = []) ∨ e := by
      intro e he
      left
      intro i' ty' m' hm
      rcases List.mem_append.1 hm with hm | hm
      · exact inv.errs _ _ _ hm
      · rw [List.mem_singleton] at hm
        cases hm
        exact he
    have hE := fun he => (hE False he).resolve_right (fun h => h)
    have hFl : (ds ++ [FieldDecl.arg i ty m]).filterMap declFlat = ds.filterMap declFlat := by
      simp [declFlat]
    have hSu : (ds ++ [FieldDecl.arg i ty m]).filterMap declSub = ds.filterMap declSub := by
      simp [declSub]
    simp only [deriveStep, hf] at h ⊢
    by_cases hn : m.isNamed = true
    · rw [if_pos hn] at h ⊢
      rw [hn] at hopt
      have p1 : isSingle f = false := by simp [isSingle, hopt]
      have p2 : isVar f = false := by simp [isVar, hopt]
      have p3 : isLastF f = false := by simp [isLastF, hopt]
      by_cases hl : (m.last || m.trailingVarArg) = true
      · rw [if_pos hl] at h
        simp only [List.append_eq_nil_iff] at h
        have h := h.2
        unfold argField at h
        simp [hn, hl] at h
      · rw [if_neg hl] at h ⊢
        simp only [List.append_eq_nil_iff] at h
        obtain ⟨⟨_, h1⟩, h2⟩ := h
        obtain ⟨c1, c2, c3⟩ := checkDup_ok h2
        constructor
        · exact hE h1
        · rw [hF, List.filter_append, ← inv.named]; simp [hopt]
        · rw [hF, List.filter_append, ← inv.positional]; simp [p1]
        · rw [hF, List.filter_append, ← inv.varArg]; simp [p2]
        · rw [hF, List.filter_append, ← inv.last]; simp [p3]
        · rw [hFl]; exact inv.flats
        · exact inv.flatOk
        · rw [hSu]; exact inv.sub
        · intro n
          rw [c3 n, inv.seen n]; simp
        · simp only [List.flatMap_append, List.flatMap_cons, List.flatMap_nil, List.append_nil]
          rw [List.nodup_append]
          refine ⟨inv.nodup, c1, ?_⟩
          intro a ha b hb hab
          subst hab
          exact c2 a hb ((inv.seen a).2 ha)
        · rw [hF]; simp [p1, p2, inv.order]
    · have hn : m.isNamed = false := by simpa using hn
      have hn' : ¬ (m.isNamed = true) := by rw [hn]; decide
      rw [if_neg hn'] at h ⊢
      rw [hn] at hopt
      by_cases hl : m.last = true
      · rw [if_pos hl] at h ⊢
        simp only [List.append_eq_nil_iff] at h
        obtain ⟨⟨_, h1⟩, h2⟩ := h
        have hl0 : s.last = none := by simpa using ite_nil h2
        have p1 : isSingle f = false := by simp [isSingle, hsrc, hl]
        have p2 : isVar f = false := by simp [isVar, hsrc, hl]
        have p3 : isLastF f = true := by simp [isLastF, hopt, hsrc, hl]
        constructor
        · exact hE h1
        · rw [hF, List.filter_append, ← inv.named]; simp [hopt]
        · rw [hF, List.filter_append, ← inv.positional]; simp [p1]
        · rw [hF, List.filter_append, ← inv.varArg]; simp [p2]
        · rw [hF, List.filter_append, ← inv.last, hl0]; simp [p3]
        · rw [hFl]; exact inv.flats
        · exact inv.flatOk
        · rw [hSu]; exact inv.sub
        · exact inv.seen
        · exact inv.nodup
        · rw [hF]; simp [p1, p2, inv.order]
      · rw [if_neg hl] at h ⊢
        have hl' : m.last = false := by simpa using hl
        have p3 : isLastF f = false := by simp [isLastF, hsrc, hl']
        by_cases hmu : f.kind.acceptsMultipleValues = true
        · rw [if_pos hmu] at h ⊢
          simp only [List.append_eq_nil_iff] at h
          obtain ⟨⟨_, h1⟩, h2⟩ := h
          have hl0 : s.varArg = none := by simpa using ite_nil h2
          rw [hmu] at hmul
          have p1 : isSingle f = false := by simp [isSingle, ← hmul]
          have p2 : isVar f = true := by simp [isVar, hopt, hsrc, hl', ← hmul]
          constructor
          · exact hE h1
          · rw [hF, List.filter_append, ← inv.named]; simp [hopt]
          · rw [hF, List.filter_append, ← inv.positional]; simp [p1]
          · rw [hF, List.filter_append, ← inv.varArg, hl0]; simp [p2]
          · rw [hF, List.filter_append, ← inv.last]; simp [p3]
          · rw [hFl]; exact inv.flats
          · exact inv.flatOk
          · rw [hSu]; exact inv.sub
          · exact inv.seen
          · exact inv.nodup
          · rw [hF]; simp [p1, p2, inv.order]
        · rw [if_neg hmu] at h ⊢
          have hmu' : f.kind.acceptsMultipleValues = false := by simpa using hmu
          rw [hmu'] at hmul
          have p1 : isSingle f = true := by simp [isSingle, hopt, ← hmul, hsrc, hl']
          have p2 : isVar f = false := by simp [isVar, ← hmul]
          split at h
          · simp at h
          · rename_i hva
            rw [if_neg hva]
            simp only [List.append_eq_nil_iff] at h
            constructor
            · exact hE h.2
            · rw [hF, List.filter_append, ← inv.named]; simp [hopt]
            · rw [hF, List.filter_append, ← inv.positional]; simp [p1]
            · rw [hF, List.filter_append, ← inv.varArg]; simp [p2]
            · rw [hF, List.filter_append, ← inv.last]; simp [p3]
            · rw [hFl]; exact inv.flats
            · exact inv.flatOk
            · rw [hSu]; exact inv.sub
            · exact inv.seen
            · exact inv.nodup
            · have h0 : (declFields cx ds).filter isVar = [] := by
                rw [← inv.varArg]
                simpa using hva
              have := inv.order
              rw [h0] at this
              rw [hF]
              simp [p1, p2, h0, this]

theorem foldl_errors (cx : Cx V) (ds : List (FieldDecl V)) (s : DState V)
    (h : (ds.foldl (deriveStep cx) s).errors = []) : s.errors = [] := by
  induction ds generalizing s with
  | nil => exact h
  | cons x xs ih => exact deriveStep_errors cx s x (ih _ h)

theorem foldl_inv_aux (cx : Cx V) (ds done : List (FieldDecl V)) (s : DState V) (inv : DInv cx s done)
    (h : (ds.foldl (deriveStep cx) s).errors = []) : DInv cx (ds.foldl (deriveStep cx) s) (done ++ ds) := by
  induction ds generalizing s done with
  | nil => simpa using inv
  | cons x xs ih =>
    have := ih (done ++ [x]) _ (inv.step (foldl_errors cx xs _ h)) h
    simpa using this

theorem foldl_inv (cx : Cx V) (ds : List (FieldDecl V))
    (h : (ds.foldl (deriveStep cx) {}).errors = []) : DInv cx (ds.foldl (deriveStep cx) {}) ds := by
  have : DInv cx ({} : DState V) [] := by constructor <;> simp [declFields, subToList]
  simpa using foldl_inv_aux cx ds [] {} this h


/-- What `assignIndexes` and `resolveField` do to a field. -/
def finField (direct : List (FieldInfo V)) (x : FieldInfo V × Nat) : FieldInfo V :=
  { x.1 with
    attrs := ArgAttrs.set x.1.attrs (ArgAttrs.index x.2) true
    dependenciesIdx := (resolveRefs direct x.1.dependencies).2
    conflictsIdx := (resolveRefs direct x.1.conflicts).2 }

/-- All fields in their final order. -/
def DState.all (s : DState V) : List (FieldInfo V) :=
  s.named ++ s.positional ++ s.varArg.toList ++ s.last.toList

theorem resolved_eq (L : List (FieldInfo V)) :
    ((assignIndexes L).map (resolveField (assignIndexes L))).map (·.2)
      = L.zipIdx.map (finField (assignIndexes L)) := by
  generalize hD : assignIndexes L = D
  conv => lhs; rw [← hD]
  unfold assignIndexes
  rw [List.map_map, List.map_map]
  apply List.map_congr_left
  rintro ⟨f, i⟩ _
  subst hD
  rfl

theorem contains_set_index (a : ArgAttrs) (i k : Nat) (h8 : 8 ≤ k) (hk : k < 32) :
    (ArgAttrs.set a (ArgAttrs.index i) true).contains (1#32 <<< k) = a.contains (1#32 <<< k) := by
  rw [ArgAttrs.contains_shl _ k hk, ArgAttrs.contains_shl _ k hk, ArgAttrs.getLsbD_set,
    ArgAttrs.getLsbD_index i k h8]
  simp

theorem FieldPre.fin {cx : Cx V} {f : FieldInfo V} (h : FieldPre cx f) (D : List (FieldInfo V)) (i : Nat) :
    FieldPre cx (finField D (f, i)) := by
  have bit : ∀ k, 8 ≤ k → k < 32 → (finField D (f, i)).attrs.contains (1#32 <<< k)
      = f.attrs.contains (1#32 <<< k) := fun k h8 hk => contains_set_index f.attrs i k h8 hk
  exact {
    rv := (bit 16 (by decide) (by decide)).trans h.rv
    re := (bit 17 (by decide) (by decide)).trans h.re
    ha := (bit 18 (by decide) (by decide)).trans h.ha
    hn := (bit 19 (by decide) (by decide)).trans h.hn
    gl := (bit 20 (by decide) (by decide)).trans h.gl
    lo := (bit 21 (by decide) (by decide)).trans h.lo
    va := fun o => (bit 22 (by decide) (by decide)).trans (h.va o)
    la := (bit 24 (by decide) (by decide)).trans h.la
    gr := (bit 23 (by decide) (by decide)).trans h.gr
    vaNamed := fun o => (bit 22 (by decide) (by decide)).trans (h.vaNamed o)
    namedNoLast := h.namedNoLast
    names := h.names
    longOk := h.longOk
    shortOk := h.shortOk
    posAttrs := h.posAttrs
    lastMulti := h.lastMulti
    required := h.required
    delim := h.delim
    delimMulti := h.delimMulti
    optOpt := h.optOpt
    hyphenVal := h.hyphenVal
    hyphenOne := h.hyphenOne
    defaultTy := h.defaultTy
    defaultSrc := h.defaultSrc
    defaultStr := h.defaultStr
    defaultExpr := h.defaultExpr
    defaultReq := h.defaultReq
    ignoreCase := h.ignoreCase
    excl := h.excl
    deps := h.deps
    confs := h.confs
    docSrc := h.docSrc
    hideSrc := h.hideSrc
    descOk := h.descOk
    desc := h.desc }

theorem identsDistinct_nodup {l : List Str} (h : identsDistinct l = true) : l.Nodup := by
  induction l with
  | nil => simp
  | cons x xs ih =>
    simp only [identsDistinct, Bool.and_eq_true, Bool.not_eq_true', List.contains_eq_mem,
      decide_eq_false_iff_not] at h
    rw [List.nodup_cons]
    exact ⟨h.1, ih h.2⟩

theorem split4 (F : List (FieldInfo V)) :
    (F.filter isOption ++ F.filter isSingle ++ F.filter isVar ++ F.filter isLastF).Perm F := by
  induction F with
  | nil => simp
  | cons f fs ih =>
    have key : ∀ (A B C D : List (FieldInfo V)), (A ++ B ++ C ++ D).Perm fs →
        ((f :: A) ++ B ++ C ++ D).Perm (f :: fs) ∧ (A ++ (f :: B) ++ C ++ D).Perm (f :: fs)
        ∧ (A ++ B ++ (f :: C) ++ D).Perm (f :: fs) ∧ (A ++ B ++ C ++ (f :: D)).Perm (f :: fs) := by
      intro A B C D h
      have h' := h.cons f
      refine ⟨by simpa using h', ?_, ?_, ?_⟩
      · refine List.Perm.trans ?_ h'
        simp only [List.append_assoc, List.cons_append]
        exact List.perm_middle
      · refine List.Perm.trans ?_ h'
        simp only [List.append_assoc, List.cons_append]
        rw [← List.append_assoc, ← List.append_assoc A B]
        exact List.perm_middle
      · refine List.Perm.trans ?_ h'
        exact List.perm_middle
    obtain ⟨k1, k2, k3, k4⟩ := key _ _ _ _ ih
    cases ho : isOption f <;> cases hm : isMulti f <;> cases hl : f.src.last <;>
      simp only [isSingle, isVar, isLastF, ho, hm, hl, List.filter_cons, Bool.not_true, Bool.not_false,
        Bool.and_true, Bool.and_false, if_true, Bool.false_eq_true, if_false] <;> assumption

theorem declFields_idents (cx : Cx V) (ds : List (FieldDecl V)) :
    ((declFields cx ds).map (·.ident)).Sublist (ds.map (·.ident)) := by
  induction ds with
  | nil => simp [declFields]
  | cons x xs ih =>
    cases x with
    | arg i ty m =>
      have : declFields cx (FieldDecl.arg i ty m :: xs) = (argField cx i ty m).2 :: declFields cx xs := by
        simp [declFields, declField]
      rw [this, List.map_cons, List.map_cons, (argField_src cx i ty m).2.1]
      exact ih.cons_cons _
    | subcommand i o vs =>
      have : declFields cx (FieldDecl.subcommand i o vs :: xs) = declFields cx xs := rfl
      rw [this]
      exact ih.cons _
    | flatten i d =>
      have : declFields cx (FieldDecl.flatten i d :: xs) = declFields cx xs := rfl
      rw [this]
      exact ih.cons _

theorem resolveAll_ok {D : List (FieldInfo V)} {ids : List Str} {ns : List Nat}
    (h : resolveAll D ids = some ns) : ns.length = ids.length ∧
      ∀ (k : Nat) (x : Str) (n : Nat), ids[k]? = some x → ns[k]? = some n → lookupIdx D x = some n := by
  induction ids generalizing ns with
  | nil =>
    simp only [resolveAll, Option.some.injEq] at h
    subst h
    simp
  | cons i is ih =>
    simp only [resolveAll] at h
    split at h
    · rename_i n hn
      cases hr : resolveAll D is with
      | none => simp [hr] at h
      | some ns' =>
        simp only [hr, Option.map_some, Option.some.injEq] at h
        subst h
        obtain ⟨h1, h2⟩ := ih hr
        refine ⟨by simp [h1], ?_⟩
        intro k x m hk hm
        cases k with
        | zero => simp at hk hm; subst hk hm; exact hn
        | succ k => simp at hk hm; exact h2 k x m hk hm
    · simp at h

theorem lookupIdx_ok {L : List (FieldInfo V)} {x : Str} {n : Nat} (hlen : L.length ≤ 256)
    (h0 : ∀ f ∈ L, ∀ i, i < 8 → f.attrs.getLsbD i = false)
    (h : lookupIdx (assignIndexes L) x = some n) : ∃ g : FieldInfo V, L[n]? = some g ∧ g.ident = x := by
  unfold lookupIdx at h
  cases hf : (assignIndexes L).find? (fun f => f.ident = x) with
  | none => simp [hf] at h
  | some f =>
    simp only [hf, Option.map_some, Option.some.injEq] at h
    have hx := List.find?_some hf
    have hm := List.mem_of_find?_eq_some hf
    unfold assignIndexes at hm
    rw [List.mem_map] at hm
    obtain ⟨⟨g, i⟩, hg, rfl⟩ := hm
    rw [List.mem_zipIdx_iff_getElem?] at hg
    have hi : i < L.length := (List.getElem?_eq_some_iff.1 hg).1
    have hgi : ArgAttrs.getIndex (ArgAttrs.set g.attrs (ArgAttrs.index i) true) = i :=
      ArgAttrs.getIndex_set_index _ _ (by omega) (h0 g (List.mem_of_getElem? hg))
    simp only at h
    rw [hgi] at h
    subst h
    exact ⟨g, hg, by simpa using hx⟩

theorem toList_zipIdx_map (o : Option (FieldInfo V)) (k : Nat) (g : FieldInfo V × Nat → FieldInfo V) :
    (o.toList.zipIdx k).map g = (o.map (fun f => g (f, k))).toList := by
  cases o <;> rfl

/-- What an accepted struct looks like. -/
structure Accepted (cx : Cx V) (cmeta : Option CommandMeta) (ds : List (FieldDecl V)) (core : Core V)
    (flats : Flats V) (sub : SubField V) : Prop where
  wf : CoreWF cx core
  cmeta : core.cmdMeta = cmeta
  flatsEq : flats = Flats.ofList (ds.filterMap declFlat)
  flatOk : ∀ x ∈ ds.filterMap declFlat, x.2.info.positionalLen = 0 ∧ x.2.hasSub = false
  subEq : subToList sub = ds.filterMap declSub
  excl : (∃ f ∈ core.fields, f.exclusive = true) → flats = .nil
  fields : ∃ D, core.fields = (((declFields cx ds).filter isOption ++ (declFields cx ds).filter isSingle
    ++ (declFields cx ds).filter isVar ++ (declFields cx ds).filter isLastF)).zipIdx.map (finField D)
  errs : ∀ i ty m, FieldDecl.arg i ty m ∈ ds → (argField cx i ty m).1 = []
  order : (declFields cx ds).filter (fun f => isSingle f || isVar f)
    = (declFields cx ds).filter isSingle ++ (declFields cx ds).filter isVar
  oneLast : ((declFields cx ds).filter isLastF).length ≤ 1

theorem ite_ok {α ε : Type} {c : Prop} [Decidable c] {a b : α} {e : ε}
    (h : (if c then Except.ok a else Except.error e) = Except.ok b) : c ∧ a = b := by
  by_cases hc : c
  · rw [if_pos hc] at h; exact ⟨hc, Except.ok.inj h⟩
  · rw [if_neg hc] at h; cases h

theorem deriveArgs_ok {cx : Cx V} {cmeta : Option CommandMeta} {ds : List (FieldDecl V)} {core : Core V}
    {flats : Flats V} {sub : SubField V} (h : deriveArgs cx cmeta ds = .ok (.mk core flats sub)) :
    Accepted cx cmeta ds core flats sub := by
  unfold deriveArgs at h
  split at h
  · simp at h
  rename_i hlen
  obtain ⟨he, h⟩ := ite_ok h
  simp only [List.append_eq_nil_iff] at he
  obtain ⟨⟨⟨he, hres⟩, hexc⟩, hids⟩ := he
  have inv := foldl_inv cx ds he
  generalize hs : ds.foldl (deriveStep cx) {} = s at *
  have hall : s.named ++ s.positional ++ s.varArg.toList ++ s.last.toList = s.all := rfl
  rw [hall] at h hres hexc
  have hallF : s.all = (declFields cx ds).filter isOption ++ (declFields cx ds).filter isSingle
      ++ (declFields cx ds).filter isVar ++ (declFields cx ds).filter isLastF := by
    rw [← inv.named, ← inv.positional, ← inv.varArg, ← inv.last]; rfl
  have hperm : s.all.Perm (declFields cx ds) := by rw [hallF]; exact split4 _
  have hexc := ite_nil hexc
  have hids : identsDistinct (ds.map (·.ident)) = true := by
    refine Classical.byContradiction fun hne => ?_
    rw [if_neg hne] at hids
    simp at hids
  injection h with hcore hflats hsub
  have hlen2 : s.all.length ≤ 254 := by
    rw [hperm.length_eq]
    have := List.length_filterMap_le (declField cx) ds
    unfold declFields
    omega
  have hpre : ∀ f ∈ s.all, FieldPre cx f ∧ ∀ i, i < 8 → f.attrs.getLsbD i = false := by
    intro f hf
    have hf := hperm.mem_iff.1 hf
    unfold declFields at hf
    rw [List.mem_filterMap] at hf
    obtain ⟨x, hx, hxf⟩ := hf
    cases x with
    | arg i ty m =>
      simp only [declField, Option.some.injEq] at hxf
      subst hxf
      exact argField_pre (inv.errs i ty m hx)
    | subcommand => simp [declField] at hxf
    | flatten => simp [declField] at hxf
  have hfields : core.fields = s.all.zipIdx.map (finField (assignIndexes s.all)) := by
    rw [← hcore]; exact resolved_eq s.all
  have hcnt : core.namedCnt = s.named.length := by rw [← hcore]
  have hmem : ∀ f ∈ core.fields, ∃ g i, s.all[i]? = some g ∧ f = finField (assignIndexes s.all) (g, i) := by
    intro f hf
    rw [hfields, List.mem_map] at hf
    obtain ⟨⟨g, i⟩, hg, rfl⟩ := hf
    rw [List.mem_zipIdx_iff_getElem?] at hg
    exact ⟨g, i, hg, rfl⟩
  have hget : ∀ i g, s.all[i]? = some g → core.fields[i]? = some (finField (assignIndexes s.all) (g, i)) := by
    intro i g hg
    rw [hfields, List.getElem?_map, List.getElem?_zipIdx, hg]; simp
  have hR : ∀ ids : List Str, (resolveRefs (assignIndexes s.all) ids).1 = [] →
      ResolvedOk core ids (resolveRefs (assignIndexes s.all) ids).2 := by
    intro ids hr
    unfold resolveRefs at hr ⊢
    split
    · rename_i h0; exact Or.inl ⟨h0, rfl⟩
    · rename_i h0
      rw [if_neg h0] at hr
      split at hr
      · rename_i ns hns
        refine Or.inr ⟨ns, rfl, ?_⟩
        obtain ⟨h1, h2⟩ := resolveAll_ok hns
        refine ⟨h1, ?_⟩
        intro k x n hk hn
        obtain ⟨g, hg, hgx⟩ := lookupIdx_ok (by omega) (fun f hf => (hpre f hf).2) (h2 k x n hk hn)
        exact ⟨_, hget n g hg, hgx⟩
      · simp at hr
  have hres' : ∀ (g : FieldInfo V) (i : Nat), s.all[i]? = some g →
      (resolveRefs (assignIndexes s.all) g.dependencies).1 = []
      ∧ (resolveRefs (assignIndexes s.all) g.conflicts).1 = [] := by
    intro g i hg
    rw [List.flatMap_eq_nil_iff] at hres
    have := hres (resolveField (assignIndexes s.all)
      { g with attrs := ArgAttrs.set g.attrs (ArgAttrs.index i) true }) (by
        apply List.mem_map_of_mem
        unfold assignIndexes
        rw [List.mem_map]
        exact ⟨(g, i), List.mem_zipIdx_iff_getElem?.2 hg, rfl⟩)
    simp only [resolveField, List.append_eq_nil_iff] at this
    exact this
  refine { wf := ?_, cmeta := ?_, flatsEq := ?_, flatOk := ?_, subEq := ?_, excl := ?_, fields := ?_, errs := inv.errs, order := inv.order,
           oneLast := by rw [← inv.last]; cases s.last <;> simp }
  · refine { len := ?_, fields := ?_, cnt := ?_, named := ?_, layout := ?_, nodup := ?_, idents := ?_,
             depsOk := ?_, confsOk := ?_ }
    · rw [hfields]; simpa using hlen2
    · intro i f hf
      rw [hfields, List.getElem?_map, List.getElem?_zipIdx] at hf
      cases hg : s.all[i]? with
      | none => simp [hg] at hf
      | some g =>
        simp only [hg, Option.map_some, Option.some.injEq, Nat.zero_add] at hf
        subst hf
        have hi : i < s.all.length := (List.getElem?_eq_some_iff.1 hg).1
        have hp := hpre g (List.mem_of_getElem? hg)
        exact { hp.1.fin _ i with
          idx := ArgAttrs.getIndex_set_index _ _ (by omega) hp.2 }
    · rw [hcnt, hfields]; simp [DState.all]
    · intro f hf
      rw [hcnt, hfields, ← List.map_take] at hf
      have : s.all.zipIdx.take s.named.length = s.named.zipIdx := by
        unfold DState.all
        simp only [List.append_assoc, List.zipIdx_append]
        rw [List.take_append_of_le_length (by simp), List.take_of_length_le (by simp)]
      rw [this, List.mem_map] at hf
      obtain ⟨⟨g, i⟩, hg, rfl⟩ := hf
      rw [List.mem_zipIdx_iff_getElem?] at hg
      have := List.mem_of_getElem? hg
      rw [inv.named, List.mem_filter] at this
      exact this.2
    · refine ⟨(s.positional.zipIdx (0 + s.named.length)).map (finField (assignIndexes s.all)),
        s.varArg.map (fun f => finField (assignIndexes s.all) (f, 0 + s.named.length + s.positional.length)),
        s.last.map (fun f => finField (assignIndexes s.all)
          (f, 0 + s.named.length + s.positional.length + s.varArg.toList.length)), ?_, ?_, ?_, ?_⟩
      · rw [← toList_zipIdx_map, ← toList_zipIdx_map, ← List.map_append, ← List.map_append, hcnt, hfields,
          ← List.map_drop]
        congr 1
        unfold DState.all
        simp only [List.append_assoc, List.zipIdx_append]
        rw [List.drop_append_of_le_length (by simp), List.drop_of_length_le (by simp)]
        simp
      · intro f hf
        rw [List.mem_map] at hf
        obtain ⟨⟨g, i⟩, hg, rfl⟩ := hf
        have hg := List.fst_mem_of_mem_zipIdx hg
        rw [inv.positional, List.mem_filter] at hg
        have := hg.2
        simp only [isSingle, Bool.and_eq_true, Bool.not_eq_true'] at this
        exact ⟨this.1.1, this.1.2, this.2⟩
      · intro f hf
        cases hv : s.varArg with
        | none => simp [hv] at hf
        | some g =>
          simp only [hv, Option.map_some, Option.mem_def, Option.some.injEq] at hf
          subst hf
          have : g ∈ s.varArg.toList := by simp [hv]
          rw [inv.varArg, List.mem_filter] at this
          have := this.2
          simp only [isVar, Bool.and_eq_true, Bool.not_eq_true'] at this
          exact ⟨this.1.1, this.1.2, this.2⟩
      · intro f hf
        cases hv : s.last with
        | none => simp [hv] at hf
        | some g =>
          simp only [hv, Option.map_some, Option.mem_def, Option.some.injEq] at hf
          subst hf
          have : g ∈ s.last.toList := by simp [hv]
          rw [inv.last, List.mem_filter] at this
          have := this.2
          simp only [isLastF, Bool.and_eq_true, Bool.not_eq_true'] at this
          exact ⟨this.1, this.2⟩
    · have : core.fields.flatMap (·.encNames) = s.all.flatMap (·.encNames) := by
        rw [hfields, List.flatMap_map]
        conv => rhs; rw [← List.zipIdx_map_fst 0 s.all, List.flatMap_map]
        rfl
      rw [this]
      have hz : ∀ f ∈ s.positional ++ s.varArg.toList ++ s.last.toList, f.encNames = [] := by
        intro f hf
        have hp : FieldPre cx f := (hpre f (by unfold DState.all; simp at hf ⊢; grind)).1
        rw [hp.names]
        have : isOption f = false := by
          rw [inv.positional, inv.varArg, inv.last] at hf
          simp only [List.mem_append, List.mem_filter, isSingle, isVar, isLastF, Bool.and_eq_true,
            Bool.not_eq_true'] at hf
          rcases hf with (hf | hf) | hf
          · exact hf.2.1.1
          · exact hf.2.1.1
          · exact hf.2.1
        rw [this]; simp
      have : s.all.flatMap (·.encNames) = s.named.flatMap (·.encNames) := by
        unfold DState.all
        have h0 : (s.positional ++ (s.varArg.toList ++ s.last.toList)).flatMap (·.encNames) = [] := by
          rw [List.flatMap_eq_nil_iff]
          intro f hf
          exact hz f (by simpa using hf)
        rw [List.append_assoc, List.append_assoc, List.flatMap_append, h0, List.append_nil]
      rw [this]
      exact inv.nodup
    · have : core.fields.map (·.ident) = s.all.map (·.ident) := by
        rw [hfields, List.map_map]
        conv => rhs; rw [← List.zipIdx_map_fst 0 s.all, List.map_map]
        rfl
      rw [this, (hperm.map _).nodup_iff]
      exact (declFields_idents cx ds).nodup (identsDistinct_nodup hids)
    · intro f hf
      obtain ⟨g, i, hg, rfl⟩ := hmem f hf
      exact hR _ (hres' g i hg).1
    · intro f hf
      obtain ⟨g, i, hg, rfl⟩ := hmem f hf
      exact hR _ (hres' g i hg).2
  · rw [← hcore]
  · rw [← hflats, inv.flats]
  · rw [← inv.flats]; exact inv.flatOk
  · rw [← hsub]; exact inv.sub
  · rintro ⟨f, hf, hfe⟩
    obtain ⟨g, i, hg, rfl⟩ := hmem f hf
    rw [← hflats]
    have hany : (assignIndexes s.all).any (·.exclusive) = true := by
      rw [List.any_eq_true]
      refine ⟨{ g with attrs := ArgAttrs.set g.attrs (ArgAttrs.index i) true }, ?_, hfe⟩
      unfold assignIndexes
      rw [List.mem_map]
      exact ⟨(g, i), List.mem_zipIdx_iff_getElem?.2 hg, rfl⟩
    rw [hany] at hexc
    have : s.flats = [] := by simpa using hexc
    rw [this]; rfl
  · exact ⟨_, by rw [← hallF]; exact hfields⟩


theorem ofList_wf {cx : Cx V} {l : List (Str × ArgsDef V)} (h : ∀ x ∈ l, WFArgs cx x.2)
    (hp : ∀ x ∈ l, (coreOf x.2).positional = [] ∧ subOf x.2 = .none) : WFFlats cx (Flats.ofList l) := by
  induction l with
  | nil => simp [Flats.ofList, WFFlats]
  | cons x xs ih =>
    obtain ⟨i, d⟩ := x
    simp only [Flats.ofList, WFFlats]
    refine ⟨h _ (List.mem_cons_self ..), (hp _ (List.mem_cons_self ..)).1, (hp _ (List.mem_cons_self ..)).2, ?_⟩
    exact ih (fun x hx => h x (List.mem_cons_of_mem _ hx)) (fun x hx => hp x (List.mem_cons_of_mem _ hx))

theorem deriveSub_wf {cx : Cx V} {l : List (VariantDecl V)}
    (h : ∀ i d, VariantDecl.args i d ∈ l → WFArgs cx d) : WFVariants cx (deriveSub cx l) := by
  induction l with
  | nil => simp [deriveSub, WFVariants]
  | cons x xs ih =>
    have ih := ih (fun i d hd => h i d (List.mem_cons_of_mem _ hd))
    cases x with
    | unit i c => simp only [deriveSub, WFVariants, WFVariant, true_and]; exact ih
    | args i d =>
      simp only [deriveSub, WFVariants, WFVariant]
      exact ⟨h i d (List.mem_cons_self ..), ih⟩

/-- Everything the derive macros accept is well-formed. -/
theorem DerivedArgs.wf {cx : Cx V} {d : ArgsDef V} (h : DerivedArgs cx d) : WFArgs cx d := by
  refine DerivedArgs.rec (motive_1 := fun d _ => WFArgs cx d) (motive_2 := fun vs _ => WFVariants cx vs)
    ?_ ?_ h
  · intro d cmeta ds _ _ h ihf ihs
    obtain ⟨core, flats, sub⟩ := d
    have acc := deriveArgs_ok h
    rw [WFArgs]
    refine ⟨acc.wf, ?_, ?_, acc.excl⟩
    · rw [acc.flatsEq]
      apply ofList_wf
      · intro x hx
        rw [List.mem_filterMap] at hx
        obtain ⟨y, hy, hyx⟩ := hx
        cases y with
        | flatten i d => simp only [declFlat, Option.some.injEq] at hyx; subst hyx; exact ihf i d hy
        | arg => simp [declFlat] at hyx
        | subcommand => simp [declFlat] at hyx
      · intro x hx
        obtain ⟨h1, h2⟩ := acc.flatOk x hx
        obtain ⟨i, core', flats', sub'⟩ := x
        constructor
        · rw [ArgsDef.info] at h1
          simpa [ArgsInfo.positionalLen, ArgsInfo.new, coreOf] using h1
        · cases sub' with
          | none => rfl
          | some => simp [ArgsDef.hasSub] at h2
    · have := acc.subEq
      cases sub with
      | none => simp [WFSub]
      | some i o vs =>
        rw [WFSub]
        have hm : (i, o, vs) ∈ ds.filterMap declSub := by rw [← this]; simp [subToList]
        rw [List.mem_filterMap] at hm
        obtain ⟨y, hy, hyx⟩ := hm
        cases y with
        | subcommand i' o' vs' =>
          simp only [declSub, Option.some.injEq, Prod.mk.injEq] at hyx
          obtain ⟨rfl, rfl, rfl⟩ := hyx
          exact ihs _ _ _ hy
        | arg => simp [declSub] at hyx
        | flatten => simp [declSub] at hyx
  · intro vs l _ h ih
    subst h
    exact deriveSub_wf ih

end Palc
