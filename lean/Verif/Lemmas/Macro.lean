import Verif.SpecMacro
import Verif.Lemmas.SourceCommand
import Verif.Lemmas.DeriveWF
/-!
# The entry points of the derive macros
-/

namespace Palc

open Spec

variable {V : Type} {cx : SrcCx V} {env : TyExpr → TyInfo V}

theorem Spec.Each.length {α β : Type} {R : α → β → Prop} {as : List α} {bs : List β} (h : Each R as bs) :
    as.length = bs.length := by
  induction h with
  | nil => rfl
  | cons _ _ ih => simp [ih]

theorem Spec.Each.left {α β : Type} {R : α → β → Prop} {as : List α} {bs : List β} (h : Each R as bs) {a : α}
    (ha : a ∈ as) : ∃ b ∈ bs, R a b := by
  induction h with
  | nil => simp at ha
  | cons h _ ih =>
    rcases List.mem_cons.mp ha with rfl | ha
    · exact ⟨_, by simp, h⟩
    · obtain ⟨b, hb, hr⟩ := ih ha
      exact ⟨b, List.mem_cons_of_mem _ hb, hr⟩

theorem Spec.Each.right {α β : Type} {R : α → β → Prop} {as : List α} {bs : List β} (h : Each R as bs) {b : β}
    (hb : b ∈ bs) : ∃ a ∈ as, R a b := by
  induction h with
  | nil => simp at hb
  | cons h _ ih =>
    rcases List.mem_cons.mp hb with rfl | hb
    · exact ⟨_, by simp, h⟩
    · obtain ⟨b, hb, hr⟩ := ih hb
      exact ⟨b, List.mem_cons_of_mem _ hb, hr⟩

theorem Spec.Each.imp {α β : Type} {R S : α → β → Prop} {as : List α} {bs : List β} (h : Each R as bs)
    (hrs : ∀ a ∈ as, ∀ b, R a b → S a b) : Each S as bs := by
  induction h with
  | nil => exact .nil
  | cons h _ ih => exact .cons (hrs _ (by simp) _ h) (ih (fun a ha => hrs a (List.mem_cons_of_mem _ ha)))

theorem Spec.Each.map_eq {α β γ : Type} {R : α → β → Prop} {f : α → γ} {g : β → γ} {as : List α} {bs : List β}
    (h : Each R as bs) (hfg : ∀ a b, R a b → g b = f a) : bs.map g = as.map f := by
  induction h with
  | nil => rfl
  | cons h _ ih => rw [List.map_cons, List.map_cons, ih, hfg _ _ h]

/-- Running a partial function with errors over a list. -/
theorem collect_iff {α β ε : Type} {f : α → List ε × Option β} (hf : ∀ a, (f a).1 = [] → ∃ b, (f a).2 = some b)
    {as : List α} {bs : List β} :
    (as.map f).flatMap (·.1) = [] ∧ (as.map f).filterMap (·.2) = bs
      ↔ Each (fun a b => f a = ([], some b)) as bs := by
  induction as generalizing bs with
  | nil =>
    simp only [List.map_nil, List.flatMap_nil, List.filterMap_nil, true_and]
    constructor
    · rintro rfl; exact .nil
    · intro h; cases h; rfl
  | cons a as ih =>
    rw [List.map_cons, List.flatMap_cons, List.append_eq_nil_iff]
    constructor
    · rintro ⟨⟨h1, h2⟩, h3⟩
      obtain ⟨b, hb⟩ := hf a h1
      rw [List.filterMap_cons_some hb] at h3
      subst h3
      exact .cons (Prod.ext h1 hb) (ih.mp ⟨h2, rfl⟩)
    · intro h
      cases h with
      | cons h hs =>
        obtain ⟨h1, h2⟩ := ih.mpr hs
        rw [List.filterMap_cons_some (congrArg Prod.snd h), h2]
        exact ⟨⟨congrArg Prod.fst h, h1⟩, rfl⟩

theorem strip_iff {t a : TyExpr} {c : Str} : stripTyCtor t c = some a ↔ t = .path false false [(c, .angle [.ty a])] := by
  constructor
  · intro h
    unfold stripTyCtor at h
    split at h
    · split at h
      · cases h; subst_vars; rfl
      · cases h
    · cases h
  · rintro rfl
    simp [stripTyCtor]

theorem strip_option {t a : TyExpr} : stripTyCtor t (lit "Option") = some a ↔ t = optionOf a := strip_iff
theorem strip_vec {t a : TyExpr} : stripTyCtor t (lit "Vec") = some a ↔ t = vecOf a := strip_iff

theorem strip_none {t : TyExpr} {c : Str} : stripTyCtor t c = none ↔ ∀ a, t ≠ .path false false [(c, .angle [.ty a])] := by
  constructor
  · rintro h a rfl
    rw [strip_iff.mpr rfl] at h
    cases h
  · intro h
    cases hs : stripTyCtor t c with
    | none => rfl
    | some a => exact absurd (strip_iff.mp hs) (h a)

theorem elabField_iff {f : SrcField V} {x : FieldDecl V} :
    elabField cx env f = ([], some x) ↔ AttrsOk cx.isIdent f.attrs ∧ FieldMeans env f x := by
  have hok := parseFieldAttrs_ok (V := V) (isIdent := cx.isIdent) (attrs := f.attrs)
  have hfst := parseFieldAttrs_fst (V := V) (isIdent := cx.isIdent) (attrs := f.attrs)
  unfold elabField
  generalize parseFieldAttrs cx.isIdent f.attrs = r at hok hfst
  obtain ⟨c, errs⟩ := r
  dsimp only at hok hfst
  by_cases ha : AttrsOk cx.isIdent f.attrs
  · obtain rfl := hok.mpr ha
    have hc := hfst ha
    simp only [ha, true_and]
    have hone := ha.one
    cases hcs : commands f.attrs with
    | nil =>
      rw [hcs] at hc
      dsimp only at hc
      subst hc
      simp only [Prod.mk.injEq, true_and, Option.some.injEq]
      constructor
      · rintro rfl; exact .arg hcs
      · intro h
        cases h with
        | arg => rfl
        | flatten h => rw [hcs] at h; cases h
        | subOptional h => rw [hcs] at h; cases h
        | sub h => rw [hcs] at h; cases h
    | cons k ks =>
      rw [hcs] at hc hone
      have : ks = [] := by
        cases ks with
        | nil => rfl
        | cons => simp at hone
      subst this
      dsimp only at hc
      subst hc
      cases k with
      | flatten =>
        dsimp only
        constructor
        · intro h
          split at h
          · rename_i d hd
            cases h
            exact .flatten hcs hd
          · simp at h
        · intro h
          cases h with
          | arg h => rw [hcs] at h; cases h
          | flatten h hd => rw [hd]
          | subOptional h => rw [hcs] at h; cases h
          | sub h => rw [hcs] at h; cases h
      | subcommand =>
        dsimp only
        constructor
        · intro h
          cases hs : stripTyCtor f.ty (lit "Option") with
          | some t =>
            rw [hs] at h
            dsimp only at h
            split at h
            · rename_i vs hv
              cases h
              exact .subOptional hcs (strip_option.mp hs) hv
            · simp at h
          | none =>
            rw [hs] at h
            dsimp only at h
            split at h
            · rename_i vs hv
              cases h
              exact .sub hcs (strip_none.mp hs) hv
            · simp at h
        · intro h
          cases h with
          | arg h => rw [hcs] at h; cases h
          | flatten h hd => rw [hcs] at h; cases h
          | subOptional h ht hv => rw [strip_option.mpr ht]; simp only [hv]
          | sub h ht hv => rw [show stripTyCtor f.ty (lit "Option") = none from strip_none.mpr ht]; simp only [hv]
  · have he : errs ≠ [] := fun h => ha (hok.mp h)
    simp only [ha, false_and, iff_false]
    intro h
    cases c with
    | arg m => exact he (congrArg Prod.fst h)
    | command k =>
      cases k with
      | flatten =>
        dsimp only at h
        split at h
        · exact he (congrArg Prod.fst h)
        · simp at h
      | subcommand =>
        dsimp only at h
        split at h
        · exact he (congrArg Prod.fst h)
        · simp at h

theorem elabField_some {f : SrcField V} (h : (elabField cx env f).1 = []) : ∃ x, (elabField cx env f).2 = some x := by
  unfold elabField at h ⊢
  split
  · exact ⟨_, rfl⟩
  · rename_i hp
    rw [hp] at h
    dsimp only at h ⊢
    split
    · exact ⟨_, rfl⟩
    · rename_i hv
      rw [hv] at h
      simp at h
  · rename_i hp
    rw [hp] at h
    dsimp only at h
    split
    · exact ⟨_, rfl⟩
    · rename_i hv
      rw [hv] at h
      simp at h

theorem fields_iff {fields : List (SrcField V)} {ds : List (FieldDecl V)} :
    (fields.map (elabField cx env)).flatMap (·.1) = [] ∧ (fields.map (elabField cx env)).filterMap (·.2) = ds
      ↔ FieldsMean cx env fields ds := by
  rw [collect_iff (fun f => elabField_some)]
  constructor
  · intro h
    refine ⟨fun f hf => ?_, h.imp (fun _ _ _ hx => (elabField_iff.mp hx).2)⟩
    obtain ⟨b, -, hb⟩ := h.left hf
    exact (elabField_iff.mp hb).1
  · rintro ⟨h1, h2⟩
    exact h2.imp (fun f hf x hx => elabField_iff.mpr ⟨h1 f hf, hx⟩)

theorem deriveArgs_size {c : Cx V} {cmeta : Option CommandMeta} {ds : List (FieldDecl V)} {d : ArgsDef V}
    (h : deriveArgs c cmeta ds = .ok d) : ds.length ≤ 254 := by
  unfold deriveArgs at h
  split at h
  · cases h
  · omega

theorem deriveFields_iff {cmeta : Option CommandMeta} {fields : List (SrcField V)} {d : ArgsDef V} :
    deriveFields cx env cmeta fields = .ok d
      ↔ ∃ ds, FieldsMean cx env fields ds ∧ deriveArgs cx.toCx cmeta ds = .ok d := by
  unfold deriveFields
  dsimp only
  constructor
  · intro h
    split at h
    · cases h
    · split at h
      · rename_i he
        refine ⟨_, fields_iff.mp ⟨he, rfl⟩, ?_⟩
        unfold Expansion.ofDerive at h
        split at h
        · rename_i d' hd
          cases h
          exact hd
        · cases h
      · cases h
  · rintro ⟨ds, hf, hd⟩
    obtain ⟨h1, h2⟩ := fields_iff.mpr hf
    have hl := deriveArgs_size hd
    rw [← hf.each.length] at hl
    rw [if_neg (by omega), if_pos h1, h2, hd]
    rfl

theorem deriveFields_panic {cmeta : Option CommandMeta} {fields : List (SrcField V)} :
    deriveFields cx env cmeta fields ≠ .panic := by
  unfold deriveFields
  dsimp only
  intro h
  split at h
  · cases h
  · split at h
    · unfold Expansion.ofDerive at h
      split at h <;> cases h
    · cases h

theorem ite_error {α ε : Type} {es es' : List ε} {a : α} (h : (if es = [] then Except.ok a else .error es) = .error es') :
    es' ≠ [] := by
  split at h
  · cases h
  · rename_i hn
    cases h
    exact hn

theorem deriveArgs_error {c : Cx V} {cmeta : Option CommandMeta} {ds : List (FieldDecl V)} {es : List DeriveError}
    (h : deriveArgs c cmeta ds = .error es) : es ≠ [] := by
  unfold deriveArgs at h
  by_cases hl : ds.length > 254
  · rw [if_pos hl] at h; cases h; simp
  · rw [if_neg hl] at h
    exact ite_error h

theorem deriveFields_errors {cmeta : Option CommandMeta} {fields : List (SrcField V)} {es : List SrcError}
    (h : deriveFields cx env cmeta fields = .errors es) : es ≠ [] := by
  unfold deriveFields at h
  dsimp only at h
  split at h
  · cases h; simp
  · split at h
    · unfold Expansion.ofDerive at h
      split at h
      · cases h
      · rename_i es' he
        cases h
        simpa using deriveArgs_error he
    · rename_i hn
      cases h
      intro hx
      exact hn (List.append_eq_nil_iff.1 hx).1

theorem cmdOf_eq {attrs : List (Attr Str)} (h : CmdAttrsOk attrs) :
    parseCommandAttrs cx.pkgDescription attrs = (cmdOf cx.pkgDescription attrs, []) :=
  Prod.ext (parseCommandAttrs_fst h) (parseCommandAttrs_ok.mpr h)

theorem expandArgs_iff {input : Input V} {d : ArgsDef V} :
    expandArgs cx env input = .ok d ↔ input.generics = false ∧ CmdAttrsOk input.attrs
      ∧ ∃ fields ds, input.data = .structNamed fields ∧ FieldsMean cx env fields ds
        ∧ deriveArgs cx.toCx (cmdOf cx.pkgDescription input.attrs) ds = .ok d := by
  unfold expandArgs
  constructor
  · intro h
    split at h
    · cases h
    · rename_i hg
      split at h
      · rename_i fields hdata
        by_cases ha : CmdAttrsOk input.attrs
        · rw [cmdOf_eq ha] at h
          dsimp only at h
          split at h
          · rename_i d' hd
            rw [if_pos rfl] at h
            cases h
            obtain ⟨ds, h1, h2⟩ := deriveFields_iff.mp hd
            exact ⟨by simpa using hg, ha, fields, ds, hdata, h1, h2⟩
          · cases h
          · cases h
        · have hn : (parseCommandAttrs cx.pkgDescription input.attrs).2 ≠ [] := fun h => ha (parseCommandAttrs_ok.mp h)
          generalize parseCommandAttrs cx.pkgDescription input.attrs = r at h hn
          obtain ⟨c, errs⟩ := r
          dsimp only at h hn
          split at h
          · rw [if_neg hn] at h; cases h
          · cases h
          · cases h
      · cases h
  · rintro ⟨hg, ha, fields, ds, hdata, hf, hd⟩
    rw [hg, if_neg (by simp), hdata, cmdOf_eq ha]
    dsimp only
    rw [deriveFields_iff.mpr ⟨ds, hf, hd⟩]
    dsimp only
    rw [if_pos rfl]

/-! ## derive(Subcommand) -/

/-- Does the macro drop the variant after counting it? -/
def dropped (v : SrcVariant V) : Bool :=
  match v.fields with
  | .tuple [_] => false
  | .tuple _ => true
  | .named fields => decide (fields.length > 254)
  | .unit => false

theorem expandVariant_none {v : SrcVariant V} : (expandVariant cx env v).2 = none ↔ dropped v = true := by
  unfold expandVariant dropped
  generalize parseCommandAttrs cx.pkgDescription v.attrs = r
  obtain ⟨c, errs⟩ := r
  cases hv : v.fields with
  | unit => simp
  | tuple ts =>
    cases ts with
    | nil => simp
    | cons t ts =>
      cases ts with
      | nil =>
        dsimp only
        split <;> simp
      | cons => simp
  | named fields =>
    dsimp only
    by_cases hl : fields.length > 254
    · simp [hl]
    · rw [if_neg hl]
      simp only [hl, decide_false, Bool.false_eq_true, iff_false]
      split <;> simp

theorem cmdOf_none {pkg : Str} {attrs : List (Attr Str)} :
    cmdOf pkg attrs = none ↔ hasCmd attrs = false ∧ docOf (docLines attrs) = [] := by
  unfold cmdOf
  split
  · rename_i h; simp [h]
  · rename_i h; simp only [reduceCtorEq, false_iff]; exact h

theorem expandVariant_iff {v : SrcVariant V} {x : VariantDecl V} :
    expandVariant cx env v = ([], some (some x)) ↔ CmdAttrsOk v.attrs ∧ VariantMeans cx env v x := by
  by_cases ha : CmdAttrsOk v.attrs
  · unfold expandVariant
    rw [cmdOf_eq ha]
    simp only [ha, true_and]
    constructor
    · intro h
      cases hv : v.fields with
      | unit =>
        rw [hv] at h
        simp only [Prod.mk.injEq, true_and, Option.some.injEq] at h
        subst h
        exact .unit hv
      | tuple ts =>
        rw [hv] at h
        cases ts with
        | nil => simp at h
        | cons t ts =>
          cases ts with
          | cons => simp at h
          | nil =>
            dsimp only at h
            split at h
            · rename_i d hd
              simp only [List.nil_append, Prod.mk.injEq, Option.some.injEq] at h
              obtain ⟨h1, rfl⟩ := h
              have hn : cmdOf cx.pkgDescription v.attrs = none := by
                cases hc : cmdOf cx.pkgDescription v.attrs with
                | none => rfl
                | some m => rw [hc] at h1; simp at h1
              rw [cmdOf_none] at hn
              exact .newtype hv hd hn.1 hn.2
            · simp at h
      | named fields =>
        rw [hv] at h
        dsimp only at h
        split at h
        · simp at h
        · split at h
          · rename_i d hd
            simp only [Prod.mk.injEq, true_and, Option.some.injEq] at h
            subst h
            obtain ⟨ds, h1, h2⟩ := deriveFields_iff.mp hd
            exact .struct hv h1 h2
          · simp at h
          · simp at h
    · intro h
      cases h with
      | unit h => rw [h]
      | newtype h hd hc hdoc =>
        rw [h]
        dsimp only
        rw [hd, cmdOf_none.mpr ⟨hc, hdoc⟩]
        rfl
      | struct h hf hd =>
        rw [h]
        have hl := deriveArgs_size hd
        rw [← hf.each.length] at hl
        dsimp only
        rw [if_neg (by omega), deriveFields_iff.mpr ⟨_, hf, hd⟩]
  · simp only [ha, false_and, iff_false]
    have hn : (parseCommandAttrs cx.pkgDescription v.attrs).2 ≠ [] := fun h => ha (parseCommandAttrs_ok.mp h)
    intro h
    have h1 := congrArg Prod.fst h
    unfold expandVariant at h1
    generalize parseCommandAttrs cx.pkgDescription v.attrs = r at h1 hn
    obtain ⟨c, errs⟩ := r
    dsimp only at h1 hn
    split at h1
    · exact hn h1
    · split at h1 <;> simp [hn] at h1
    · simp at h1
    · split at h1
      · simp at h1
      · split at h1
        · exact hn h1
        · simp [hn] at h1
        · exact hn h1

theorem expandVariant_some {v : SrcVariant V} (h : (expandVariant cx env v).1 = []) :
    ∃ x, (expandVariant cx env v).2 = some (some x) := by
  unfold expandVariant at h ⊢
  generalize parseCommandAttrs cx.pkgDescription v.attrs = r at h ⊢
  obtain ⟨c, errs⟩ := r
  dsimp only at h ⊢
  cases hv : v.fields with
  | unit => exact ⟨_, rfl⟩
  | tuple ts =>
    rw [hv] at h
    cases ts with
    | nil => simp at h
    | cons t ts =>
      cases ts with
      | cons => simp at h
      | nil =>
        dsimp only at h ⊢
        split
        · exact ⟨_, rfl⟩
        · rename_i hd; rw [hd] at h; simp at h
  | named fields =>
    rw [hv] at h
    dsimp only at h ⊢
    split
    · rename_i hl; rw [if_pos hl] at h; simp at h
    · rename_i hl
      rw [if_neg hl] at h
      split
      · exact ⟨_, rfl⟩
      · rename_i es he
        rw [he] at h
        exact absurd (List.append_eq_nil_iff.mp h).2 (deriveFields_errors he)
      · rename_i he
        exact absurd he deriveFields_panic

theorem filterMap_length_le {α β : Type} (f : α → Option β) (l : List α) :
    (l.filterMap f).length ≤ l.length := List.length_filterMap_le f l

theorem filterMap_length_eq {α β : Type} {f : α → Option β} {l : List α} :
    (l.filterMap f).length = l.length ↔ ∀ a ∈ l, f a ≠ none := by
  induction l with
  | nil => simp
  | cons a l ih =>
    cases h : f a with
    | none =>
      rw [List.filterMap_cons_none h]
      have := filterMap_length_le f l
      simp only [List.length_cons, List.mem_cons, forall_eq_or_imp, h, ne_eq, not_true_eq_false, false_and, iff_false]
      omega
    | some b =>
      rw [List.filterMap_cons_some h]
      simp only [List.length_cons, Nat.add_right_cancel_iff, ih, List.mem_cons, forall_eq_or_imp, h]
      simp

theorem range_any {β : Type} {n : Nat} {l : List β} :
    (List.range n).any (fun i => l[i]?.isNone) = true ↔ l.length < n := by
  simp only [List.any_eq_true, List.mem_range, Option.isNone_iff_eq_none, List.getElem?_eq_none_iff]
  constructor
  · rintro ⟨i, h1, h2⟩; omega
  · intro h; exact ⟨l.length, h, Nat.le_refl _⟩

theorem panics_iff {variants : List (SrcVariant V)} :
    (nameMapIdxs variants).any (fun i => ((variants.map (expandVariant cx env)).filterMap (·.2))[i]?.isNone) = true
      ↔ ∃ v ∈ variants, dropped v = true := by
  unfold nameMapIdxs
  rw [range_any]
  have h1 := filterMap_length_le (·.2) (variants.map (expandVariant cx env))
  have h2 := filterMap_length_eq (f := (·.2)) (l := variants.map (expandVariant cx env))
  rw [List.length_map] at h1 h2
  constructor
  · intro h
    refine Classical.byContradiction fun hn => ?_
    have : ((variants.map (expandVariant cx env)).filterMap (·.2)).length = variants.length := by
      rw [h2]
      intro a ha
      obtain ⟨v, hv, rfl⟩ := List.mem_map.mp ha
      exact fun hh => hn ⟨v, hv, expandVariant_none.mp hh⟩
    omega
  · rintro ⟨v, hv, hd⟩
    refine Nat.lt_of_le_of_ne h1 fun he => ?_
    exact h2.mp he _ (List.mem_map.mpr ⟨v, hv, rfl⟩) (expandVariant_none.mpr hd)

theorem filterMap_join {α β : Type} (l : List (List SrcError × Option (Option β))) (f : Option β → Option α) :
    (l.filterMap (·.2)).filterMap f = l.filterMap (fun x => x.2.bind f) := by
  rw [List.filterMap_filterMap]

theorem variants_iff {variants : List (SrcVariant V)} {xs : List (VariantDecl V)} :
    (variants.map (expandVariant cx env)).flatMap (·.1) = []
        ∧ ((variants.map (expandVariant cx env)).filterMap (·.2)).filterMap id = xs
      ↔ (∀ v ∈ variants, CmdAttrsOk v.attrs) ∧ Each (VariantMeans cx env) variants xs := by
  let f : SrcVariant V → List SrcError × Option (VariantDecl V) := fun v =>
    ((expandVariant cx env v).1, (expandVariant cx env v).2.bind id)
  have h1 : (variants.map (expandVariant cx env)).flatMap (·.1) = (variants.map f).flatMap (·.1) := by
    rw [List.flatMap_map, List.flatMap_map]
  have h2 : ((variants.map (expandVariant cx env)).filterMap (·.2)).filterMap id = (variants.map f).filterMap (·.2) := by
    rw [List.filterMap_filterMap, List.filterMap_map, List.filterMap_map]
    rfl
  rw [h1, h2, collect_iff]
  · have key : ∀ v x, f v = ([], some x) ↔ CmdAttrsOk v.attrs ∧ VariantMeans cx env v x := by
      intro v x
      rw [← expandVariant_iff]
      simp only [f]
      generalize expandVariant cx env v = r
      obtain ⟨e, o⟩ := r
      cases o with
      | none => simp
      | some o => simp
    constructor
    · intro h
      refine ⟨fun v hv => ?_, h.imp (fun v _ x hx => ((key v x).mp hx).2)⟩
      obtain ⟨x, -, hx⟩ := h.left hv
      exact ((key v x).mp hx).1
    · rintro ⟨h3, h4⟩
      exact h4.imp (fun v hv x hx => (key v x).mpr ⟨h3 v hv, hx⟩)
  · intro v hv
    obtain ⟨x, hx⟩ := expandVariant_some (cx := cx) (env := env) (v := v) hv
    exact ⟨x, by simp only [f, hx]; rfl⟩

theorem means_not_dropped {v : SrcVariant V} {x : VariantDecl V} (h : VariantMeans cx env v x) : dropped v = false := by
  unfold dropped
  cases h with
  | unit h => rw [h]
  | newtype h => rw [h]
  | struct h hf hd =>
    rw [h]
    have hl := deriveArgs_size hd
    rw [← hf.each.length] at hl
    simp only [decide_eq_false_iff_not]
    omega

theorem expandSubcommand_iff {input : Input V} {vs : Variants V} :
    expandSubcommand cx env input = .ok vs ↔ input.generics = false
      ∧ ∃ variants xs, input.data = .enum variants ∧ (∀ v ∈ variants, CmdAttrsOk v.attrs)
        ∧ Each (VariantMeans cx env) variants xs ∧ vs = deriveSub cx.toCx xs := by
  unfold expandSubcommand
  constructor
  · intro h
    split at h
    · cases h
    · rename_i hg
      split at h
      · rename_i variants hdata
        dsimp only at h
        split at h
        · cases h
        · split at h
          · rename_i he
            cases h
            obtain ⟨h1, h2⟩ := variants_iff.mp ⟨he, rfl⟩
            exact ⟨by simpa using hg, variants, _, hdata, h1, h2, rfl⟩
          · cases h
      · cases h
  · rintro ⟨hg, variants, xs, hdata, h1, h2, rfl⟩
    rw [hg, if_neg (by simp), hdata]
    dsimp only
    obtain ⟨h3, h4⟩ := variants_iff.mpr ⟨h1, h2⟩
    rw [if_neg, if_pos h3, h4]
    rw [panics_iff]
    rintro ⟨v, hv, hd⟩
    obtain ⟨x, -, hx⟩ := h2.left hv
    rw [means_not_dropped hx] at hd
    cases hd

theorem expandSubcommand_panic {input : Input V} :
    expandSubcommand cx env input = .panic ↔ input.generics = false
      ∧ ∃ variants, input.data = .enum variants ∧ ∃ v ∈ variants, dropped v = true := by
  unfold expandSubcommand
  constructor
  · intro h
    split at h
    · cases h
    · rename_i hg
      split at h
      · rename_i variants hdata
        dsimp only at h
        split at h
        · rename_i hp
          exact ⟨by simpa using hg, variants, hdata, panics_iff.mp hp⟩
        · split at h <;> cases h
      · cases h
  · rintro ⟨hg, variants, hdata, hp⟩
    rw [hg, if_neg (by simp), hdata]
    dsimp only
    rw [if_pos (panics_iff.mpr hp)]

/-! ## derive(ValueEnum) -/

theorem parseValueAttrs_iff {M : Type} {upd : M → Item Unit → Upd M} {m m' : M} {attrs : List (Attr Unit)} :
    parseValueAttrs upd m attrs = (m', []) ↔ (∀ a ∈ attrs, ValueForm a) ∧ Runs upd m (valueItems attrs) m' := by
  induction attrs generalizing m with
  | nil =>
    simp [parseValueAttrs, valueItems, Runs, eq_comm]
  | cons a attrs ih =>
    have plain : ValueForm a → valueItems (a :: attrs) = valueItems attrs → parseValueAttrs upd m (a :: attrs) = parseValueAttrs upd m attrs →
        (parseValueAttrs upd m (a :: attrs) = (m', []) ↔ (∀ b ∈ a :: attrs, ValueForm b) ∧ Runs upd m (valueItems (a :: attrs)) m') := by
      intro h1 h2 h3
      rw [h3, h2, ih]
      simp [h1]
    cases a with
    | doc t => exact plain trivial rfl rfl
    | arg i => exact plain trivial rfl rfl
    | command i => exact plain trivial rfl rfl
    | other => exact plain trivial rfl rfl
    | value i =>
      cases i with
      | none =>
        simp [parseValueAttrs, ValueForm]
      | some items =>
        have e : valueItems (.value (some items) :: attrs) = items ++ valueItems attrs := rfl
        rw [e, Runs_append]
        simp only [parseValueAttrs]
        have h0 : ValueForm (.value (some items)) := by simp [ValueForm]
        simp only [List.mem_cons, forall_eq_or_imp, h0, true_and]
        constructor
        · intro h
          rw [Prod.mk.injEq, List.append_eq_nil_iff] at h
          obtain ⟨h1, h2, h3⟩ := h
          have h4 := ih.mp (Prod.ext h1 h3)
          exact ⟨h4.1, _, parseNested_clean.mp (Prod.ext rfl h2), h4.2⟩
        · rintro ⟨h1, m1, h2, h3⟩
          rw [parseNested_clean.mpr h2]
          dsimp only
          rw [ih.mpr ⟨h1, h3⟩]
          rfl

end Palc
