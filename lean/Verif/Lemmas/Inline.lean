import Verif.SpecInline
import Verif.Lemmas.Visible
import Verif.Lemmas.Parsed
import Verif.Lemmas.HelpSpec
/-! Definitions declaring the same arguments in different places read the same command lines (C16). -/

namespace Palc

open Spec

variable {V : Type} {cx : Cx V}

section alike

variable {f g : FieldInfo V}

theorem alike_declares (h : withoutIndex f = withoutIndex g) (n : Name) : declares cx f n = declares cx g n :=
  show declares cx (withoutIndex f) n = declares cx (withoutIndex g) n by rw [h]
theorem alike_src (h : withoutIndex f = withoutIndex g) : f.src = g.src :=
  show (withoutIndex f).src = (withoutIndex g).src by rw [h]
theorem alike_kind (h : withoutIndex f = withoutIndex g) : f.kind = g.kind :=
  show (withoutIndex f).kind = (withoutIndex g).kind by rw [h]
theorem alike_ident (h : withoutIndex f = withoutIndex g) : f.ident = g.ident :=
  show (withoutIndex f).ident = (withoutIndex g).ident by rw [h]
theorem alike_isOption (h : withoutIndex f = withoutIndex g) : isOption f = isOption g :=
  show isOption (withoutIndex f) = isOption (withoutIndex g) by rw [h]
theorem alike_takesValue (h : withoutIndex f = withoutIndex g) : takesValue f = takesValue g :=
  show takesValue (withoutIndex f) = takesValue (withoutIndex g) by rw [h]
theorem alike_isRequired (h : withoutIndex f = withoutIndex g) : isRequired f = isRequired g :=
  show isRequired (withoutIndex f) = isRequired (withoutIndex g) by rw [h]
theorem alike_standalone (h : withoutIndex f = withoutIndex g) (v : Bytes) : Standalone f v ↔ Standalone g v := by
  unfold Standalone; rw [alike_src h]
theorem alike_parsedAll (f : FieldInfo V) (bs : List Bytes) : parsedAll (withoutIndex f) bs = parsedAll f bs := by
  induction bs with
  | nil => rfl
  | cons b bs ih => rw [parsedAll, parsedAll, ih]; rfl
theorem withoutIndex_given (f : FieldInfo V) (os : List (Option Bytes)) : given (withoutIndex f) os = given f os := by
  unfold given
  show content (withoutIndex f) _ = content f _
  change content (withoutIndex f) (os.map (Option.map (normalise f))) = _
  generalize os.map (Option.map (normalise f)) = os
  unfold content
  cases os with
  | nil => rfl
  | cons o os =>
    simp only [alike_parsedAll]
    rfl
theorem withoutIndex_content (f : FieldInfo V) (os : List (Option Bytes)) : content (withoutIndex f) os = content f os := by
  unfold content
  cases os with
  | nil => rfl
  | cons o os =>
    simp only [alike_parsedAll]
    rfl
theorem withoutIndex_fieldOut (f : FieldInfo V) (os : List (Option Bytes)) : fieldOut (withoutIndex f) os = fieldOut f os := by
  unfold fieldOut
  cases os with
  | nil =>
    show (defaultContent (withoutIndex f)).bind _ = _
    have : defaultContent (withoutIndex f) = defaultContent f := by
      unfold defaultContent
      simp only [withoutIndex_content]
      rfl
    rw [this]; rfl
  | cons o os =>
    simp only [withoutIndex_given]
    rfl
theorem alike_given (h : withoutIndex f = withoutIndex g) (os : List (Option Bytes)) : given f os = given g os := by
  rw [← withoutIndex_given, h, withoutIndex_given]
theorem alike_fieldOut (h : withoutIndex f = withoutIndex g) (os : List (Option Bytes)) : fieldOut f os = fieldOut g os := by
  rw [← withoutIndex_fieldOut, h, withoutIndex_fieldOut]

end alike

/-! ## Positions -/

theorem Earlier.irrefl {p : Pos} : ¬ Earlier p p := by unfold Earlier; omega
theorem Earlier.asymm {p q : Pos} (h : Earlier p q) : ¬ Earlier q p := by unfold Earlier at *; omega
theorem Earlier.total (p q : Pos) : p = q ∨ Earlier p q ∨ Earlier q p := by
  obtain ⟨a, b⟩ := p
  obtain ⟨c, d⟩ := q
  unfold Earlier
  simp only [Prod.mk.injEq]
  omega

theorem argAt_main {d : ArgsDef V} (i : Nat) : argAt d (0, i) = (coreOf d).fields[i]? := by
  unfold argAt
  rw [structs_eq]
  rfl

theorem positionals_mem {d : ArgsDef V} {x : FieldInfo V × Nat} :
    x ∈ Spec.positionals d ↔ argAt d (0, x.2) = some x.1 ∧ isOption x.1 = false := by
  unfold Spec.positionals
  rw [List.mem_filter, argAt_main, List.mem_zipIdx_iff_getElem?]
  simp

theorem singles_eq (d : ArgsDef V) : singles d = (Spec.positionals d).filter (fun x => !isMulti x.1 && !x.1.src.last) := by
  unfold singles Spec.positionals
  rw [List.filter_filter]
  congr 1
  funext x
  cases isOption x.1 <;> cases isMulti x.1 <;> cases x.1.src.last <;> rfl

theorem varArg_eq (d : ArgsDef V) : varArg d = (Spec.positionals d).find? (fun x => isMulti x.1 && !x.1.src.last) := by
  unfold varArg Spec.positionals
  rw [List.find?_filter]
  congr 1
  funext x
  cases isOption x.1 <;> cases isMulti x.1 <;> cases x.1.src.last <;> rfl

theorem lastArg_eq (d : ArgsDef V) : lastArg d = (Spec.positionals d).find? (fun x => x.1.src.last) := by
  unfold lastArg Spec.positionals
  rw [List.find?_filter]
  congr 1
  funext x
  cases isOption x.1 <;> cases x.1.src.last <;> rfl

namespace Spec.SameArgs

variable {d d' : ArgsDef V} {φ ψ : Pos → Pos}

theorem symm (h : SameArgs cx d d' φ ψ) : SameArgs cx d' d ψ φ where
  to := h.back
  back := h.to
  left := h.right
  right := h.left
  order := by
    intro p q f g n hp hq hf hg hpq
    obtain ⟨f', hf', ef⟩ := h.back p f hp
    obtain ⟨g', hg', eg⟩ := h.back q g hq
    rcases Earlier.total (ψ p) (ψ q) with e | e | e
    · rw [← h.right p f hp, e, h.right q g hq] at hpq
      exact absurd hpq Earlier.irrefl
    · exact e
    · have := h.order _ _ g' f' n hg' hf' (by rw [alike_declares eg]; exact hg) (by rw [alike_declares ef]; exact hf) e
      rw [h.right p f hp, h.right q g hq] at this
      exact absurd this (Earlier.asymm hpq)
  main := by
    intro x hx
    have hm : (withoutIndex x.1, x.2) ∈ (Spec.positionals d').map (fun x => (withoutIndex x.1, x.2)) :=
      List.mem_map.2 ⟨x, hx, rfl⟩
    rw [h.positionals] at hm
    obtain ⟨y, hy, e⟩ := List.mem_map.1 hm
    have h0 := h.main y hy
    simp only [Prod.mk.injEq] at e
    have hl := h.left _ _ (positionals_mem.1 hy).1
    rw [show (0, x.2) = φ (0, y.2) from Prod.ext h0.symm e.2.symm, hl]
  positionals := by
    have : (Spec.positionals d).map (fun x => (withoutIndex x.1, x.2))
        = ((Spec.positionals d).map (fun x => (withoutIndex x.1, (φ (0, x.2)).2))).map (fun y => (y.1, (ψ (0, y.2)).2)) := by
      rw [List.map_map]
      refine List.map_congr_left fun x hx => ?_
      simp only [Function.comp_apply]
      rw [show (0, (φ (0, x.2)).2) = φ (0, x.2) from Prod.ext (h.main x hx).symm rfl, h.left _ _ (positionals_mem.1 hx).1]
    rw [this, ← h.positionals, List.map_map]
    rfl

/-- Corresponding positional arguments. -/
abbrev Pair (φ : Pos → Pos) (x y : FieldInfo V × Nat) : Prop := withoutIndex y.1 = withoutIndex x.1 ∧ φ (0, x.2) = (0, y.2)

theorem pair_of (h : SameArgs cx d d' φ ψ) {x y : FieldInfo V × Nat} (hx : x ∈ Spec.positionals d)
    (e : (withoutIndex y.1, y.2) = (withoutIndex x.1, (φ (0, x.2)).2)) : Pair φ x y := by
  simp only [Prod.mk.injEq] at e
  exact ⟨e.1, Prod.ext (h.main x hx) e.2.symm⟩

theorem find_pos (h : SameArgs cx d d' φ ψ) (p : FieldInfo V → Bool) (hp : ∀ f, p (withoutIndex f) = p f) :
    (((Spec.positionals d').find? (fun x => p x.1)).map (fun x => (withoutIndex x.1, x.2)))
      = ((Spec.positionals d).find? (fun x => p x.1)).map (fun x => (withoutIndex x.1, (φ (0, x.2)).2)) := by
  have e : ∀ (l : List (FieldInfo V × Nat)) (g : FieldInfo V × Nat → Nat),
      (l.find? (fun x => p x.1)).map (fun x => (withoutIndex x.1, g x))
        = (l.map (fun x => (withoutIndex x.1, g x))).find? (fun x => p x.1) := by
    intro l g
    rw [List.find?_map]
    congr 1
    congr 1
    funext x
    exact (hp x.1).symm
  rw [e _ (fun x => x.2), e _ (fun x => (φ (0, x.2)).2), h.positionals]

theorem filter_pos (h : SameArgs cx d d' φ ψ) (p : FieldInfo V → Bool) (hp : ∀ f, p (withoutIndex f) = p f) :
    (((Spec.positionals d').filter (fun x => p x.1)).map (fun x => (withoutIndex x.1, x.2)))
      = ((Spec.positionals d).filter (fun x => p x.1)).map (fun x => (withoutIndex x.1, (φ (0, x.2)).2)) := by
  have e : ∀ (l : List (FieldInfo V × Nat)) (g : FieldInfo V × Nat → Nat),
      (l.filter (fun x => p x.1)).map (fun x => (withoutIndex x.1, g x))
        = (l.map (fun x => (withoutIndex x.1, g x))).filter (fun x => p x.1) := by
    intro l g
    rw [List.filter_map]
    congr 1
    congr 1
    funext x
    exact (hp x.1).symm
  rw [e _ (fun x => x.2), e _ (fun x => (φ (0, x.2)).2), h.positionals]

theorem lastArg (h : SameArgs cx d d' φ ψ) :
    match Spec.lastArg d, Spec.lastArg d' with
    | some x, some y => Pair φ x y
    | none, none => True
    | _, _ => False := by
  have e := h.find_pos (fun f => f.src.last) (fun _ => rfl)
  rw [← lastArg_eq, ← lastArg_eq] at e
  have hm : ∀ x, Spec.lastArg d = some x → x ∈ Spec.positionals d := by
    intro x hx; rw [lastArg_eq] at hx; exact List.mem_of_find?_eq_some hx
  cases h1 : Spec.lastArg d <;> cases h2 : Spec.lastArg d' <;> rw [h1, h2] at e <;> simp at e ⊢
  exact h.pair_of (hm _ h1) (Prod.ext e.1 e.2)

theorem posTarget (h : SameArgs cx d d' φ ψ) (k : Nat) :
    match Spec.posTarget d k, Spec.posTarget d' k with
    | some x, some y => Pair φ x y
    | none, none => True
    | _, _ => False := by
  have e1 := h.filter_pos (fun f => !isMulti f && !f.src.last) (fun _ => rfl)
  have e2 := h.find_pos (fun f => isMulti f && !f.src.last) (fun _ => rfl)
  rw [← singles_eq, ← singles_eq] at e1
  rw [← varArg_eq, ← varArg_eq] at e2
  have e : ((Spec.posTarget d' k).map (fun x => (withoutIndex x.1, x.2)))
      = (Spec.posTarget d k).map (fun x => (withoutIndex x.1, (φ (0, x.2)).2)) := by
    have e3 := congrArg (·[k]?) e1
    simp only [List.getElem?_map] at e3
    unfold Spec.posTarget
    cases h1 : (singles d)[k]? <;> cases h2 : (singles d')[k]? <;> rw [h1, h2] at e3 <;> simp only [Option.map_none, Option.map_some, reduceCtorEq] at e3
    · exact e2
    · exact e3
  have hm : ∀ x, Spec.posTarget d k = some x → x ∈ Spec.positionals d := by
    intro x hx
    unfold Spec.posTarget at hx
    split at hx
    · rename_i y hy
      cases hx
      have := List.mem_of_getElem? hy
      rw [singles_eq] at this
      exact (List.mem_filter.1 this).1
    · rw [varArg_eq] at hx; exact List.mem_of_find?_eq_some hx
  cases h1 : Spec.posTarget d k <;> cases h2 : Spec.posTarget d' k <;> rw [h1, h2] at e <;> simp at e ⊢
  exact h.pair_of (hm _ h1) (Prod.ext e.1 e.2)

end Spec.SameArgs

/-! ## Entered commands -/

section stack

variable {R R' : ArgsDef V → ArgsDef V → (Pos → Pos) → (Pos → Pos) → Prop} {μ ν : Nat → Pos → Pos} {st st' : List (Entry V)}

theorem Same.mono (hR : ∀ d d' φ ψ, R d d' φ ψ → R' d d' φ ψ) {d d' : ArgsDef V} {φ ψ : Pos → Pos} (h : Same R d d' φ ψ) :
    Same R' d d' φ ψ := by
  induction h with
  | mk args req names idents Φ Ψ _ ih => exact .mk (hR _ _ _ _ args) req names idents Φ Ψ ih

theorem Same.symm (hR : ∀ d d' φ ψ, R d d' φ ψ → R' d' d ψ φ) {d d' : ArgsDef V} {φ ψ : Pos → Pos} (h : Same R d d' φ ψ) :
    Same R' d' d ψ φ := by
  induction h with
  | mk args req names idents Φ Ψ _ ih => exact .mk (hR _ _ _ _ args) req.symm names.symm idents.symm Ψ Φ (fun i v v' hv hv' => ih i v' v hv' hv)

theorem Same.args {d d' : ArgsDef V} {φ ψ : Pos → Pos} (h : Same R d d' φ ψ) : R d d' φ ψ := by cases h; assumption

theorem Same.subRequired {d d' : ArgsDef V} {φ ψ : Pos → Pos} (h : Same R d d' φ ψ) : subRequired d = subRequired d' := by cases h; assumption

theorem SameStack.length (h : SameStack R μ ν st st') : st'.length = st.length := by
  induction h with
  | nil => rfl
  | cons _ _ ih => simp [ih]

theorem _root_.Palc.Spec.SameStack.ids (h : SameStack R μ ν st st') : st'.map (·.1) = st.map (·.1) := by
  induction h with
  | nil => rfl
  | cons _ _ ih => rw [List.map_cons, List.map_cons, ih]

theorem SameStack.mono (hR : ∀ d d' φ ψ, R d d' φ ψ → R' d d' φ ψ) (h : SameStack R μ ν st st') : SameStack R' μ ν st st' := by
  induction h with
  | nil => exact .nil
  | cons _ hd ih => exact .cons ih (Same.mono hR hd)

theorem SameStack.symm (hR : ∀ d d' φ ψ, R d d' φ ψ → R' d' d ψ φ) (h : SameStack R μ ν st st') : SameStack R' ν μ st' st := by
  induction h with
  | nil => exact .nil
  | cons h hd ih => exact .cons ih (by rw [SameStack.length h]; exact Same.symm hR hd)

theorem SameStack.congr {μ' ν' : Nat → Pos → Pos} (hμ : ∀ n < st.length, μ' n = μ n) (hν : ∀ n < st.length, ν' n = ν n)
    (h : SameStack R μ ν st st') : SameStack R μ' ν' st st' := by
  induction h with
  | nil => exact .nil
  | @cons i d d' st st' h hd ih =>
    refine .cons (ih (fun n hn => hμ n ?_) (fun n hn => hν n ?_)) ?_
    · simp; omega
    · simp; omega
    · rw [hμ _ (by simp), hν _ (by simp)]; exact hd

end stack

theorem fieldAt_argAt {st : List (Entry V)} {i : CmdId} {d : ArgsDef V} {a : Addr} :
    fieldAt ((i, d) :: st) a = if a.level = st.length then argAt d (a.struct, a.field) else fieldAt st a := rfl

abbrev StackSame (cx : Cx V) (μ ν : Nat → Pos → Pos) (st st' : List (Entry V)) : Prop := SameStack (SameArgs cx) μ ν st st'

namespace StackSame

variable {μ ν : Nat → Pos → Pos} {st st' : List (Entry V)}

theorem symm (h : StackSame cx μ ν st st') : StackSame cx ν μ st' st := SameStack.symm (fun _ _ _ _ => SameArgs.symm) h

theorem to (h : StackSame cx μ ν st st') {a : Addr} {f : FieldInfo V} (hf : fieldAt st a = some f) :
    (∃ f', fieldAt st' (moved μ a) = some f' ∧ withoutIndex f' = withoutIndex f) ∧ moved ν (moved μ a) = a := by
  induction h with
  | nil => simp [fieldAt] at hf
  | @cons i d d' st st' h hd ih =>
    rw [fieldAt_argAt] at hf
    split at hf
    · rename_i hl
      have hs := Same.args hd
      rw [fieldAt_argAt, if_pos (by rw [SameStack.length h]; exact hl)]
      rw [← hl] at hs
      refine ⟨hs.to _ _ hf, ?_⟩
      have := hs.left _ _ hf
      unfold moved
      simp only [this]
    · rename_i hl
      rw [fieldAt_argAt, if_neg (by rw [SameStack.length h]; exact hl)]
      exact ih hf

theorem order (h : StackSame cx μ ν st st') {a b : Addr} {f g : FieldInfo V} {n : Name} (ha : fieldAt st a = some f) (hb : fieldAt st b = some g)
    (hf : declares cx f n = true) (hg : declares cx g n = true) (hab : Addr.precedes a b) : Addr.precedes (moved μ a) (moved μ b) := by
  induction h with
  | nil => simp [fieldAt] at ha
  | @cons i d d' st st' h hd ih =>
    rw [fieldAt_argAt] at ha hb
    rcases hab with hab | ⟨hab, hlt⟩
    · exact .inl hab
    · rw [← hab] at hb
      split at ha
      · rename_i hl
        rw [if_pos hl] at hb
        have hs := Same.args hd
        rw [← hl] at hs
        have := hs.order _ _ f g n ha hb hf hg hlt
        refine .inr ⟨hab, ?_⟩
        unfold moved
        rw [← hab]
        exact this
      · rename_i hl
        rw [if_neg hl] at hb
        exact ih ha hb

theorem resolves (h : StackSame cx μ ν st st') {n : Name} {a : Addr} {f : FieldInfo V} (hr : Resolves cx st n a f) :
    ∃ f', Resolves cx st' n (moved μ a) f' ∧ withoutIndex f' = withoutIndex f := by
  rw [resolves_iff] at hr
  obtain ⟨h1, h2, h3, h4⟩ := hr
  obtain ⟨⟨f', hf', ef⟩, _⟩ := h.to h1
  refine ⟨f', ?_, ef⟩
  rw [resolves_iff]
  refine ⟨hf', ?_, by rw [alike_declares ef]; exact h3, ?_⟩
  · rw [SameStack.length h, alike_src ef]; exact h2
  · intro b g hb hv hg
    obtain ⟨⟨g', hg', eg⟩, er⟩ := h.symm.to hb
    have hdg : declares cx g' n = true := by rw [alike_declares eg]; exact hg
    rcases h4 _ g' hg' (by rw [alike_src eg, ← SameStack.length h]; exact hv) hdg with e | e
    · left; rw [e, er]
    · right
      have := h.order h1 hg' h3 hdg e
      rwa [er] at this

theorem unknown (h : StackSame cx μ ν st st') {n : Name} (hu : Unknown cx st n) : Unknown cx st' n := by
  rw [unknown_iff] at hu ⊢
  intro b g hb hv
  obtain ⟨⟨g', hg', eg⟩, er⟩ := h.symm.to hb
  rw [← alike_declares eg]
  exact hu _ g' hg' (by rw [alike_src eg, ← SameStack.length h]; exact hv)

theorem cluster (h : StackSame cx μ ν st st') {next : Option Bytes} {b : Bytes} {evs : List Event} {took : Bool}
    (hc : Cluster cx st next b evs took) : Cluster cx st' next b (evs.map (movedEvent μ)) took := by
  induction hc with
  | bare hr ht =>
    obtain ⟨f', hr', e⟩ := h.resolves hr
    exact .bare hr' (by rw [alike_takesValue e]; exact ht)
  | more hr ht hq hne heq _ ih =>
    obtain ⟨f', hr', e⟩ := h.resolves hr
    exact .more hr' (by rw [alike_takesValue e]; exact ht) (by rw [alike_src e]; exact hq) hne heq ih
  | eq hr ht =>
    obtain ⟨f', hr', e⟩ := h.resolves hr
    exact .eq hr' (by rw [alike_takesValue e]; exact ht)
  | attached hr ht hq hne heq =>
    obtain ⟨f', hr', e⟩ := h.resolves hr
    exact .attached hr' (by rw [alike_takesValue e]; exact ht) (by rw [alike_src e]; exact hq) hne heq
  | sep hr ht hq hn hs =>
    obtain ⟨f', hr', e⟩ := h.resolves hr
    exact .sep hr' (by rw [alike_takesValue e]; exact ht) (by rw [alike_src e]; exact hq) hn ((alike_standalone e _).2 hs)

end StackSame

/-! ## Subcommands -/

/-- The generated lookup only depends on the names of the variants. -/
theorem searched_names (d : ArgsDef V) (arg : Bytes) : searched d arg =
    match SubcmdInfo.search { names := [], map := subcmdMap ((subVariants d).map Variant.name), variantHelps := [] } arg with
    | none => none
    | some (_, idx) => (subVariants d)[idx]? := by
  unfold searched subVariants
  cases subOf d with
  | none =>
    rw [SubField.info]
    simp only [List.map_nil]
    split <;> simp
  | some i o vs =>
    rw [SubField.info]
    simp only [names_list]
    rfl

theorem same_selected {R : ArgsDef V → ArgsDef V → (Pos → Pos) → (Pos → Pos) → Prop} {d d' : ArgsDef V} {φ ψ : Pos → Pos}
    (h : Same R d d' φ ψ) {v : Variant V} (hv : Selected d v) :
    ∃ v' φ' ψ', Selected d' v' ∧ v'.name = v.name ∧ variantIdent v' = variantIdent v ∧ Same R (variantDef v) (variantDef v') φ' ψ' := by
  obtain ⟨args, req, names, idents, Φ, Ψ, subs⟩ := h
  have hs := mSub_variant hv
  rw [mSub, searched_names] at hs
  split at hs
  · cases hs
  · rename_i n idx hsearch
    have hlen := congrArg List.length names
    simp only [List.length_map] at hlen
    have hlt : idx < (subVariants d').length := by
      rw [← hlen]; exact (List.getElem?_eq_some_iff.1 hs).1
    have hv' := List.getElem?_eq_getElem hlt
    have hn := congrArg (·[idx]?) names
    have hi := congrArg (·[idx]?) idents
    simp only [List.getElem?_map, hs, hv', Option.map_some, Option.some.injEq] at hn hi
    have hsel : searched d' (enc v.name) = some (subVariants d')[idx] := by
      rw [searched_names, ← names, hsearch]
      exact hv'
    exact ⟨_, Φ idx, Ψ idx, (selected_of_mSub hsel).1, hn.symm, hi.symm, subs idx _ _ hs hv'⟩

/-! ## Reading -/

/-- The mode in the other definition. -/
def mvMode (φ : Pos → Pos) : Mode → Mode
  | .trailing j => .trailing (φ (0, j)).2
  | m => m

/-- The context in the other definition. -/
structure CtxSame (R : ArgsDef V → ArgsDef V → (Pos → Pos) → (Pos → Pos) → Prop) (μ ν : Nat → Pos → Pos) (κ κ' : Ctx V) : Prop where
  stack : SameStack R μ ν κ.stack κ'.stack
  npos : κ'.npos = κ.npos
  mode : κ'.mode = mvMode (μ (κ.stack.length - 1)) κ.mode

section reading

variable {R : ArgsDef V → ArgsDef V → (Pos → Pos) → (Pos → Pos) → Prop} (hR : ∀ d d' φ ψ, R d d' φ ψ → SameArgs cx d d' φ ψ)

include hR

theorem step_same {μ ν : Nat → Pos → Pos} {κ κ' κ1 : Ctx V} {toks rest : Toks} {evs : List Event} (hs : Step cx κ toks evs κ1 rest)
    (hm : ModeOk κ) (h : CtxSame R μ ν κ κ') :
    ∃ μ' ν' κ1', (∀ n < κ.stack.length, μ' n = μ n) ∧ (∀ n < κ.stack.length, ν' n = ν n)
      ∧ Step cx κ' toks (evs.map (movedEvent μ)) κ1' rest ∧ CtxSame R μ' ν' κ1 κ1' := by
  obtain ⟨st', k', m'⟩ := κ'
  obtain ⟨hst, hk, hmode⟩ := h
  cases hs with
  | longEq hr hn ht =>
    simp only [mvMode] at hst hk hmode
    subst hk; subst hmode
    have hst' : StackSame cx μ ν _ st' := SameStack.mono hR hst
    obtain ⟨f', hr', e⟩ := hst'.resolves hr
    exact ⟨μ, ν, _, fun _ _ => rfl, fun _ _ => rfl, .longEq hr' hn (by rw [alike_kind e]; exact ht), ⟨hst, rfl, rfl⟩⟩
  | longBare hr hn hne ht =>
    simp only [mvMode] at hst hk hmode
    subst hk; subst hmode
    have hst' : StackSame cx μ ν _ st' := SameStack.mono hR hst
    obtain ⟨f', hr', e⟩ := hst'.resolves hr
    exact ⟨μ, ν, _, fun _ _ => rfl, fun _ _ => rfl, .longBare hr' hn hne (by rw [alike_takesValue e]; exact ht), ⟨hst, rfl, rfl⟩⟩
  | longSep hr hn hne ht hq hsv =>
    simp only [mvMode] at hst hk hmode
    subst hk; subst hmode
    have hst' : StackSame cx μ ν _ st' := SameStack.mono hR hst
    obtain ⟨f', hr', e⟩ := hst'.resolves hr
    exact ⟨μ, ν, _, fun _ _ => rfl, fun _ _ => rfl, .longSep hr' hn hne (by rw [alike_takesValue e]; exact ht)
      (by rw [alike_src e]; exact hq) ((alike_standalone e _).2 hsv), ⟨hst, rfl, rfl⟩⟩
  | cluster hb hc =>
    simp only [mvMode] at hst hk hmode
    subst hk; subst hmode
    have hst' : StackSame cx μ ν _ st' := SameStack.mono hR hst
    exact ⟨μ, ν, _, fun _ _ => rfl, fun _ _ => rfl, .cluster hb (hst'.cluster hc), ⟨hst, rfl, rfl⟩⟩
  | clusterSep hb hc =>
    simp only [mvMode] at hst hk hmode
    subst hk; subst hmode
    have hst' : StackSame cx μ ν _ st' := SameStack.mono hR hst
    exact ⟨μ, ν, _, fun _ _ => rfl, fun _ _ => rfl, .clusterSep hb (hst'.cluster hc), ⟨hst, rfl, rfl⟩⟩
  | @sub i d st k v toks hv hp =>
    simp only [mvMode] at hst hk hmode
    subst hk; subst hmode
    cases hst with
    | @cons _ _ d' _ st' hst hd =>
    obtain ⟨v', φ', ψ', hv', hn, hi, hsame⟩ := same_selected hd hv
    let μ' : Nat → Pos → Pos := fun n => if n = st.length + 1 then φ' else μ n
    let ν' : Nat → Pos → Pos := fun n => if n = st.length + 1 then ψ' else ν n
    have e1 : ∀ n < st.length + 1, μ' n = μ n := fun n hn => if_neg (by omega)
    have e2 : ∀ n < st.length + 1, ν' n = ν n := fun n hn => if_neg (by omega)
    refine ⟨μ', ν', ⟨(⟨variantIdent v', v'.name⟩, variantDef v') :: (i, d') :: st', 0, .opts⟩, e1, e2, ?_, ?_, rfl, rfl⟩
    · rw [← hn]
      exact .sub hv' (by rw [hn]; exact hp)
    · rw [hi, hn]
      refine .cons (SameStack.congr e1 e2 (.cons hst hd)) ?_
      show Same R _ _ (if st.length + 1 = st.length + 1 then φ' else _) (if st.length + 1 = st.length + 1 then ψ' else _)
      simpa using hsame
  | @positional i d st k tok x toks hp hns hx =>
    simp only [mvMode] at hst hk hmode
    subst hk; subst hmode
    have hall := hst
    cases hst with
    | @cons _ _ d' _ st' hst hd =>
    have hp1 := (hR _ _ _ _ (Same.args hd)).posTarget k'
    rw [hx] at hp1
    split at hp1
    · rename_i x0 y h0 hy
      cases h0
      have hns' : ∀ v ∈ subVariants d', enc v.name ≠ tok := by
        intro v hv he
        obtain ⟨args, req, names, _⟩ := hd
        have : v.name ∈ (subVariants d).map Variant.name := by rw [names]; exact List.mem_map.2 ⟨v, hv, rfl⟩
        obtain ⟨w, hw, e⟩ := List.mem_map.1 this
        exact hns w hw (by rw [e]; exact he)
      refine ⟨μ, ν, ⟨(i, d') :: st', k' + 1, modeAfter y .opts⟩, fun _ _ => rfl, fun _ _ => rfl, ?_, hall, rfl, ?_⟩
      · have : movedEvent μ (⟨st.length, 0, x.2⟩, some tok) = (⟨st'.length, 0, y.2⟩, some tok) := by
          unfold movedEvent moved
          simp only [hp1.2, SameStack.length hst]
        rw [List.map_singleton, this]
        exact .positional hp hns' hy
      · unfold modeAfter
        rw [alike_src hp1.1]
        simp only [List.length_cons, Nat.add_sub_cancel]
        split
        · simp only [mvMode, hp1.2]
        · rfl
    · rename_i h0 _; cases h0
    · exact hp1.elim
  | dashdash =>
    simp only [mvMode] at hst hk hmode
    subst hk; subst hmode
    exact ⟨μ, ν, _, fun _ _ => rfl, fun _ _ => rfl, .dashdash, ⟨hst, rfl, rfl⟩⟩
  | @last i d st k tok x toks hx =>
    simp only [mvMode] at hst hk hmode
    subst hk; subst hmode
    have hall := hst
    cases hst with
    | @cons _ _ d' _ st' hst hd =>
    have hp1 := (hR _ _ _ _ (Same.args hd)).lastArg
    rw [hx] at hp1
    split at hp1
    · rename_i x0 y h0 hy
      cases h0
      refine ⟨μ, ν, ⟨(i, d') :: st', k', .dashed⟩, fun _ _ => rfl, fun _ _ => rfl, ?_, hall, rfl, rfl⟩
      have : movedEvent μ (⟨st.length, 0, x.2⟩, some tok) = (⟨st'.length, 0, y.2⟩, some tok) := by
        unfold movedEvent moved
        simp only [hp1.2, SameStack.length hst]
      rw [List.map_singleton, this]
      exact .last hy
    · rename_i h0 _; cases h0
    · exact hp1.elim
  | @dashed i d st k tok x toks hl hx =>
    simp only [mvMode] at hst hk hmode
    subst hk; subst hmode
    have hall := hst
    cases hst with
    | @cons _ _ d' _ st' hst hd =>
    have hp1 := (hR _ _ _ _ (Same.args hd)).posTarget k'
    have hp2 := (hR _ _ _ _ (Same.args hd)).lastArg
    rw [hx] at hp1
    rw [hl] at hp2
    split at hp2
    · rename_i h0 _; cases h0
    · rename_i _ hl'
      split at hp1
      · rename_i x0 y h0 hy
        cases h0
        refine ⟨μ, ν, ⟨(i, d') :: st', k' + 1, modeAfter y .dashed⟩, fun _ _ => rfl, fun _ _ => rfl, ?_, hall, rfl, ?_⟩
        · have : movedEvent μ (⟨st.length, 0, x.2⟩, some tok) = (⟨st'.length, 0, y.2⟩, some tok) := by
            unfold movedEvent moved
            simp only [hp1.2, SameStack.length hst]
          rw [List.map_singleton, this]
          exact .dashed hl' hy
        · unfold modeAfter
          rw [alike_src hp1.1]
          simp only [List.length_cons, Nat.add_sub_cancel]
          split
          · simp only [mvMode, hp1.2]
          · rfl
      · rename_i h0 _; cases h0
      · exact hp1.elim
    · exact hp2.elim
  | @trailing i d st k tok j toks =>
    simp only [mvMode] at hst hk hmode
    subst hk; subst hmode
    have hall := hst
    cases hst with
    | @cons _ _ d' _ st' hst hd =>
    obtain ⟨i0, d0, st0, x, k0, h1, h2, _, hx⟩ := hm j rfl
    simp only at h1
    cases h1
    have hp1 := (hR _ _ _ _ (Same.args hd)).posTarget k0
    rw [hx] at hp1
    split at hp1
    · rename_i x0 y h0 hy
      cases h0
      have hp1 := hp1.2
      rw [h2] at hp1
      refine ⟨μ, ν, ⟨(i, d') :: st', k', .trailing (μ st.length (0, j)).2⟩, fun _ _ => rfl, fun _ _ => rfl, ?_, hall, rfl, rfl⟩
      have : movedEvent μ (⟨st.length, 0, j⟩, some tok) = (⟨st'.length, 0, (μ st.length (0, j)).2⟩, some tok) := by
        unfold movedEvent moved
        simp only [hp1, SameStack.length hst]
      rw [List.map_singleton, this]
      exact .trailing
    · rename_i h0 _; cases h0
    · exact hp1.elim

theorem steps_same {μ ν : Nat → Pos → Pos} {κ κ' κ1 : Ctx V} {toks rest : Toks} {evs : List Event} (hs : Steps cx κ toks evs κ1 rest)
    (hm : ModeOk κ) (h : CtxSame R μ ν κ κ') :
    ∃ μ' ν' κ1', (∀ n < κ.stack.length, μ' n = μ n) ∧ (∀ n < κ.stack.length, ν' n = ν n)
      ∧ Steps cx κ' toks (evs.map (movedEvent μ')) κ1' rest ∧ CtxSame R μ' ν' κ1 κ1' := by
  induction hs generalizing μ ν κ' with
  | refl => exact ⟨μ, ν, κ', fun _ _ => rfl, fun _ _ => rfl, .refl, h⟩
  | @step κ toks evs1 κ1 rest1 evs2 κ2 rest2 h1 h2 ih =>
    obtain ⟨μ1, ν1, κ1', a1, b1, s1, c1⟩ := step_same hR h1 hm h
    obtain ⟨μ2, ν2, κ2', a2, b2, s2, c2⟩ := ih (step_mode h1 hm) c1
    have hlen : κ.stack.length ≤ κ1.stack.length := by
      obtain ⟨ext, he⟩ := step_stack h1
      rw [he]; simp
    refine ⟨μ2, ν2, κ2', fun n hn => ?_, fun n hn => ?_, ?_, c2⟩
    · rw [a2 n (by omega), a1 n hn]
    · rw [b2 n (by omega), b1 n hn]
    · rw [List.map_append]
      refine .step ?_ s2
      have : evs1.map (movedEvent μ2) = evs1.map (movedEvent μ) := by
        refine List.map_congr_left fun x hx => ?_
        obtain ⟨f, hf⟩ := step_fields h1 hm x hx
        have hl := fieldAt_lt hf
        unfold movedEvent moved
        rw [a2 _ (by omega), a1 _ hl]
      rw [this]
      exact s1

end reading

/-! ## Constraints -/

/-- Occurrences of arguments in the other definition. -/
theorem occs_same {μ ν : Nat → Pos → Pos} {st st' : List (Entry V)} (h : StackSame cx μ ν st st') {evs : List Event}
    (he : ∀ x ∈ evs, ∃ f, fieldAt st x.1 = some f) {a : Addr} {f : FieldInfo V} (hf : fieldAt st a = some f) :
    occs (evs.map (movedEvent μ)) (moved μ a) = occs evs a := by
  unfold occs
  rw [List.filter_map, List.map_map]
  have : evs.filter ((fun e => decide (e.1 = moved μ a)) ∘ movedEvent μ) = evs.filter (fun e => decide (e.1 = a)) := by
    refine List.filter_congr fun x hx => ?_
    obtain ⟨g, hg⟩ := he x hx
    simp only [Function.comp_apply, movedEvent]
    refine decide_eq_decide.2 ?_
    constructor
    · intro e
      rw [← (h.to hg).2, e, (h.to hf).2]
    · intro e; rw [e]
  rw [this]
  rfl

theorem acceptable_same {μ ν : Nat → Pos → Pos} {st st' : List (Entry V)} (h : StackSame cx μ ν st st') {evs : List Event}
    (he : ∀ x ∈ evs, ∃ f, fieldAt st x.1 = some f) (ha : Acceptable st evs) : Acceptable st' (evs.map (movedEvent μ)) := by
  intro a f hf
  obtain ⟨⟨f', hf', ef⟩, er⟩ := h.symm.to hf
  have := occs_same h he hf'
  rw [er] at this
  rw [this, ← alike_given ef]
  exact ha _ _ hf'

/-- The constraints of a command, by positions of its arguments. -/
structure ArgsOk (d : ArgsDef V) (os : Pos → List (Option Bytes)) (sub : Bool) : Prop where
  required : ∀ p f, argAt d p = some f → isRequired f = true → os p ≠ []
  requires : ∀ p f, argAt d p = some f → os p ≠ [] → ∀ x ∈ f.src.requires,
    ∃ q g, q.1 = p.1 ∧ argAt d q = some g ∧ g.ident = x ∧ os q ≠ []
  conflicts : ∀ p f, argAt d p = some f → os p ≠ [] → ∀ x ∈ f.src.conflictsWith,
    ∀ q g, q.1 = p.1 → argAt d q = some g → g.ident = x → os q = []
  exclusive : ∀ p f, argAt d p = some f → os p ≠ [] → f.src.exclusive = true →
    (∀ q g, q.1 = p.1 → argAt d q = some g → os q ≠ [] → q = p) ∧ (sub && decide (p.1 = 0)) = false
  unset : ∀ p f, argAt d p = some f → os p = [] → fieldOut f [] ≠ none
  subcommand : subRequired d = true → sub = true

theorem argAt_eq {d : ArgsDef V} {s : Nat} {c : Core V} (hc : (structs d)[s]? = some c) (i : Nat) : argAt d (s, i) = c.fields[i]? := by
  unfold argAt; simp only [hc]

theorem argAt_core {d : ArgsDef V} {p : Pos} {f : FieldInfo V} (h : argAt d p = some f) :
    ∃ c, (structs d)[p.1]? = some c ∧ c.fields[p.2]? = some f := by
  unfold argAt at h
  split at h
  · rename_i c hc; exact ⟨c, hc, h⟩
  · cases h

theorem argsOk_iff {d : ArgsDef V} {os : Nat → Nat → List (Option Bytes)} {sub : Bool} :
    ((∀ (k : Nat) (c : Core V), (structs d)[k]? = some c → StructOk c (os k) (sub && decide (k = 0))
        ∧ ∀ (i : Nat) (f : FieldInfo V), c.fields[i]? = some f → os k i = [] → fieldOut f [] ≠ none)
      ∧ (subRequired d = true → sub = true)) ↔ ArgsOk d (fun p => os p.1 p.2) sub := by
  constructor
  · rintro ⟨h, hs⟩
    constructor
    · rintro ⟨s, i⟩ f hf
      obtain ⟨c, hc, hcf⟩ := argAt_core hf
      exact (h s c hc).1.required i f hcf
    · rintro ⟨s, i⟩ f hf ho x hx
      obtain ⟨c, hc, hcf⟩ := argAt_core hf
      obtain ⟨j, g, h1, h2, h3⟩ := (h s c hc).1.requires i f hcf ho x hx
      exact ⟨(s, j), g, rfl, by rw [argAt_eq hc]; exact h1, h2, h3⟩
    · rintro ⟨s, i⟩ f hf ho x hx ⟨s', j⟩ g hs' hg hi
      obtain ⟨c, hc, hcf⟩ := argAt_core hf
      simp only at hs'
      subst hs'
      rw [argAt_eq hc] at hg
      exact (h _ c hc).1.conflicts i f hcf ho x hx j g hg hi
    · rintro ⟨s, i⟩ f hf ho hx
      obtain ⟨c, hc, hcf⟩ := argAt_core hf
      obtain ⟨h1, h2⟩ := (h s c hc).1.exclusive i f hcf ho hx
      refine ⟨?_, h2⟩
      rintro ⟨s', j⟩ g hs' hg hoj
      simp only at hs'
      subst hs'
      rw [argAt_eq hc] at hg
      rw [h1 j (List.getElem?_eq_some_iff.1 hg).1 hoj]
    · rintro ⟨s, i⟩ f hf ho
      obtain ⟨c, hc, hcf⟩ := argAt_core hf
      exact (h s c hc).2 i f hcf ho
    · exact hs
  · intro h
    refine ⟨fun s c hc => ⟨⟨?_, ?_, ?_, ?_⟩, ?_⟩, h.subcommand⟩
    · intro i f hf
      exact h.required (s, i) f (by rw [argAt_eq hc]; exact hf)
    · intro i f hf ho x hx
      obtain ⟨⟨s', j⟩, g, h1, h2, h3, h4⟩ := h.requires (s, i) f (by rw [argAt_eq hc]; exact hf) ho x hx
      simp only at h1
      subst h1
      rw [argAt_eq hc] at h2
      exact ⟨j, g, h2, h3, h4⟩
    · intro i f hf ho x hx j g hg hi
      exact h.conflicts (s, i) f (by rw [argAt_eq hc]; exact hf) ho x hx (s, j) g rfl (by rw [argAt_eq hc]; exact hg) hi
    · intro i f hf ho hx
      obtain ⟨h1, h2⟩ := h.exclusive (s, i) f (by rw [argAt_eq hc]; exact hf) ho hx
      refine ⟨fun j hj hoj => ?_, h2⟩
      have := h1 (s, j) _ rfl (by rw [argAt_eq hc]; exact List.getElem?_eq_getElem hj) hoj
      simpa using this
    · intro i f hf ho
      exact h.unset (s, i) f (by rw [argAt_eq hc]; exact hf) ho

theorem resolved_get {c : Core V} {ids : List Str} {o : Option (List Nat)} (h : ResolvedOk c ids o) {x : Str} (hx : x ∈ ids) :
    ∃ (n : Nat) (g : FieldInfo V), c.fields[n]? = some g ∧ g.ident = x := by
  rcases h with ⟨rfl, _⟩ | ⟨ns, _, hl, h⟩
  · cases hx
  · obtain ⟨k, hk⟩ := List.getElem?_of_mem hx
    have hlt := (List.getElem?_eq_some_iff.1 hk).1
    obtain ⟨g, hg, he⟩ := h k x _ hk (List.getElem?_eq_getElem (by omega))
    exact ⟨_, g, hg, he⟩

theorem argAt_unique {d : ArgsDef V} (wf : WFArgs cx d) {p q : Pos} {f g : FieldInfo V} (hp : argAt d p = some f) (hq : argAt d q = some g)
    (hs : p.1 = q.1) (he : f.ident = g.ident) : p = q := by
  obtain ⟨c, hc, hcf⟩ := argAt_core hp
  obtain ⟨c', hc', hcg⟩ := argAt_core hq
  rw [← hs, hc] at hc'
  cases hc'
  have hn := (WFArgs.structs d wf c (List.mem_of_getElem? hc)).idents
  refine Prod.ext hs ?_
  have h1 : p.2 < (c.fields.map (·.ident)).length := by simpa using (List.getElem?_eq_some_iff.1 hcf).1
  refine (List.getElem?_inj h1 hn).1 ?_
  simp [hcf, hcg, he]

theorem argsOk_same {d d' : ArgsDef V} {φ ψ : Pos → Pos} (wf : WFArgs cx d) (wf' : WFArgs cx d') (h : SameArgs cx d d' φ ψ)
    (hc : SameConstraints d φ) (hreq : subRequired d = subRequired d') {os os' : Pos → List (Option Bytes)} {sub : Bool}
    (ho : ∀ p f, argAt d p = some f → os' (φ p) = os p) : ArgsOk d os sub ↔ ArgsOk d' os' sub := by
  have ho' : ∀ p f, argAt d' p = some f → os' p = os (ψ p) := by
    intro p f hp
    obtain ⟨f', hf', _⟩ := h.back p f hp
    rw [← ho _ _ hf', h.right p f hp]
  have refs : ∀ p f x, argAt d p = some f → x ∈ f.src.requires ∨ x ∈ f.src.conflictsWith →
      ∃ q g, p.1 = q.1 ∧ argAt d q = some g ∧ g.ident = x := by
    intro p f x hp hx
    obtain ⟨c, hcc, hcf⟩ := argAt_core hp
    have cwf := WFArgs.structs d wf c (List.mem_of_getElem? hcc)
    have hmem := List.mem_of_getElem? hcf
    have fwf := cwf.fields _ _ hcf
    have : ∃ (n : Nat) (g : FieldInfo V), c.fields[n]? = some g ∧ g.ident = x := by
      rcases hx with hx | hx
      · exact resolved_get (cwf.depsOk f hmem) (by rw [fwf.deps]; exact hx)
      · exact resolved_get (cwf.confsOk f hmem) (by rw [fwf.confs]; exact hx)
    obtain ⟨n, g, h1, h2⟩ := this
    exact ⟨(p.1, n), g, rfl, by rw [argAt_eq hcc]; exact h1, h2⟩
  constructor
  · intro k
    constructor
    · intro p f hp hr
      obtain ⟨f', hf', ef⟩ := h.back p f hp
      rw [ho' p f hp]
      exact k.required _ _ hf' (by rw [alike_isRequired ef]; exact hr)
    · intro p f hp hne x hx
      obtain ⟨f', hf', ef⟩ := h.back p f hp
      rw [ho' p f hp] at hne
      obtain ⟨q, g, h1, h2, h3, h4⟩ := k.requires _ _ hf' hne x (by rw [alike_src ef]; exact hx)
      obtain ⟨g', hg', eg⟩ := h.to q g h2
      refine ⟨φ q, g', ?_, hg', by rw [alike_ident eg]; exact h3, by rw [ho q g h2]; exact h4⟩
      rw [hc.together q _ g _ h2 hf' h1, h.right p f hp]
    · intro p f hp hne x hx q g hs hq hi
      obtain ⟨f', hf', ef⟩ := h.back p f hp
      rw [ho' p f hp] at hne
      have hx' : x ∈ f'.src.conflictsWith := by rw [alike_src ef]; exact hx
      obtain ⟨r, g1, h1, h2, h3⟩ := refs _ _ x hf' (.inr hx')
      obtain ⟨g2, hg2, eg⟩ := h.to r g1 h2
      have hrq : φ r = q := by
        refine argAt_unique wf' hg2 hq ?_ (by rw [alike_ident eg, h3, hi])
        rw [hs, ← hc.together _ _ _ _ hf' h2 h1, h.right p f hp]
      rw [← hrq, ho r g1 h2]
      exact k.conflicts _ _ hf' hne x hx' r g1 h1.symm h2 h3
    · intro p f hp hne hx
      obtain ⟨f', hf', ef⟩ := h.back p f hp
      rw [ho' p f hp] at hne
      have hx' : f'.src.exclusive = true := by rw [alike_src ef]; exact hx
      obtain ⟨h1, h2⟩ := k.exclusive _ _ hf' hne hx'
      obtain ⟨e1, e2⟩ := hc.exclusive _ _ hf' hx'
      rw [h.right p f hp] at e1 e2
      refine ⟨fun q g hs hq hqo => ?_, ?_⟩
      · obtain ⟨g', hg', eg⟩ := h.back q g hq
        rw [ho' q g hq] at hqo
        have := h1 _ g' (e1 _ g' hg' (by rw [h.right q g hq]; exact hs.symm)).symm hg' hqo
        rw [← h.right q g hq, this, h.right p f hp]
      · simp only [e2]; exact h2
    · intro p f hp hne
      obtain ⟨f', hf', ef⟩ := h.back p f hp
      rw [ho' p f hp] at hne
      rw [← alike_fieldOut ef]
      exact k.unset _ _ hf' hne
    · rw [← hreq]; exact k.subcommand
  · intro k
    constructor
    · intro p f hp hr
      obtain ⟨f', hf', ef⟩ := h.to p f hp
      rw [← ho p f hp]
      exact k.required _ _ hf' (by rw [alike_isRequired ef]; exact hr)
    · intro p f hp hne x hx
      obtain ⟨f', hf', ef⟩ := h.to p f hp
      rw [← ho p f hp] at hne
      obtain ⟨q, g, h1, h2, h3, h4⟩ := k.requires _ _ hf' hne x (by rw [alike_src ef]; exact hx)
      obtain ⟨r, g1, i1, i2, i3⟩ := refs p f x hp (.inl hx)
      obtain ⟨g2, hg2, eg⟩ := h.to r g1 i2
      have hrq : φ r = q := by
        refine argAt_unique wf' hg2 h2 ?_ (by rw [alike_ident eg, i3, h3])
        rw [h1, hc.together _ _ _ _ hp i2 i1]
      exact ⟨r, g1, i1.symm, i2, i3, by rw [← ho r g1 i2, hrq]; exact h4⟩
    · intro p f hp hne x hx q g hs hq hi
      obtain ⟨f', hf', ef⟩ := h.to p f hp
      obtain ⟨g', hg', eg⟩ := h.to q g hq
      rw [← ho p f hp] at hne
      rw [← ho q g hq]
      exact k.conflicts _ _ hf' hne x (by rw [alike_src ef]; exact hx) _ _ (hc.together _ _ _ _ hq hp hs) hg' (by rw [alike_ident eg]; exact hi)
    · intro p f hp hne hx
      obtain ⟨f', hf', ef⟩ := h.to p f hp
      rw [← ho p f hp] at hne
      obtain ⟨h1, h2⟩ := k.exclusive _ _ hf' hne (by rw [alike_src ef]; exact hx)
      obtain ⟨e1, e2⟩ := hc.exclusive _ _ hp hx
      refine ⟨fun q g hs hq hqo => ?_, ?_⟩
      · obtain ⟨g', hg', eg⟩ := h.to q g hq
        rw [← ho q g hq] at hqo
        have := h1 _ g' (hc.together _ _ _ _ hq hp hs) hg' hqo
        rw [← h.left q g hq, this, h.left p f hp]
      · simp only [e2] at h2; exact h2
    · intro p f hp hne
      obtain ⟨f', hf', ef⟩ := h.to p f hp
      rw [← ho p f hp] at hne
      rw [← alike_fieldOut ef]
      exact k.unset _ _ hf' hne
    · rw [hreq]; exact k.subcommand

theorem argAt_fieldAt {st : List (Entry V)} {i : CmdId} {d : ArgsDef V} {p : Pos} {f : FieldInfo V} (h : argAt d p = some f) :
    fieldAt ((i, d) :: st) ⟨st.length, p.1, p.2⟩ = some f := by
  rw [fieldAt_argAt, if_pos rfl]; exact h

theorem allFail_same {μ ν : Nat → Pos → Pos} {st st' : List (Entry V)} (h : SameStack (SameCommand cx) μ ν st st') (wf : StackWF cx st) (wf' : StackWF cx st')
    {evs evs' : List Event} (ho : ∀ a f, fieldAt st a = some f → occs evs' (moved μ a) = occs evs a) (sub : Bool) :
    allFail evs st sub = none ↔ allFail evs' st' sub = none := by
  induction h generalizing sub with
  | nil => simp [allFail]
  | @cons i d d' st st' h hd ih =>
    rw [allFail, allFail, Option.or_eq_none_iff, Option.or_eq_none_iff]
    refine and_congr ?_ (ih (fun y hy => wf y (by simp [hy])) (fun y hy => wf' y (by simp [hy])) (fun a f ha => ?_) true)
    · have e1 := argsFail_none d (wf (i, d) (by simp)) (os := fun s i => occs evs ⟨st.length, s, i⟩) (s := 0) (sub := sub)
      have e2 := argsFail_none d' (wf' (i, d') (by simp)) (os := fun s i => occs evs' ⟨st'.length, s, i⟩) (s := 0) (sub := sub)
      simp only [Nat.zero_add] at e1 e2
      change argsFail (fun s => present (fun i => occs evs ⟨st.length, s, i⟩)) 0 sub d = none ↔ argsFail (fun s => present (fun i => occs evs' ⟨st'.length, s, i⟩)) 0 sub d' = none
      rw [e1, e2, argsOk_iff (os := fun s i => occs evs ⟨st.length, s, i⟩), argsOk_iff (os := fun s i => occs evs' ⟨st'.length, s, i⟩)]
      refine argsOk_same (wf (i, d) (by simp)) (wf' (i, d') (by simp)) (Same.args hd).1 (Same.args hd).2 (Same.subRequired hd) ?_
      intro p f hp
      rw [SameStack.length h]
      exact ho _ _ (argAt_fieldAt hp)
    · exact ho a f (fieldAt_ext_some (ext := [(i, d)]) ha)

/-! ## Parsing -/

section parsing

variable {R : ArgsDef V → ArgsDef V → (Pos → Pos) → (Pos → Pos) → Prop} {d d' : ArgsDef V} {argv0 : Bytes} {toks : List Bytes}
  {evs : List Event} {κ : Ctx V} {out : Out V} {φ ψ : Pos → Pos}

theorem reads_same (hR : ∀ d d' φ ψ, R d d' φ ψ → SameArgs cx d d' φ ψ) (h : Same R d d' φ ψ) (hr : Reads cx (start argv0 d) toks evs κ) :
    ∃ μ ν κ', μ 0 = φ ∧ ν 0 = ψ ∧ Reads cx (start argv0 d') toks (evs.map (movedEvent μ)) κ' ∧ SameStack R μ ν κ.stack κ'.stack := by
  obtain ⟨μ, ν, κ', h1, h2, h3, h4⟩ := steps_same hR (reads_steps hr) (start_mode argv0 d) (μ := fun _ => φ) (ν := fun _ => ψ) (κ' := start argv0 d')
    ⟨.cons .nil h, rfl, rfl⟩
  exact ⟨μ, ν, κ', h1 0 (by simp [start]), h2 0 (by simp [start]), reads_iff_steps.2 h3, h4.stack⟩

theorem reads_same_back (hR : ∀ d d' φ ψ, R d d' φ ψ → SameArgs cx d d' φ ψ) (h : Same R d d' φ ψ) (hr : Reads cx (start argv0 d') toks evs κ) :
    ∃ evs' κ', Reads cx (start argv0 d) toks evs' κ' := by
  have hs : Same (SameArgs cx) d' d ψ φ := Same.symm (fun _ _ _ _ h => (hR _ _ _ _ h).symm) h
  obtain ⟨μ, ν, κ', h1, h2, h3, h4⟩ := steps_same (μ := fun _ => ψ) (ν := fun _ => φ) (R := SameArgs cx) (fun _ _ _ _ h => h) (reads_steps hr)
    (start_mode argv0 d') (κ' := start argv0 d) ⟨.cons .nil hs, rfl, rfl⟩
  exact ⟨_, κ', reads_iff_steps.2 h3⟩

theorem accepted_same (hR : ∀ d d' φ ψ, R d d' φ ψ → SameCommand cx d d' φ ψ) (hd : DerivedArgs cx d) (hd' : DerivedArgs cx d') (h : Same R d d' φ ψ)
    (argv0 : Bytes) (toks : List Bytes) :
    (∃ out, tryParseFrom d (argv0 :: toks) = .ok out) ↔ ∃ out, tryParseFrom d' (argv0 :: toks) = .ok out := by
  have key : ∀ evs κ, Reads cx (start argv0 d) toks evs κ →
      ((∃ out, tryParseFrom d (argv0 :: toks) = .ok out) ↔ ∃ out, tryParseFrom d' (argv0 :: toks) = .ok out) := by
    intro evs κ hr
    obtain ⟨μ, ν, κ', _, _, hr', hst⟩ := reads_same (fun _ _ _ _ h => (hR _ _ _ _ h).1) h hr
    have hst1 : StackSame cx μ ν κ.stack κ'.stack := SameStack.mono (fun _ _ _ _ h => (hR _ _ _ _ h).1) hst
    have hev := steps_fields (reads_steps hr) (start_mode argv0 d)
    have wf := (stack_wf hd.wf (reads_steps hr)).1
    have wf' := (stack_wf hd'.wf (reads_steps hr')).1
    have hocc : ∀ a f, fieldAt κ.stack a = some f → occs (evs.map (movedEvent μ)) (moved μ a) = occs evs a :=
      fun a f hf => occs_same hst1 hev hf
    have hacc : Acceptable κ.stack evs ↔ Acceptable κ'.stack (evs.map (movedEvent μ)) := by
      refine ⟨acceptable_same hst1 hev, fun ha a f hf => ?_⟩
      obtain ⟨⟨f', hf', ef⟩, _⟩ := hst1.to hf
      rw [← hocc a f hf, ← alike_given ef]
      exact ha _ _ hf'
    have hfail := allFail_same (SameStack.mono hR hst) wf wf' hocc false
    have iff1 : ∀ {D : ArgsDef V} {es : List Event} {k : Ctx V}, DerivedArgs cx D → Reads cx (start argv0 D) toks es k →
        ((∃ out, tryParseFrom D (argv0 :: toks) = .ok out) ↔ Acceptable k.stack es ∧ allFail es k.stack false = none) := by
      intro D es k hD hR
      constructor
      · rintro ⟨out, ho⟩
        refine ⟨(ok_reading hD.wf hR ho).1, ?_⟩
        rcases outcome_reads hD.wf hR with ⟨_, _, _, h1⟩ | ⟨e, _, h2⟩
        · cases hf : allFail es k.stack false with
          | none => rfl
          | some x => rw [hf] at h1; simp only at h1; rw [h1] at ho; cases ho
        · rw [h2] at ho; cases ho
      · rintro ⟨h1, h2⟩
        rcases outcome_reads hD.wf hR with ⟨_, _, _, h3⟩ | ⟨e, h3, _⟩
        · rw [h2] at h3
          obtain ⟨o, _, ho⟩ := h3
          exact ⟨o, ho⟩
        · exact absurd h1 (by simpa using h3.not_acceptable)
    rw [iff1 hd hr, iff1 hd' hr', hacc, hfail]
  constructor
  · rintro ⟨out, ho⟩
    obtain ⟨evs, κ, hr⟩ := ok_reads hd.wf ho
    exact (key evs κ hr).1 ⟨out, ho⟩
  · rintro ⟨out, ho⟩
    obtain ⟨evs, κ, hr⟩ := ok_reads hd'.wf ho
    obtain ⟨evs', κ', hr'⟩ := reads_same_back (fun _ _ _ _ h => (hR _ _ _ _ h).1) h hr
    exact (key evs' κ' hr').2 ⟨out, ho⟩

theorem values_same (hR : ∀ d d' φ ψ, R d d' φ ψ → SameCommand cx d d' φ ψ) (hd' : DerivedArgs cx d') (h : Same R d d' φ ψ) (hp : Parsed cx d argv0 toks evs κ out) :
    ∃ μ ν κ' out', μ 0 = φ ∧ ν 0 = ψ ∧ Parsed cx d' argv0 toks (evs.map (movedEvent μ)) κ' out' ∧ SameStack R μ ν κ.stack κ'.stack
      ∧ (∀ a f, fieldAt κ.stack a = some f → outAt κ'.stack out' (moved μ a) = outAt κ.stack out a)
      ∧ ∀ a f, fieldAt κ'.stack a = some f → outAt κ'.stack out' a = outAt κ.stack out (moved ν a) := by
  obtain ⟨μ, ν, κ', h1, h2, hr', hst⟩ := reads_same (fun _ _ _ _ h => (hR _ _ _ _ h).1) h hp.reads
  obtain ⟨out', ho'⟩ := (accepted_same hR hp.derived hd' h argv0 toks).1 ⟨out, hp.ok⟩
  have hp' : Parsed cx d' argv0 toks (evs.map (movedEvent μ)) κ' out' := ⟨hd', hr', ho'⟩
  have hst1 : StackSame cx μ ν κ.stack κ'.stack := SameStack.mono (fun _ _ _ _ h => (hR _ _ _ _ h).1) hst
  have hev := steps_fields (reads_steps hp.reads) (start_mode argv0 d)
  have hval : ∀ a f, fieldAt κ.stack a = some f → outAt κ'.stack out' (moved μ a) = outAt κ.stack out a := by
    intro a f hf
    obtain ⟨⟨f', hf', ef⟩, _⟩ := hst1.to hf
    obtain ⟨v, hv, e⟩ := hp.field hf
    obtain ⟨v', hv', e'⟩ := hp'.field hf'
    rw [occs_same hst1 hev hf, alike_fieldOut ef, hv] at hv'
    cases hv'
    rw [e, e', alike_ident ef]
  refine ⟨μ, ν, κ', out', h1, h2, hp', hst, hval, ?_⟩
  · intro a f hf
    obtain ⟨⟨f', hf', _⟩, er⟩ := hst1.symm.to hf
    rw [← hval _ _ hf', er]

end parsing

/-! ## Subcommands that are the same -/

/-- `d` has no arguments at all or is a proper part of `d0`. -/
def Below (d0 d : ArgsDef V) : Prop := ((∀ p, argAt d p = none) ∧ subVariants d = []) ∨ sizeOf d < sizeOf d0

/-- Same arguments, and in the same place for proper parts of `d0`. -/
def SameBelow (cx : Cx V) (d0 : ArgsDef V) (d d' : ArgsDef V) (φ ψ : Pos → Pos) : Prop :=
  SameCommand cx d d' φ ψ ∧ (sizeOf d < sizeOf d0 → φ = id)

theorem variantList_size : (vs : Variants V) → ∀ v ∈ variantList vs, sizeOf v < sizeOf vs
  | .nil => by intro v hv; simp [variantList] at hv
  | .cons w rest => by
    intro v hv
    rw [variantList] at hv
    rcases List.mem_cons.1 hv with h | hv
    · subst h; simp; omega
    · have := variantList_size rest v hv
      simp; omega

theorem variant_below {d : ArgsDef V} {v : Variant V} (hv : v ∈ subVariants d) : Below d (variantDef v) := by
  cases v with
  | unit i n cmeta =>
    left
    refine ⟨fun p => ?_, rfl⟩
    obtain ⟨s, i⟩ := p
    unfold argAt
    simp only [variantDef, structs, flatStructs]
    cases s <;> simp
  | args i n e =>
    right
    obtain ⟨core, flats, sub⟩ := d
    cases sub with
    | none => simp [subVariants, subOf] at hv
    | some i o vs =>
      have := variantList_size vs _ hv
      simp only [variantDef]
      simp at this ⊢
      omega

theorem step_below {κ κ1 : Ctx V} {toks rest : Toks} {evs : List Event} {d0 : ArgsDef V} (h : Step cx κ toks evs κ1 rest)
    (hall : ∀ x ∈ κ.stack, x.2 = d0 ∨ Below d0 x.2) (hin : ∀ pre y post, κ.stack = pre ++ y :: post → post ≠ [] → Below d0 y.2) :
    (∀ x ∈ κ1.stack, x.2 = d0 ∨ Below d0 x.2) ∧ (∀ pre y post, κ1.stack = pre ++ y :: post → post ≠ [] → Below d0 y.2) := by
  cases h with
  | @sub i d st k v toks hv hp =>
    have hb : Below d0 (variantDef v) := by
      have h1 := variant_below hv.mem
      rcases hall (i, d) (by simp) with h2 | h2
      · rw [← h2]; exact h1
      · rcases h1 with h1 | h1
        · exact .inl h1
        · rcases h2 with h2 | h2
          · have := hv.mem
            simp only at h2
            rw [h2.2] at this
            cases this
          · exact .inr (Nat.lt_trans h1 h2)
    constructor
    · intro x hx
      rcases List.mem_cons.1 hx with rfl | hx
      · exact .inr hb
      · exact hall x hx
    · intro pre y post he hne
      cases pre with
      | nil => simp only [List.nil_append, List.cons.injEq] at he; rw [← he.1]; exact hb
      | cons z pre => simp only [List.cons_append, List.cons.injEq] at he; exact hin pre y post he.2 hne
  | _ => exact ⟨hall, hin⟩

theorem steps_below {κ κ1 : Ctx V} {toks rest : Toks} {evs : List Event} {d0 : ArgsDef V} (h : Steps cx κ toks evs κ1 rest)
    (hall : ∀ x ∈ κ.stack, x.2 = d0 ∨ Below d0 x.2) (hin : ∀ pre y post, κ.stack = pre ++ y :: post → post ≠ [] → Below d0 y.2) :
    ∀ pre y post, κ1.stack = pre ++ y :: post → post ≠ [] → Below d0 y.2 := by
  induction h with
  | refl => exact hin
  | step h _ ih =>
    obtain ⟨h1, h2⟩ := step_below h hall hin
    exact ih h1 h2

/-- All entered commands except the root are proper parts of it. -/
theorem below_reads {d : ArgsDef V} {argv0 : Bytes} {toks : List Bytes} {evs : List Event} {κ : Ctx V} (h : Reads cx (start argv0 d) toks evs κ) :
    ∀ pre y post, κ.stack = pre ++ y :: post → post ≠ [] → Below d y.2 := by
  refine steps_below (reads_steps h) ?_ ?_
  · intro x hx
    simp only [start, List.mem_singleton] at hx
    subst hx
    exact .inl rfl
  · intro pre y post he hne
    have := congrArg List.length he
    simp only [start, List.length_append, List.length_cons, List.length_nil] at this
    cases post with
    | nil => exact absurd rfl hne
    | cons z post => simp at this; omega

theorem sameBelow_moved {d0 : ArgsDef V} {μ ν : Nat → Pos → Pos} {st st' : List (Entry V)} (h : SameStack (SameBelow cx d0) μ ν st st')
    (hin : ∀ pre y post, st = pre ++ y :: post → post ≠ [] → Below d0 y.2) {l s k : Nat} {f : FieldInfo V} (hf : fieldAt st ⟨l, s, k⟩ = some f)
    (hl : 0 < l) : moved μ ⟨l, s, k⟩ = ⟨l, s, k⟩ := by
  induction h with
  | nil => simp [fieldAt] at hf
  | @cons i d d' st st' h hd ih =>
    rw [fieldAt_argAt] at hf
    split at hf
    · rename_i he
      simp only at he hf
      rcases hin [] (i, d) st rfl (by intro h0; subst h0; simp at he; omega) with h1 | h1
      · simp only at h1
        rw [h1.1] at hf
        cases hf
      · have := (Same.args hd).2 h1
        unfold moved
        simp only [he, this, id]
    · exact ih (fun pre y post he => hin ((i, d) :: pre) y post (by rw [he]; rfl)) hf

theorem get_unique {α : Type} {l : List α} {i : Nat} {a b : α} (ha : l[i]? = some a) (hb : l[i]? = some b) : a = b := by
  rw [ha] at hb; exact Option.some.inj hb

mutual
theorem same_refl {R : ArgsDef V → ArgsDef V → (Pos → Pos) → (Pos → Pos) → Prop} (hR : ∀ d, R d d id id) : (d : ArgsDef V) → Same R d d id id
  | .mk core flats .none =>
    .mk (hR _) rfl rfl rfl (fun _ => id) (fun _ => id) (by intro i v v' hv _; simp [subVariants, subOf] at hv)
  | .mk core flats (.some ident opt vs) =>
    .mk (hR _) rfl rfl rfl (fun _ => id) (fun _ => id) (by
      intro i v v' hv hv'
      cases get_unique hv hv'
      exact same_refl_variants hR vs v (List.mem_of_getElem? hv))
theorem same_refl_variants {R : ArgsDef V → ArgsDef V → (Pos → Pos) → (Pos → Pos) → Prop} (hR : ∀ d, R d d id id) : (vs : Variants V) → ∀ v ∈ variantList vs, Same R (variantDef v) (variantDef v) id id
  | .nil => by intro v hv; simp [variantList] at hv
  | .cons w rest => by
    intro v hv
    rw [variantList] at hv
    rcases List.mem_cons.1 hv with h | hv
    · rw [h]; exact same_refl_variant hR w
    · exact same_refl_variants hR rest v hv
theorem same_refl_variant {R : ArgsDef V → ArgsDef V → (Pos → Pos) → (Pos → Pos) → Prop} (hR : ∀ d, R d d id id) : (v : Variant V) → Same R (variantDef v) (variantDef v) id id
  | .unit i n cmeta =>
    .mk (hR _) rfl rfl rfl (fun _ => id) (fun _ => id) (by intro i v v' hv _; simp [subVariants, subOf, variantDef] at hv)
  | .args i n d => same_refl hR d
end

/-- Commands with the same subcommands. -/
theorem same_of_sub {R : ArgsDef V → ArgsDef V → (Pos → Pos) → (Pos → Pos) → Prop} {d d' : ArgsDef V} {φ ψ : Pos → Pos}
    (hrefl : ∀ d, R d d id id) (h : R d d' φ ψ) (hs : subOf d' = subOf d) : Same R d d' φ ψ := by
  have hv : subVariants d' = subVariants d := by unfold subVariants; rw [hs]
  refine .mk h ?_ ?_ ?_ (fun _ => id) (fun _ => id) ?_
  · unfold subRequired; rw [hs]
  · rw [hv]
  · rw [hv]
  · intro k v v' h h'
    rw [hv] at h'
    cases get_unique h h'
    exact same_refl_variant hrefl v

end Palc
