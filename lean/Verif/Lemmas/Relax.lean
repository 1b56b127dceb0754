import Verif.SpecRelax
import Verif.Lemmas.Commute
import Verif.Lemmas.DeriveWF
/-! Readings, values and constraints of a definition with changed attributes. -/

namespace Palc

open Spec

variable {V : Type} {cx : Cx V}

/-- Changes of attributes that relax them at most. -/
class Relaxing (M : Str → ArgMeta V → ArgMeta V → Prop) : Prop where
  relaxed : ∀ {i : Str} {m m' : ArgMeta V}, M i m m' → RelaxedButNames m m'

theorem _root_.Palc.Spec.RelaxedArg.butNames {m m' : ArgMeta V} (h : RelaxedArg m m') : RelaxedButNames m m' where
  named := by rw [h.long, h.short]
  ignoreCase := h.ignoreCase
  trailingVarArg := h.trailingVarArg
  last := h.last
  valueDelimiter := h.valueDelimiter
  required := h.required
  requireEquals := h.requireEquals
  hyphen := h.hyphen
  negative := h.negative
  exclusive := h.exclusive
  requires := h.requires
  conflictsWith := h.conflictsWith

instance : Relaxing (V := V) (fun _ => RelaxedArg) := ⟨RelaxedArg.butNames⟩

/-- Changes of attributes that keep the defaults. -/
class SameDefault (M : Str → ArgMeta V → ArgMeta V → Prop) : Prop where
  same : ∀ {i : Str} {m m' : ArgMeta V}, M i m m' → m'.defaultValue = m.defaultValue ∧ m'.defaultValueT = m.defaultValueT

instance : SameDefault (V := V) (fun _ => RelaxedArg) := ⟨fun h => ⟨h.defaultValue, h.defaultValueT⟩⟩

/-- Changes of the attributes of arguments and of the parsers of their values. -/
structure Change (V : Type) where
  attr : Str → ArgMeta V → ArgMeta V → Prop
  parser : ValueParser V → ValueParser V → Prop

/-- Changes of attributes only. -/
abbrev Change.of (A : Str → ArgMeta V → ArgMeta V → Prop) : Change V := ⟨A, fun p p' => p' = p⟩

/-- Changes that keep the parsers. -/
class SameParser (M : Change V) : Prop where
  same : ∀ {p p' : ValueParser V}, M.parser p p' → p' = p

instance {A : Str → ArgMeta V → ArgMeta V → Prop} : SameParser (.of A) := ⟨id⟩

variable {M : Change V}

/-- Lists related element by element. -/
inductive All₂ {α : Type} (R : α → α → Prop) : List α → List α → Prop
  | nil : All₂ R [] []
  | cons {x x' : α} {l l' : List α} (h : R x x') (t : All₂ R l l') : All₂ R (x :: l) (x' :: l')

namespace All₂
variable {α : Type} {R : α → α → Prop} {l l' : List α}

theorem append {k k' : List α} (h : All₂ R l l') (hk : All₂ R k k') : All₂ R (l ++ k) (l' ++ k') := by
  induction h with
  | nil => exact hk
  | cons h _ ih => exact .cons h ih

theorem length (h : All₂ R l l') : l'.length = l.length := by
  induction h with
  | nil => rfl
  | cons _ _ ih => simp [ih]

theorem get (h : All₂ R l l') : ∀ (i : Nat), (l[i]? = none ∧ l'[i]? = none) ∨ ∃ x x', l[i]? = some x ∧ l'[i]? = some x' ∧ R x x' := by
  induction h with
  | nil => intro i; left; simp
  | cons h _ ih =>
    intro i
    cases i with
    | zero => right; exact ⟨_, _, rfl, rfl, h⟩
    | succ i => simpa using ih i

theorem get_some (h : All₂ R l l') {i : Nat} {x : α} (hx : l[i]? = some x) : ∃ x', l'[i]? = some x' ∧ R x x' := by
  rcases h.get i with ⟨h1, _⟩ | ⟨y, y', h1, h2, h3⟩
  · rw [h1] at hx; cases hx
  · rw [h1] at hx; cases hx; exact ⟨y', h2, h3⟩

theorem get_some' (h : All₂ R l l') {i : Nat} {x' : α} (hx : l'[i]? = some x') : ∃ x, l[i]? = some x ∧ R x x' := by
  rcases h.get i with ⟨_, h1⟩ | ⟨y, y', h1, h2, h3⟩
  · rw [h1] at hx; cases hx
  · rw [h2] at hx; cases hx; exact ⟨y, h1, h3⟩

theorem map {β : Type} {S : β → β → Prop} {g g' : α → β} (h : All₂ R l l') (hg : ∀ x x', R x x' → S (g x) (g' x')) :
    All₂ S (l.map g) (l'.map g') := by
  induction h with
  | nil => exact .nil
  | cons h _ ih => exact .cons (hg _ _ h) ih

theorem zipIdx (h : All₂ R l l') (k : Nat) : All₂ (fun x x' : α × Nat => x.2 = x'.2 ∧ R x.1 x'.1) (l.zipIdx k) (l'.zipIdx k) := by
  induction h generalizing k with
  | nil => exact .nil
  | cons h _ ih => simp only [List.zipIdx_cons]; exact .cons ⟨rfl, h⟩ (ih (k + 1))

theorem filter {p : α → Bool} (h : All₂ R l l') (hp : ∀ x x', R x x' → p x' = p x) : All₂ R (l.filter p) (l'.filter p) := by
  induction h with
  | nil => exact .nil
  | cons h _ ih =>
    rw [List.filter_cons, List.filter_cons, hp _ _ h]
    split
    · exact .cons h ih
    · exact ih

theorem find {p : α → Bool} (h : All₂ R l l') (hp : ∀ x x', R x x' → p x' = p x) :
    (l.find? p = none ∧ l'.find? p = none) ∨ ∃ x x', l.find? p = some x ∧ l'.find? p = some x' ∧ R x x' := by
  induction h with
  | nil => left; exact ⟨rfl, rfl⟩
  | @cons x x' _ _ h _ ih =>
    rw [List.find?_cons, List.find?_cons, hp _ _ h]
    cases p x with
    | true => right; exact ⟨_, _, rfl, rfl, h⟩
    | false => exact ih

theorem flatMap {β : Type} {S : β → β → Prop} {g g' : α → List β} (h : All₂ R l l') (hg : ∀ x x', R x x' → All₂ S (g x) (g' x')) :
    All₂ S (l.flatMap g) (l'.flatMap g') := by
  induction h with
  | nil => exact .nil
  | cons h _ ih => simp only [List.flatMap_cons]; exact (hg _ _ h).append ih

theorem refl (hr : ∀ x, R x x) : ∀ l : List α, All₂ R l l
  | [] => .nil
  | x :: l => .cons (hr x) (refl hr l)
end All₂

/-- A field with changed attributes. -/
structure LooseField (M : Change V) (f f' : FieldInfo V) : Prop where
  ident : f'.ident = f.ident
  kind : f'.kind = f.kind
  parser_src : M.parser f.parser f'.parser
  delimiter : f'.valueDelimiter = f.valueDelimiter
  default_src : f'.src.defaultValue = f.src.defaultValue → f'.src.defaultValueT = f.src.defaultValueT → f'.defaultValue = f.defaultValue
  src : M.attr f.ident f.src f'.src

/-- The fields of a struct. -/
def LooseCore (M : Change V) (c c' : Core V) : Prop := All₂ (LooseField M) c.fields c'.fields

mutual
/-- A definition with changed attributes. -/
inductive LooseArgs (M : Change V) : ArgsDef V → ArgsDef V → Prop
  | mk {c c' : Core V} {fl fl' : Flats V} {s s' : SubField V} (hc : LooseCore M c c') (hf : LooseFlats M fl fl') (hs : LooseSub M s s') :
      LooseArgs M (.mk c fl s) (.mk c' fl' s')
inductive LooseFlats (M : Change V) : Flats V → Flats V → Prop
  | nil : LooseFlats M .nil .nil
  | cons {i : Str} {d d' : ArgsDef V} {r r' : Flats V} (h : LooseArgs M d d') (hr : LooseFlats M r r') : LooseFlats M (.cons i d r) (.cons i d' r')
inductive LooseSub (M : Change V) : SubField V → SubField V → Prop
  | none : LooseSub M .none .none
  | some {i : Str} {o : Bool} {vs vs' : Variants V} (h : LooseVariants M vs vs') : LooseSub M (.some i o vs) (.some i o vs')
inductive LooseVariants (M : Change V) : Variants V → Variants V → Prop
  | nil : LooseVariants M .nil .nil
  | unit {i n : Str} {cm cm' : Option CommandMeta} {vs vs' : Variants V} (h : LooseVariants M vs vs') :
      LooseVariants M (.cons (.unit i n cm) vs) (.cons (.unit i n cm') vs')
  | args {i n : Str} {d d' : ArgsDef V} {vs vs' : Variants V} (hd : LooseArgs M d d') (h : LooseVariants M vs vs') :
      LooseVariants M (.cons (.args i n d) vs) (.cons (.args i n d') vs')
end

/-! ## The generated definition -/

set_option linter.unusedSectionVars false

variable [Relaxing M.attr]

theorem LooseField.rel {f f' : FieldInfo V} (h : LooseField M f f') : RelaxedButNames f.src f'.src := Relaxing.relaxed h.src

theorem argField_loose {i : Str} {ty : Ty V} {m m' : ArgMeta V} (h : M.attr i m m')
    (hp : ∀ p, M.parser p p) : LooseField M (argField cx i ty m).2 (argField cx i ty m').2 := by
  have hm := h
  replace h := Relaxing.relaxed h
  have hn : m'.isNamed = m.isNamed := by simpa [ArgMeta.isNamed] using h.named
  have hd : m'.defaultValue = m.defaultValue → m'.defaultValueT = m.defaultValueT →
      (fieldDefault cx (classify ty).1 (classify ty).2 m').2 = (fieldDefault cx (classify ty).1 (classify ty).2 m).2 := by
    intro h1 h2
    unfold fieldDefault
    rw [h1, h2]
  have hv := h.valueDelimiter
  unfold argField
  simp only [hn]
  split
  · exact ⟨rfl, rfl, hp _, hv, hd, hm⟩
  · exact ⟨rfl, rfl, hp _, hv, hd, hm⟩

/-- Related states of the derive macro. -/
structure LooseState (M : Change V) (s s' : DState V) : Prop where
  named : All₂ (LooseField M) s.named s'.named
  positional : All₂ (LooseField M) s.positional s'.positional
  varArg : All₂ (LooseField M) s.varArg.toList s'.varArg.toList
  last : All₂ (LooseField M) s.last.toList s'.last.toList
  flats : LooseFlats M (Flats.ofList s.flats) (Flats.ofList s'.flats)
  sub : LooseSub M s.sub s'.sub

theorem looseFlats_snoc {l l' : List (Str × ArgsDef V)} (h : LooseFlats M (Flats.ofList l) (Flats.ofList l')) {i : Str} {d d' : ArgsDef V}
    (hd : LooseArgs M d d') : LooseFlats M (Flats.ofList (l ++ [(i, d)])) (Flats.ofList (l' ++ [(i, d')])) := by
  induction l generalizing l' with
  | nil =>
    cases l' with
    | nil => exact .cons hd .nil
    | cons x l' => cases h
  | cons x l ih =>
    cases l' with
    | nil => cases h
    | cons x' l' =>
      obtain ⟨j, e⟩ := x
      obtain ⟨j', e'⟩ := x'
      cases h with
      | cons h1 h2 => exact .cons h1 (ih h2)

theorem toList_isSome {α : Type} {R : α → α → Prop} {o o' : Option α} (h : All₂ R o.toList o'.toList) : o'.isSome = o.isSome := by
  cases o <;> cases o' <;> first | rfl | cases h

theorem step_arg_loose {s s' : DState V} (h : LooseState M s s') {i : Str} {ty ty' : Ty V} {m m' : ArgMeta V} (ha : M.attr i m m')
    (hf : LooseField M (argField cx i ty m).2 (argField cx i ty' m').2) :
    LooseState M (deriveStep cx s (.arg i ty m)) (deriveStep cx s' (.arg i ty' m')) := by
  replace ha := Relaxing.relaxed ha
  have hn : m'.isNamed = m.isNamed := by simpa [ArgMeta.isNamed] using ha.named
  have hk := hf.kind
  have hv := toList_isSome h.varArg
  unfold deriveStep
  simp only [hn, ha.last, ha.trailingVarArg, hk, hv]
  split
  · split
    · exact ⟨h.named, h.positional, h.varArg, h.last, h.flats, h.sub⟩
    · exact ⟨h.named.append (.cons hf .nil), h.positional, h.varArg, h.last, h.flats, h.sub⟩
  · split
    · exact ⟨h.named, h.positional, h.varArg, .cons hf .nil, h.flats, h.sub⟩
    · split
      · exact ⟨h.named, h.positional, .cons hf .nil, h.last, h.flats, h.sub⟩
      · split
        · exact ⟨h.named, h.positional, h.varArg, h.last, h.flats, h.sub⟩
        · exact ⟨h.named, h.positional.append (.cons hf .nil), h.varArg, h.last, h.flats, h.sub⟩

theorem loose_of_state {cm cm' : Option CommandMeta} {ds ds' : List (FieldDecl V)} {d d' : ArgsDef V}
    (h : LooseState M (ds.foldl (deriveStep cx) {}) (ds'.foldl (deriveStep cx) {}))
    (hd : deriveArgs cx cm ds = .ok d) (hd' : deriveArgs cx cm' ds' = .ok d') : LooseArgs M d d' := by
  have key : ∀ {cm : Option CommandMeta} {ds : List (FieldDecl V)} {d : ArgsDef V}, deriveArgs cx cm ds = .ok d →
      d = .mk { fields := ((assignIndexes (ds.foldl (deriveStep cx) {}).all).map (resolveField (assignIndexes (ds.foldl (deriveStep cx) {}).all))).map (·.2),
                namedCnt := (ds.foldl (deriveStep cx) {}).named.length, cmdMeta := cm }
        (Flats.ofList (ds.foldl (deriveStep cx) {}).flats) (ds.foldl (deriveStep cx) {}).sub := by
    intro cm ds d h
    unfold deriveArgs at h
    split at h
    · cases h
    · obtain ⟨_, h⟩ := ite_ok h
      cases h
      rfl
  rw [key hd, key hd']
  refine .mk ?_ h.flats h.sub
  unfold LooseCore
  simp only
  have hall : All₂ (LooseField M) (ds.foldl (deriveStep cx) {}).all (ds'.foldl (deriveStep cx) {}).all :=
    ((h.named.append h.positional).append h.varArg).append h.last
  have h2 := (hall.zipIdx 0).map (S := LooseField M)
    (g := fun x => { x.1 with attrs := ArgAttrs.set x.1.attrs (ArgAttrs.index x.2) true })
    (g' := fun x => { x.1 with attrs := ArgAttrs.set x.1.attrs (ArgAttrs.index x.2) true })
    (fun x x' hx => ⟨hx.2.ident, hx.2.kind, hx.2.parser_src, hx.2.delimiter, hx.2.default_src, hx.2.src⟩)
  have h3 : ∀ D D' : List (FieldInfo V), All₂ (LooseField M)
      ((assignIndexes (ds.foldl (deriveStep cx) {}).all).map (resolveField D) |>.map (·.2))
      ((assignIndexes (ds'.foldl (deriveStep cx) {}).all).map (resolveField D') |>.map (·.2)) := by
    intro D D'
    rw [List.map_map, List.map_map]
    exact All₂.map (R := LooseField M) h2 (fun x x' hx => ⟨hx.ident, hx.kind, hx.parser_src, hx.delimiter, hx.default_src, hx.src⟩)
  exact h3 _ _

variable {A : Str → ArgMeta V → ArgMeta V → Prop} [Relaxing A]

mutual
theorem changed_loose {d d' : ArgsDef V} : Changed A cx d d' → LooseArgs (.of A) d d'
  | .mk fields hd hd' => loose_of_state (changedDecls_loose fields {} {} ⟨.nil, .nil, .nil, .nil, .nil, .none⟩) hd hd'
theorem changedDecls_loose {ds ds' : List (FieldDecl V)} : ChangedDecls A cx ds ds' → ∀ s s' : DState V, LooseState (.of A) s s' →
    LooseState (.of A) (ds.foldl (deriveStep cx) s) (ds'.foldl (deriveStep cx) s')
  | .nil, _, _, h => h
  | .arg ha t, s, s', h => changedDecls_loose t _ _ (step_arg_loose h ha (argField_loose ha fun _ => rfl))
  | .flatten (i := i) he t, s, s', h => by
    refine changedDecls_loose t _ _ ?_
    exact ⟨h.named, h.positional, h.varArg, h.last, looseFlats_snoc h.flats (changed_loose he), h.sub⟩
  | .subcommand (vs := vs) (vs' := vs') hv t, s, s', h => by
    refine changedDecls_loose t _ _ ?_
    have hv' := changedVariants_loose hv
    obtain ⟨h1, h2, h3, h4, h5, h6⟩ := h
    cases s
    cases s'
    simp only at h1 h2 h3 h4 h5 h6
    cases h6 with
    | none => exact ⟨h1, h2, h3, h4, h5, .some hv'⟩
    | some q => exact ⟨h1, h2, h3, h4, h5, .some q⟩
theorem changedVariants_loose {vs vs' : Variants V} : ChangedVariants A cx vs vs' → LooseVariants (.of A) vs vs'
  | .nil => .nil
  | .unit h => .unit (changedVariants_loose h)
  | .args hd h => .args (changed_loose hd) (changedVariants_loose h)
end

/-! ## What is visible -/

namespace LooseField
variable {f f' : FieldInfo V} (h : LooseField M f f')
include h

theorem isOption : isOption f' = isOption f := h.rel.named
theorem isMulti : isMulti f' = isMulti f := by simp [Spec.isMulti, h.kind]
theorem takesValue : takesValue f' = takesValue f := by simp [Spec.takesValue, h.kind]
theorem last : f'.src.last = f.src.last := h.rel.last
theorem default [SameDefault M.attr] : f'.defaultValue = f.defaultValue :=
  h.default_src (SameDefault.same h.src).1 (SameDefault.same h.src).2
theorem isRequired_of (hd : f'.defaultValue = f.defaultValue) (hr : isRequired f' = true) : isRequired f = true := by
  unfold Spec.isRequired at hr ⊢
  rw [hd, h.kind] at hr
  simp only [Bool.and_eq_true, Bool.or_eq_true] at hr ⊢
  exact ⟨hr.1.imp h.rel.required id, hr.2⟩
theorem isRequired [SameDefault M.attr] (hr : Spec.isRequired f' = true) : Spec.isRequired f = true := h.isRequired_of h.default hr
theorem requireEquals (hq : f.src.requireEquals = false) : f'.src.requireEquals = false := by
  cases hx : f'.src.requireEquals with
  | false => rfl
  | true => rw [h.rel.requireEquals hx] at hq; cases hq
theorem standalone {v : Bytes} (hs : Standalone f v) : Standalone f' v := by
  rcases hs with hs | hs | ⟨hs, hv⟩
  · exact .inl hs
  · exact .inr (.inl (h.rel.hyphen hs))
  · rcases h.rel.negative hs with hx | hx
    · exact .inr (.inr ⟨hx, hv⟩)
    · exact .inr (.inl hx)
theorem parser [SameParser M] : f'.parser = f.parser := SameParser.same h.parser_src
theorem content [SameParser M] (os : List (Option Bytes)) : content f' os = content f os := by
  have hp : parsed f' = parsed f := by funext b; simp [parsed, h.parser]
  have hpa : parsedAll f' = parsedAll f := by
    funext bs
    induction bs with
    | nil => rfl
    | cons b bs ih => simp [parsedAll, hp, ih]
  have hpc : pieces f' = pieces f := by funext b; simp [pieces, h.delimiter]
  unfold Spec.content
  rw [h.kind, hp, hpa, hpc]
theorem given [SameParser M] (os : List (Option Bytes)) : given f' os = given f os := by
  have hn : normalise f' = normalise f := by funext b; simp [normalise, h.rel.ignoreCase]
  unfold Spec.given
  rw [h.content, hn]
theorem toField : toField f' = toField f := by funext v; simp [Spec.toField, h.kind]
theorem fieldOut_of [SameParser M] (hdef : f'.defaultValue = f.defaultValue) (os : List (Option Bytes)) : fieldOut f' os = fieldOut f os := by
  have hd : defaultContent f' = defaultContent f := by
    unfold defaultContent
    rw [hdef]
    split <;> first | rfl | exact h.content _
  unfold Spec.fieldOut
  rw [h.toField, hd]
  split
  · rfl
  · rw [h.given]
theorem fieldOut_given [SameParser M] {os : List (Option Bytes)} (hos : os ≠ []) : Spec.fieldOut f' os = Spec.fieldOut f os := by
  cases os with
  | nil => exact (hos rfl).elim
  | cons o os => simp only [Spec.fieldOut]; rw [h.toField, h.given]
theorem fieldOut [SameParser M] [SameDefault M.attr] (os : List (Option Bytes)) : Spec.fieldOut f' os = Spec.fieldOut f os := h.fieldOut_of h.default os
end LooseField

/-- Changes which keep the meaning of all names in use: where one argument had a name, everyone else has it after the change only if it
had it before; and where a global argument had a name, arguments which become global do not have it. -/
class Naming (cx : Cx V) (M : Change V) : Prop extends Relaxing M.attr where
  kept : ∀ {f f' g g' : FieldInfo V} {n : Name}, LooseField M f f' → LooseField M g g' → declares cx f n = true →
    declares cx g' n = declares cx g n
  scope : ∀ {f f' : FieldInfo V}, LooseField M f f' → f.src.global = true → f'.src.global = true
  apart : ∀ {f f' g g' : FieldInfo V} {n : Name}, LooseField M f f' → LooseField M g g' → f.src.global = true → declares cx f n = true →
    g.src.global = false → g'.src.global = true → declares cx g' n = false

theorem declares_same {f f' : FieldInfo V} (hi : f'.ident = f.ident) (h : RelaxedArg f.src f'.src) (n : Name) :
    declares cx f' n = declares cx f n := by
  cases n <;> simp [Spec.declares, Spec.isOption, longNames, shortNames, h.long, h.short, h.alias, h.shortAlias, hi]

instance : Naming cx (.of fun _ => RelaxedArg (V := V)) where
  kept _ h _ := declares_same h.ident h.src _
  scope h hg := by rw [h.src.global, hg]
  apart _ h _ _ h1 h2 := by rw [h.src.global, h1] at h2; cases h2

mutual
theorem structs_loose {d d' : ArgsDef V} : LooseArgs M d d' → All₂ (LooseCore M) (structs d) (structs d')
  | .mk hc hf _ => .cons hc (flatStructs_loose hf)
theorem flatStructs_loose {fl fl' : Flats V} : LooseFlats M fl fl' → All₂ (LooseCore M) (flatStructs fl) (flatStructs fl')
  | .nil => .nil
  | .cons h hr => (structs_loose h).append (flatStructs_loose hr)
end

/-- Entered commands with changed attributes. -/
def LooseEntry (M : Change V) (x x' : Entry V) : Prop := x'.1 = x.1 ∧ LooseArgs M x.2 x'.2

/-- The same address of a field with changed attributes. -/
def LooseAt (M : Change V) (x x' : Addr × FieldInfo V) : Prop := x'.1 = x.1 ∧ LooseField M x.2 x'.2

theorem fieldsAt_loose {d d' : ArgsDef V} (h : LooseArgs M d d') (l : Nat) : All₂ (LooseAt M) (fieldsAt l d) (fieldsAt l d') := by
  unfold fieldsAt
  refine ((structs_loose h).zipIdx 0).flatMap ?_
  rintro ⟨c, s⟩ ⟨c', s'⟩ ⟨hs, hc⟩
  simp only at hs
  subst hs
  refine (All₂.zipIdx hc 0).map ?_
  rintro ⟨f, i⟩ ⟨f', i'⟩ ⟨hi, hf⟩
  simp only at hi
  subst hi
  exact ⟨rfl, hf⟩

theorem find_filter {α : Type} {R : α → α → Prop} {l l' : List α} (h : All₂ R l l') {p q : α → Bool} {x : α}
    (hq : ∀ y y', R y y' → q y' = q y) (hp : ∀ y y', R y y' → p y = true → p y' = true)
    (ha : ∀ y y', R y y' → p y = false → p y' = true → q y' = false) :
    (l.filter p).find? q = some x → ∃ x', (l'.filter p).find? q = some x' ∧ R x x' := by
  induction h with
  | nil => intro hx; cases hx
  | @cons y y' l l' h t ih =>
    rw [List.filter_cons, List.filter_cons]
    cases e : p y with
    | true =>
      rw [hp y y' h e]
      simp only [if_true, List.find?_cons, hq y y' h]
      cases q y with
      | true => intro hx; cases hx; exact ⟨y', rfl, h⟩
      | false => exact ih
    | false =>
      intro hx
      obtain ⟨x', h1, h2⟩ := ih (by simpa using hx)
      refine ⟨x', ?_, h2⟩
      cases e' : p y' with
      | false => simpa using h1
      | true => simpa [ha y y' h e e'] using h1

theorem find_filter_none {α : Type} {R : α → α → Prop} {l l' : List α} (h : All₂ R l l') {p q : α → Bool}
    (hq : ∀ y y', R y y' → q y' = q y) (ha : ∀ y y', R y y' → p y = false → p y' = true → q y' = false) :
    (l.filter p).find? q = none → (l'.filter p).find? q = none := by
  simp only [List.find?_eq_none, List.mem_filter, and_imp]
  intro hx y' hy' hp'
  obtain ⟨j, hj⟩ := List.mem_iff_getElem?.1 hy'
  obtain ⟨y, h1, h2⟩ := h.get_some' hj
  cases e : p y with
  | true => rw [hq y y' h2]; exact hx y (List.mem_of_getElem? h1) e
  | false => simp [ha y y' h2 e hp']

theorem globals_global {st : List (Entry V)} : ∀ x ∈ globals st, x.2.src.global = true := by
  induction st with
  | nil => intro x hx; cases hx
  | cons y st ih =>
    intro x hx
    simp only [globals, List.mem_append, List.mem_filter] at hx
    rcases hx with hx | hx
    · exact hx.2
    · exact ih x hx

theorem globals_find {st st' : List (Entry V)} (h : All₂ (LooseEntry M) st st') {q : Addr × FieldInfo V → Bool} {x : Addr × FieldInfo V}
    (hq : ∀ y y', LooseAt M y y' → q y' = q y) (hp : ∀ y y', LooseAt M y y' → y.2.src.global = true → y'.2.src.global = true)
    (ha : ∀ y y', LooseAt M y y' → y.2.src.global = false → y'.2.src.global = true → q y' = false) :
    (globals st).find? q = some x → ∃ x', (globals st').find? q = some x' ∧ LooseAt M x x' := by
  induction h with
  | nil => intro hx; cases hx
  | @cons y y' l l' h t ih =>
    obtain ⟨i, d⟩ := y
    obtain ⟨i', d'⟩ := y'
    simp only [globals, List.find?_append]
    rw [t.length]
    intro hx
    cases e : ((fieldsAt l.length d).filter fun x => x.2.src.global).find? q with
    | some z =>
      rw [e] at hx
      cases hx
      obtain ⟨z', h1, h2⟩ := find_filter (fieldsAt_loose h.2 l.length) hq hp ha e
      exact ⟨z', by rw [h1]; rfl, h2⟩
    | none =>
      rw [e] at hx
      rw [find_filter_none (fieldsAt_loose h.2 l.length) hq ha e]
      exact ih hx

theorem globals_partner {st st' : List (Entry V)} (h : All₂ (LooseEntry M) st st') {x : Addr × FieldInfo V} :
    x ∈ globals st → ∃ f', LooseField M x.2 f' := by
  induction h with
  | nil => intro hx; cases hx
  | @cons y y' l l' h t ih =>
    intro hx
    simp only [globals, List.mem_append, List.mem_filter] at hx
    rcases hx with ⟨hx, _⟩ | hx
    · obtain ⟨j, hj⟩ := List.mem_iff_getElem?.1 hx
      obtain ⟨z, _, h0⟩ := (fieldsAt_loose h.2 _).get_some hj
      exact ⟨z.2, h0.2⟩
    · exact ih hx

theorem visible_partner {st st' : List (Entry V)} (h : All₂ (LooseEntry M) st st') {x : Addr × FieldInfo V} (hx : x ∈ visible st) :
    ∃ f', LooseField M x.2 f' := by
  cases h with
  | nil => cases hx
  | @cons y y' l l' h t =>
    simp only [visible, List.mem_append] at hx
    rcases hx with hx | hx
    · obtain ⟨j, hj⟩ := List.mem_iff_getElem?.1 hx
      obtain ⟨z, _, h0⟩ := (fieldsAt_loose h.2 _).get_some hj
      exact ⟨z.2, h0.2⟩
    · exact globals_partner t hx

theorem resolves_loose [Naming cx M] {st st' : List (Entry V)} (h : All₂ (LooseEntry M) st st') {n : Name} {a : Addr} {f : FieldInfo V}
    (hr : Resolves cx st n a f) : ∃ f', Resolves cx st' n a f' ∧ LooseField M f f' := by
  unfold Resolves at hr ⊢
  have hn : declares cx f n = true := List.find?_some (p := fun x : Addr × FieldInfo V => declares cx x.2 n) hr
  obtain ⟨f0, hf⟩ := visible_partner h (List.mem_of_find?_eq_some hr)
  have hq : ∀ y y' : Addr × FieldInfo V, LooseAt M y y' → declares cx y'.2 n = declares cx y.2 n := fun y y' hy => Naming.kept hf hy.2 hn
  cases h with
  | nil => cases hr
  | @cons x x' l l' h t =>
    obtain ⟨i, d⟩ := x
    obtain ⟨i', d'⟩ := x'
    simp only [visible, List.find?_append] at hr ⊢
    rw [t.length]
    rcases (fieldsAt_loose h.2 l.length).find (p := fun x => declares cx x.2 n) hq with ⟨h1, h2⟩ | ⟨z, z', h1, h2, h3⟩
    · rw [h1] at hr
      rw [h2]
      have hg := globals_global (a, f) (List.mem_of_find?_eq_some hr)
      obtain ⟨⟨a', f'⟩, h3, h4⟩ := globals_find t hq (fun y y' hy => Naming.scope cx hy.2)
        (fun y y' hy => Naming.apart hf hy.2 hg hn) hr
      obtain ⟨rfl, h4⟩ := h4
      exact ⟨f', h3, h4⟩
    · rw [h1] at hr
      cases hr
      obtain ⟨a', f'⟩ := z'
      obtain ⟨rfl, h3⟩ := h3
      exact ⟨f', by rw [h2]; rfl, h3⟩

theorem coreOf_loose {d d' : ArgsDef V} (h : LooseArgs M d d') : LooseCore M (coreOf d) (coreOf d') := by
  cases h with
  | mk hc _ _ => exact hc

/-- The same position of a field with changed attributes. -/
def LoosePos (M : Change V) (x x' : FieldInfo V × Nat) : Prop := x.2 = x'.2 ∧ LooseField M x.1 x'.1

theorem posTarget_loose {d d' : ArgsDef V} (h : LooseArgs M d d') (k : Nat) :
    (posTarget d k = none ∧ posTarget d' k = none) ∨ ∃ x x', posTarget d k = some x ∧ posTarget d' k = some x' ∧ LoosePos M x x' := by
  have hz : All₂ (LoosePos M) (coreOf d).fields.zipIdx (coreOf d').fields.zipIdx := All₂.zipIdx (coreOf_loose h) 0
  have h1 : All₂ (LoosePos M) (singles d) (singles d') :=
    hz.filter (fun x x' hx => by rw [hx.2.isOption, hx.2.isMulti, hx.2.last])
  have h2 := hz.find (p := fun x => !isOption x.1 && isMulti x.1 && !x.1.src.last)
    (fun x x' hx => by rw [hx.2.isOption, hx.2.isMulti, hx.2.last])
  unfold posTarget
  rcases h1.get k with ⟨e1, e2⟩ | ⟨x, x', e1, e2, e3⟩
  · rw [e1, e2]; exact h2
  · rw [e1, e2]; exact .inr ⟨x, x', rfl, rfl, e3⟩

theorem lastArg_loose {d d' : ArgsDef V} (h : LooseArgs M d d') :
    (lastArg d = none ∧ lastArg d' = none) ∨ ∃ x x', lastArg d = some x ∧ lastArg d' = some x' ∧ LoosePos M x x' := by
  have hz : All₂ (LoosePos M) (coreOf d).fields.zipIdx (coreOf d').fields.zipIdx := All₂.zipIdx (coreOf_loose h) 0
  exact hz.find (p := fun x => !isOption x.1 && x.1.src.last) (fun x x' hx => by rw [hx.2.isOption, hx.2.last])

/-! ## Subcommands -/

/-- The same subcommand, with changed attributes. -/
structure LooseVariant (M : Change V) (v v' : Variant V) : Prop where
  name : v'.name = v.name
  ident : variantIdent v' = variantIdent v
  args : LooseArgs M (variantDef v) (variantDef v')

theorem variantList_loose {vs vs' : Variants V} : LooseVariants M vs vs' → All₂ (LooseVariant M) (variantList vs) (variantList vs')
  | .nil => .nil
  | .unit h => .cons ⟨rfl, rfl, .mk .nil .nil .none⟩ (variantList_loose h)
  | .args hd h => .cons ⟨rfl, rfl, hd⟩ (variantList_loose h)

theorem subVariants_loose {d d' : ArgsDef V} (h : LooseArgs M d d') : All₂ (LooseVariant M) (subVariants d) (subVariants d') := by
  cases h with
  | mk _ _ hs =>
    cases hs with
    | none => exact .nil
    | some h => exact variantList_loose h

theorem names_loose {vs vs' : Variants V} : LooseVariants M vs vs' → vs'.names = vs.names
  | .nil => rfl
  | .unit h => by simp [Variants.names, names_loose h, Variant.name]
  | .args hd h => by simp [Variants.names, names_loose h, Variant.name]

theorem selected_loose {d d' : ArgsDef V} (h : LooseArgs M d d') {v : Variant V} (hv : Selected d v) :
    ∃ v', Selected d' v' ∧ LooseVariant M v v' := by
  have hm : searched d (enc v.name) = some v := mSub_variant hv
  have hl := subVariants_loose h
  have key : ∀ arg w, searched d arg = some w → ∃ w', searched d' arg = some w' ∧ LooseVariant M w w' := by
    intro arg w hw
    cases h with
    | mk _ _ hs =>
      cases hs with
      | none => simp [searched, subOf, SubField.info] at hw
      | @some i o vs vs' hvs =>
        simp only [searched, subOf, SubField.info, SubcmdInfo.search, names_loose hvs] at hw ⊢
        split at hw
        · cases hw
        · exact hl.get_some hw
  obtain ⟨v', h1, h2⟩ := key _ _ hm
  exact ⟨v', (selected_of_mSub h1).1, h2⟩

theorem subNames_loose {d d' : ArgsDef V} (h : LooseArgs M d d') {tok : Bytes} (hn : ∀ v ∈ subVariants d, enc v.name ≠ tok) :
    ∀ v ∈ subVariants d', enc v.name ≠ tok := by
  intro v' hv'
  obtain ⟨j, hj⟩ := List.mem_iff_getElem?.1 hv'
  obtain ⟨v, h1, h2⟩ := (subVariants_loose h).get_some' hj
  rw [h2.name]
  exact hn v (List.mem_of_getElem? h1)

/-! ## Readings -/

/-- Contexts with changed attributes. -/
inductive LooseCtx (M : Change V) : Ctx V → Ctx V → Prop
  | mk {st st' k m} (h : All₂ (LooseEntry M) st st') : LooseCtx M ⟨st, k, m⟩ ⟨st', k, m⟩

theorem LooseCtx.stack {κ κ' : Ctx V} (h : LooseCtx M κ κ') : All₂ (LooseEntry M) κ.stack κ'.stack := by
  cases h with
  | mk h => exact h

theorem cluster_loose [Naming cx M] {st st' : List (Entry V)} (h : All₂ (LooseEntry M) st st') {next : Option Bytes} {b : Bytes} {evs : List Event} {took : Bool}
    (hc : Cluster cx st next b evs took) : Cluster cx st' next b evs took := by
  induction hc with
  | bare hr ht =>
    obtain ⟨f', hr', hf⟩ := resolves_loose h hr
    exact .bare hr' (by rw [hf.takesValue]; exact ht)
  | more hr ht hq hne heq _ ih =>
    obtain ⟨f', hr', hf⟩ := resolves_loose h hr
    exact .more hr' (by rw [hf.takesValue]; exact ht) (hf.requireEquals hq) hne heq ih
  | eq hr ht =>
    obtain ⟨f', hr', hf⟩ := resolves_loose h hr
    exact .eq hr' (by rw [hf.takesValue]; exact ht)
  | attached hr ht hq hne heq =>
    obtain ⟨f', hr', hf⟩ := resolves_loose h hr
    exact .attached hr' (by rw [hf.takesValue]; exact ht) (hf.requireEquals hq) hne heq
  | sep hr ht hq hn hs =>
    obtain ⟨f', hr', hf⟩ := resolves_loose h hr
    exact .sep hr' (by rw [hf.takesValue]; exact ht) (hf.requireEquals hq) hn (hf.standalone hs)

theorem modeAfter_loose {x x' : FieldInfo V × Nat} (h : LoosePos M x x') (m : Mode) : modeAfter x' m = modeAfter x m := by
  simp [modeAfter, h.2.rel.trailingVarArg, h.1]

theorem reads_loose [Naming cx M] {κ κ1 : Ctx V} {toks : List Bytes} {evs : List Event} (h : Reads cx κ toks evs κ1) :
    ∀ κ', LooseCtx M κ κ' → ∃ κ1', Reads cx κ' toks evs κ1' ∧ LooseCtx M κ1 κ1' := by
  induction h with
  | done => exact fun κ' hl => ⟨κ', .done, hl⟩
  | longEq hr hn ht _ ih =>
    rintro _ ⟨h1⟩
    obtain ⟨f', hr', hf⟩ := resolves_loose h1 hr
    obtain ⟨κ1', h2, h3⟩ := ih _ ⟨h1⟩
    exact ⟨κ1', .longEq hr' hn (by rw [hf.kind]; exact ht) h2, h3⟩
  | longBare hr hn hne ht _ ih =>
    rintro _ ⟨h1⟩
    obtain ⟨f', hr', hf⟩ := resolves_loose h1 hr
    obtain ⟨κ1', h2, h3⟩ := ih _ ⟨h1⟩
    exact ⟨κ1', .longBare hr' hn hne (by rw [hf.takesValue]; exact ht) h2, h3⟩
  | longSep hr hn hne ht hq hs _ ih =>
    rintro _ ⟨h1⟩
    obtain ⟨f', hr', hf⟩ := resolves_loose h1 hr
    obtain ⟨κ1', h2, h3⟩ := ih _ ⟨h1⟩
    exact ⟨κ1', .longSep hr' hn hne (by rw [hf.takesValue]; exact ht) (hf.requireEquals hq) (hf.standalone hs) h2, h3⟩
  | cluster hb hc _ ih =>
    rintro _ ⟨h1⟩
    obtain ⟨κ1', h2, h3⟩ := ih _ ⟨h1⟩
    exact ⟨κ1', .cluster hb (cluster_loose h1 hc) h2, h3⟩
  | clusterSep hb hc _ ih =>
    rintro _ ⟨h1⟩
    obtain ⟨κ1', h2, h3⟩ := ih _ ⟨h1⟩
    exact ⟨κ1', .clusterSep hb (cluster_loose h1 hc) h2, h3⟩
  | @sub i d st k v toks evs κ1 hv hp _ ih =>
    rintro _ ⟨h1⟩
    cases h1 with
    | @cons x x' l l' h t =>
      obtain ⟨i', d'⟩ := x'
      obtain ⟨rfl, hd⟩ := h
      obtain ⟨v', hv', hlv⟩ := selected_loose hd hv
      obtain ⟨κ1', h2, h3⟩ := ih ⟨(⟨variantIdent v', v'.name⟩, variantDef v') :: (_, d') :: l', 0, .opts⟩
        ⟨.cons ⟨by simp [hlv.ident, hlv.name], hlv.args⟩ (.cons ⟨rfl, hd⟩ t)⟩
      refine ⟨κ1', ?_, h3⟩
      rw [← hlv.name]
      exact .sub hv' (by rw [hlv.name]; exact hp) h2
  | @positional i d st k tok x toks evs κ1 hp hns hx _ ih =>
    rintro _ ⟨h1⟩
    cases h1 with
    | @cons y y' l l' h t =>
      obtain ⟨i', d'⟩ := y'
      obtain ⟨rfl, hd⟩ := h
      rcases posTarget_loose hd k with ⟨e1, _⟩ | ⟨x0, x', e1, e2, e3⟩
      · rw [e1] at hx; cases hx
      · rw [e1] at hx
        cases hx
        obtain ⟨κ1', h2, h3⟩ := ih ⟨(_, d') :: l', k + 1, modeAfter x' .opts⟩ (by rw [modeAfter_loose e3]; exact ⟨.cons ⟨rfl, hd⟩ t⟩)
        refine ⟨κ1', ?_, h3⟩
        rw [e3.1, ← t.length]
        exact .positional hp (subNames_loose hd hns) e2 h2
  | dashdash _ ih =>
    rintro _ ⟨h1⟩
    obtain ⟨κ1', h2, h3⟩ := ih _ ⟨h1⟩
    exact ⟨κ1', .dashdash h2, h3⟩
  | @last i d st k tok x toks evs κ1 hx _ ih =>
    rintro _ ⟨h1⟩
    cases h1 with
    | @cons y y' l l' h t =>
      obtain ⟨i', d'⟩ := y'
      obtain ⟨rfl, hd⟩ := h
      rcases lastArg_loose hd with ⟨e1, _⟩ | ⟨x0, x', e1, e2, e3⟩
      · rw [e1] at hx; cases hx
      · rw [e1] at hx
        cases hx
        obtain ⟨κ1', h2, h3⟩ := ih ⟨(_, d') :: l', k, .dashed⟩ ⟨.cons ⟨rfl, hd⟩ t⟩
        refine ⟨κ1', ?_, h3⟩
        rw [e3.1, ← t.length]
        exact .last e2 h2
  | @dashed i d st k tok x toks evs κ1 hl hx _ ih =>
    rintro _ ⟨h1⟩
    cases h1 with
    | @cons y y' l l' h t =>
      obtain ⟨i', d'⟩ := y'
      obtain ⟨rfl, hd⟩ := h
      have hl' : lastArg d' = none := by
        rcases lastArg_loose hd with ⟨_, e2⟩ | ⟨x0, x', e1, _, _⟩
        · exact e2
        · rw [e1] at hl; cases hl
      rcases posTarget_loose hd k with ⟨e1, _⟩ | ⟨x0, x', e1, e2, e3⟩
      · rw [e1] at hx; cases hx
      · rw [e1] at hx
        cases hx
        obtain ⟨κ1', h2, h3⟩ := ih ⟨(_, d') :: l', k + 1, modeAfter x' .dashed⟩ (by rw [modeAfter_loose e3]; exact ⟨.cons ⟨rfl, hd⟩ t⟩)
        refine ⟨κ1', ?_, h3⟩
        rw [e3.1, ← t.length]
        exact .dashed hl' e2 h2
  | @trailing i d st k tok j toks evs κ1 _ ih =>
    rintro _ ⟨h1⟩
    cases h1 with
    | @cons y y' l l' h t =>
      obtain ⟨i', d'⟩ := y'
      obtain ⟨rfl, hd⟩ := h
      obtain ⟨κ1', h2, h3⟩ := ih ⟨(_, d') :: l', k, .trailing j⟩ ⟨.cons ⟨rfl, hd⟩ t⟩
      refine ⟨κ1', ?_, h3⟩
      rw [← t.length]
      exact .trailing h2

/-! ## Constraints and values -/

theorem structOk_loose [SameDefault M.attr] {c c' : Core V} (h : LooseCore M c c') {os : Nat → List (Option Bytes)} {sub : Bool} (hs : StructOk c os sub) :
    StructOk c' os sub where
  required i f' hf' hr := by
    obtain ⟨f, hf, hl⟩ := h.get_some' hf'
    exact hs.required i f hf (hl.isRequired hr)
  requires i f' hf' ho x hx := by
    obtain ⟨f, hf, hl⟩ := h.get_some' hf'
    obtain ⟨j, g, hg, hi, hj⟩ := hs.requires i f hf ho x (hl.rel.requires x hx)
    obtain ⟨g', hg', hlg⟩ := h.get_some hg
    exact ⟨j, g', hg', by rw [hlg.ident, hi], hj⟩
  conflicts i f' hf' ho x hx j g' hg' hi := by
    obtain ⟨f, hf, hl⟩ := h.get_some' hf'
    obtain ⟨g, hg, hlg⟩ := h.get_some' hg'
    exact hs.conflicts i f hf ho x (hl.rel.conflictsWith x hx) j g hg (by rw [← hlg.ident, hi])
  exclusive i f' hf' ho he := by
    obtain ⟨f, hf, hl⟩ := h.get_some' hf'
    have := hs.exclusive i f hf ho (hl.rel.exclusive he)
    rw [h.length]
    exact this

theorem subRequired_loose {d d' : ArgsDef V} (h : LooseArgs M d d') : subRequired d' = subRequired d := by
  cases h with
  | mk _ _ hs => cases hs <;> rfl

theorem levelOk_loose [SameParser M] [SameDefault M.attr] {d d' : ArgsDef V} (h : LooseArgs M d d') {evs : List Event} {l : Nat} {sub : Bool} (hl : LevelOk evs l d sub) :
    LevelOk evs l d' sub where
  values s c' hc' i f' hf' := by
    obtain ⟨c, hc, h1⟩ := (structs_loose h).get_some' hc'
    obtain ⟨f, hf, h2⟩ := h1.get_some' hf'
    rw [h2.given]
    exact hl.values s c hc i f hf
  structs s c' hc' := by
    obtain ⟨c, hc, h1⟩ := (structs_loose h).get_some' hc'
    exact structOk_loose h1 (hl.structs s c hc)
  subcommand hr := hl.subcommand (by rw [← subRequired_loose h]; exact hr)

theorem allOk_loose [SameParser M] [SameDefault M.attr] {st st' : List (Entry V)} (h : All₂ (LooseEntry M) st st') {evs : List Event} {sub : Bool} (ha : AllOk evs st sub) :
    AllOk evs st' sub := by
  induction h generalizing sub with
  | nil => exact ha
  | @cons x x' l l' h t ih =>
    obtain ⟨i, d⟩ := x
    obtain ⟨i', d'⟩ := x'
    rw [AllOk, t.length]
    exact ⟨levelOk_loose h.2 ha.1, ih ha.2⟩

theorem outFields_loose [SameParser M] [SameDefault M.attr] {fs fs' : List (FieldInfo V)} (h : All₂ (LooseField M) fs fs') (os : Nat → List (Option Bytes)) (k : Nat) :
    outFields os k fs' = outFields os k fs := by
  induction h generalizing k with
  | nil => rfl
  | cons h _ ih => rw [outFields, outFields, h.fieldOut, h.ident, ih]

theorem outSub_loose {s s' : SubField V} (h : LooseSub M s s') (o : Option (Out V)) : outSub s' o = outSub s o := by
  cases h with
  | none => rfl
  | @some i opt vs vs' h => cases opt <;> cases o <;> rfl

mutual
theorem outArgs_loose [SameParser M] [SameDefault M.attr] {d d' : ArgsDef V} : LooseArgs M d d' → ∀ (os : Nat → Nat → List (Option Bytes)) (s : Nat) (sub : Option (Out V)),
    outArgs os s sub d' = outArgs os s sub d
  | .mk hc hf hs, os, s, sub => by
    rw [outArgs, outArgs, outFields_loose hc, outFlats_loose hf, outSub_loose hs]
theorem outFlats_loose [SameParser M] [SameDefault M.attr] {fl fl' : Flats V} : LooseFlats M fl fl' → ∀ (os : Nat → Nat → List (Option Bytes)) (s : Nat),
    outFlats os s fl' = outFlats os s fl
  | .nil, _, _ => rfl
  | .cons h hr, os, s => by
    rw [outFlats, outFlats, outArgs_loose h, outFlats_loose hr, (structs_loose h).length]
end

theorem outAll_loose [SameParser M] [SameDefault M.attr] {st st' : List (Entry V)} (h : All₂ (LooseEntry M) st st') (evs : List Event) (sub : Option (Out V)) :
    outAll evs st' sub = outAll evs st sub := by
  induction h generalizing sub with
  | nil => rfl
  | @cons x x' l l' h t ih =>
    obtain ⟨i, d⟩ := x
    obtain ⟨i', d'⟩ := x'
    obtain ⟨rfl, hd⟩ := h
    rw [outAll, outAll, t.length, outArgs_loose hd]
    cases outArgs (fun s i => occs evs ⟨l.length, s, i⟩) 0 sub d with
    | none => rfl
    | some o =>
      cases t with
      | nil => rfl
      | cons h t => exact ih _

theorem accepts_loose [Naming cx M] [SameParser M] [SameDefault M.attr] {d d' : ArgsDef V} (h : LooseArgs M d d') {argv0 : Bytes} {toks : List Bytes} {out : Out V}
    (ha : Accepts cx d argv0 toks out) : Accepts cx d' argv0 toks out := by
  obtain ⟨evs, κ, hr, hok, ho⟩ := ha
  obtain ⟨κ', hr', hl⟩ := reads_loose hr (start argv0 d') ⟨.cons ⟨rfl, h⟩ .nil⟩
  exact ⟨evs, κ', hr', allOk_loose hl.stack hok, by rw [outAll_loose hl.stack]; exact ho⟩

end Palc
