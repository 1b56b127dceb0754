import Verif.SpecRename
import Verif.Lemmas.Relax
/-! Definitions with renamed fields: the generated tables are the same, and what runs on them. -/

namespace Palc

open Spec

variable {V : Type} {cx : Cx V} {N : Str → Str → Prop}

namespace All₂
variable {α : Type} {R S : α → α → Prop} {l l' : List α}

theorem imp (h : All₂ R l l') (hi : ∀ x x', R x x' → S x x') : All₂ S l l' := by
  induction h with
  | nil => exact .nil
  | cons h _ ih => exact .cons (hi _ _ h) ih

theorem with_mem (h : All₂ R l l') : All₂ (fun x x' => x ∈ l ∧ x' ∈ l' ∧ R x x') l l' := by
  induction h with
  | nil => exact .nil
  | cons h _ ih =>
    refine .cons ⟨List.mem_cons_self, List.mem_cons_self, h⟩ (ih.imp ?_)
    intro x x' hx
    exact ⟨List.mem_cons_of_mem _ hx.1, List.mem_cons_of_mem _ hx.2.1, hx.2.2⟩

theorem take (h : All₂ R l l') (n : Nat) : All₂ R (l.take n) (l'.take n) := by
  induction h generalizing n with
  | nil => simp only [List.take_nil]; exact .nil
  | cons h _ ih =>
    cases n with
    | zero => exact .nil
    | succ n => exact .cons h (ih n)

theorem drop (h : All₂ R l l') (n : Nat) : All₂ R (l.drop n) (l'.drop n) := by
  induction h generalizing n with
  | nil => simp only [List.drop_nil]; exact .nil
  | cons h t ih =>
    cases n with
    | zero => exact .cons h t
    | succ n => exact ih n

theorem map_eq {β : Type} {g : α → β} (h : All₂ R l l') (hg : ∀ x x', R x x' → g x' = g x) : l'.map g = l.map g := by
  induction h with
  | nil => rfl
  | cons h _ ih => rw [List.map_cons, List.map_cons, hg _ _ h, ih]

theorem flatMap_eq {β : Type} {g : α → List β} (h : All₂ R l l') (hg : ∀ x x', R x x' → g x' = g x) : l'.flatMap g = l.flatMap g := by
  induction h with
  | nil => rfl
  | cons h _ ih => rw [List.flatMap_cons, List.flatMap_cons, hg _ _ h, ih]

theorem any_eq {g : α → Bool} (h : All₂ R l l') (hg : ∀ x x', R x x' → g x' = g x) : l'.any g = l.any g := by
  induction h with
  | nil => rfl
  | cons h _ ih => rw [List.any_cons, List.any_cons, hg _ _ h, ih]

theorem find₂ {p p' : α → Bool} (h : All₂ R l l') (hp : ∀ x x', R x x' → p' x' = p x) :
    (l.find? p = none ∧ l'.find? p' = none) ∨ ∃ x x', l.find? p = some x ∧ l'.find? p' = some x' ∧ R x x' := by
  induction h with
  | nil => left; exact ⟨rfl, rfl⟩
  | @cons x x' _ _ h _ ih =>
    rw [List.find?_cons, List.find?_cons, hp _ _ h]
    cases p x with
    | true => right; exact ⟨_, _, rfl, rfl, h⟩
    | false => exact ih

theorem zip_same {β : Type} (h : All₂ R l l') (k : List β) :
    All₂ (fun x x' : α × β => x'.2 = x.2 ∧ R x.1 x'.1) (l.zip k) (l'.zip k) := by
  induction h generalizing k with
  | nil => simp only [List.zip_nil_left]; exact .nil
  | cons h _ ih =>
    cases k with
    | nil => simp only [List.zip_nil_right]; exact .nil
    | cons b k => exact .cons ⟨rfl, h⟩ (ih k)
end All₂

theorem inj_of_nodup_map {α β : Type} {g : α → β} {l : List α} (h : (l.map g).Nodup) {a b : α} (ha : a ∈ l) (hb : b ∈ l) (he : g a = g b) : a = b := by
  induction l with
  | nil => cases ha
  | cons x l ih =>
    rw [List.map_cons, List.nodup_cons] at h
    rcases List.mem_cons.1 ha with rfl | ha'
    · rcases List.mem_cons.1 hb with rfl | hb'
      · rfl
      · exact absurd (List.mem_map.2 ⟨b, hb', he.symm⟩) h.1
    · rcases List.mem_cons.1 hb with rfl | hb'
      · exact absurd (List.mem_map.2 ⟨a, ha', he⟩) h.1
      · exact ih h.2 ha' hb'

/-! ## Fields -/

/-- A renamed field, without the resolved references. -/
structure PreAlike (N : Str → Str → Prop) (ρ : Str → Str) (f f' : FieldInfo V) : Prop where
  ident : f'.ident = ρ f.ident
  name : N f.ident f'.ident
  kind : f'.kind = f.kind
  parser : f'.parser = f.parser
  delimiter : f'.valueDelimiter = f.valueDelimiter
  encNames : f'.encNames = f.encNames
  attrs : f'.attrs = f.attrs
  required : f'.required = f.required
  default : f'.defaultValue = f.defaultValue
  exclusive : f'.exclusive = f.exclusive
  deps : f'.dependencies = f.dependencies.map ρ
  confs : f'.conflicts = f.conflicts.map ρ
  description : f'.description = f.description
  doc : f'.doc = f.doc
  hide : f'.hide = f.hide

/-- A renamed field. -/
structure AlikeField (N : Str → Str → Prop) (ρ : Str → Str) (f f' : FieldInfo V) : Prop extends PreAlike N ρ f f' where
  depsIdx : f.dependencies = [] ∨ f'.dependenciesIdx = f.dependenciesIdx
  confsIdx : f.conflicts = [] ∨ f'.conflictsIdx = f.conflictsIdx

/-- A struct with renamed fields. -/
structure AlikeCore (N : Str → Str → Prop) (c c' : Core V) : Prop where
  cnt : c'.namedCnt = c.namedCnt
  cm : c'.cmdMeta = c.cmdMeta
  ex : ∃ ρ : Str → Str, All₂ (AlikeField N ρ) c.fields c'.fields
    ∧ (∀ f ∈ c.fields, ∀ g ∈ c.fields, ρ f.ident = ρ g.ident → f.ident = g.ident)
    ∧ ∀ f ∈ c.fields, ∀ x : Str, x ∈ f.dependencies ∨ x ∈ f.conflicts → ∃ g ∈ c.fields, g.ident = x

mutual
/-- A definition with renamed fields. -/
inductive AlikeArgs (N : Str → Str → Prop) : ArgsDef V → ArgsDef V → Prop
  | mk {c c' : Core V} {fl fl' : Flats V} {s s' : SubField V} (hc : AlikeCore N c c') (hf : AlikeFlats N fl fl') (hs : AlikeSub N s s') :
      AlikeArgs N (.mk c fl s) (.mk c' fl' s')
inductive AlikeFlats (N : Str → Str → Prop) : Flats V → Flats V → Prop
  | nil : AlikeFlats N .nil .nil
  | cons {i i' : Str} {d d' : ArgsDef V} {r r' : Flats V} (hi : N i i') (h : AlikeArgs N d d') (hr : AlikeFlats N r r') :
      AlikeFlats N (.cons i d r) (.cons i' d' r')
inductive AlikeSub (N : Str → Str → Prop) : SubField V → SubField V → Prop
  | none : AlikeSub N .none .none
  | some {i i' : Str} {o : Bool} {vs vs' : Variants V} (hi : N i i') (h : AlikeVariants N vs vs') :
      AlikeSub N (.some i o vs) (.some i' o vs')
inductive AlikeVariants (N : Str → Str → Prop) : Variants V → Variants V → Prop
  | nil : AlikeVariants N .nil .nil
  | unit {i i' n : Str} {cm : Option CommandMeta} {vs vs' : Variants V} (hi : N i i') (h : AlikeVariants N vs vs') :
      AlikeVariants N (.cons (.unit i n cm) vs) (.cons (.unit i' n cm) vs')
  | args {i i' n : Str} {d d' : ArgsDef V} {vs vs' : Variants V} (hi : N i i') (hd : AlikeArgs N d d') (h : AlikeVariants N vs vs') :
      AlikeVariants N (.cons (.args i n d) vs) (.cons (.args i' n d') vs')
end

/-! ## The generated tables -/

section
variable {ρ : Str → Str}

theorem usageOf_alike {l l' : List (FieldInfo V)} (h : All₂ (AlikeField N ρ) l l') : usageOf l' = usageOf l := by
  unfold usageOf
  refine (h.filter (p := fun f => !f.hide) (fun f f' hx => by rw [hx.hide])).flatMap_eq (fun f f' hx => ?_)
  simp only [fieldUsage, usageFor, hx.attrs, hx.required, hx.description]

theorem helpOf_alike {l l' : List (FieldInfo V)} (h : All₂ (AlikeField N ρ) l l') : helpOf l' = helpOf l := by
  unfold helpOf
  refine (h.filter (p := fun f => !f.hide) (fun f f' hx => by rw [hx.hide])).flatMap_eq (fun f f' hx => ?_)
  simp only [helpFor, hx.doc, hx.default, hx.description]
end

section
variable {c c' : Core V} (h : AlikeCore N c c')
include h

theorem AlikeCore.descs : c'.descs = c.descs := by
  obtain ⟨ρ, hf, _, _⟩ := h.ex
  unfold Core.descs
  rw [hf.map_eq (fun f f' hx => hx.description)]

theorem AlikeCore.namedMap : c'.namedMap = c.namedMap := by
  obtain ⟨ρ, hf, _, _⟩ := h.ex
  unfold Core.namedMap Core.named
  rw [h.cnt, (hf.take c.namedCnt).flatMap_eq (fun f f' hx => by rw [hx.encNames, hx.attrs])]

theorem AlikeCore.positionalAttrs : c'.positional.map (·.attrs) = c.positional.map (·.attrs) := by
  obtain ⟨ρ, hf, _, _⟩ := h.ex
  unfold Core.positional
  rw [h.cnt, (hf.drop c.namedCnt).map_eq (fun f f' hx => hx.attrs)]

theorem AlikeCore.hasOptionalNamed : c'.hasOptionalNamed = c.hasOptionalNamed := by
  obtain ⟨ρ, hf, _, _⟩ := h.ex
  unfold Core.hasOptionalNamed Core.named
  rw [h.cnt, (hf.take c.namedCnt).any_eq (fun f f' hx => by rw [hx.required, hx.hide])]

theorem AlikeCore.initializers : c'.fields.map (·.initializer) = c.fields.map (·.initializer) := by
  obtain ⟨ρ, hf, _, _⟩ := h.ex
  exact hf.map_eq (fun f f' hx => by simp only [FieldInfo.initializer, hx.kind, hx.parser, hx.delimiter])

theorem AlikeCore.helpDisplay (hs : List HelpFn) :
    helpDisplay (some c') c'.cmdMeta hs = Palc.helpDisplay (some c) c.cmdMeta hs := by
  obtain ⟨ρ, hf, _, _⟩ := h.ex
  funext k
  have h1 := usageOf_alike (hf.take c.namedCnt)
  have h2 := usageOf_alike (hf.drop c.namedCnt)
  have h3 := helpOf_alike (hf.take c.namedCnt)
  have h4 := helpOf_alike (hf.drop c.namedCnt)
  unfold Palc.helpDisplay Core.named Core.positional
  simp only [h.cnt, h.cm, h1, h2, h3, h4]
end

mutual
theorem info_alike {d d' : ArgsDef V} : AlikeArgs N d d' → d'.info = d.info
  | .mk (c := c) (c' := c') (s := s) (s' := s') hc hf hs => by
    have ho : s'.isOptional = s.isOptional := by cases hs <;> rfl
    rw [ArgsDef.info, ArgsDef.info, flatInfos_alike hf, subInfo_alike hs, ho, hc.descs, hc.namedMap, hc.positionalAttrs, hc.hasOptionalNamed,
      hc.helpDisplay]
theorem flatInfos_alike {fl fl' : Flats V} : AlikeFlats N fl fl' → fl'.infos = fl.infos
  | .nil => rfl
  | .cons _ h hr => by rw [Flats.infos, Flats.infos, info_alike h, flatInfos_alike hr]
theorem subInfo_alike {s s' : SubField V} : AlikeSub N s s' → s'.info = s.info
  | .none => rfl
  | .some _ h => by rw [SubField.info, SubField.info, variantHelps_alike h, variantNames_alike h]
theorem variantHelps_alike {vs vs' : Variants V} : AlikeVariants N vs vs' → vs'.helps = vs.helps
  | .nil => rfl
  | .unit _ h => by rw [Variants.helps, Variants.helps, variantHelps_alike h, Variant.info, Variant.info]
  | .args _ hd h => by rw [Variants.helps, Variants.helps, variantHelps_alike h, Variant.info, Variant.info, info_alike hd]
theorem variantNames_alike {vs vs' : Variants V} : AlikeVariants N vs vs' → vs'.names = vs.names
  | .nil => rfl
  | .unit _ h => by rw [Variants.names, Variants.names, variantNames_alike h]; rfl
  | .args _ _ h => by rw [Variants.names, Variants.names, variantNames_alike h]; rfl
end

theorem hasSub_alike {d d' : ArgsDef V} (h : AlikeArgs N d d') : d'.hasSub = d.hasSub := by
  cases h with
  | mk hc hf hs => cases hs <;> rfl

/-! ## The derive macro -/

theorem primaryLong_written (i : Str) (m : ArgMeta V) : primaryLong cx i m = longWritten cx i m := by
  unfold primaryLong longWritten
  rcases m.long with _ | _ | _ <;> rfl

theorem primaryShort_written (i : Str) (m : ArgMeta V) : primaryShort i m = (shortWritten i m).join := by
  unfold primaryShort shortWritten
  rcases m.short with _ | _ | _ <;> simp

theorem isNamed_written (i : Str) (m : ArgMeta V) : m.isNamed = ((longWritten cx i m).isSome || (shortWritten i m).isSome) := by
  unfold ArgMeta.isNamed longWritten shortWritten
  cases m.long <;> cases m.short <;> rfl

theorem isNamed_renamed {ρ : Str → Str} {i : Str} {m m' : ArgMeta V} (h : RenamedArg cx ρ i m m') : m'.isNamed = m.isNamed := by
  rw [isNamed_written (cx := cx) (ρ i), isNamed_written (cx := cx) i, h.long, h.short]

theorem argField_alike {ρ : Str → Str} {i : Str} {ty : Ty V} {m m' : ArgMeta V} (hi : N i (ρ i)) (h : RenamedArg cx ρ i m m') :
    PreAlike N ρ (argField cx i ty m).2 (argField cx (ρ i) ty m').2 ∧ (argField cx (ρ i) ty m').1 = (argField cx i ty m).1 := by
  have hl : primaryLong cx (ρ i) m' = primaryLong cx i m := by rw [primaryLong_written, primaryLong_written, h.long]
  have hs : primaryShort (ρ i) m' = primaryShort i m := by rw [primaryShort_written, primaryShort_written, h.short]
  have hv : valueNameOf cx (ρ i) m' = valueNameOf cx i m := h.valueName
  have hn := isNamed_renamed h
  have hr := h.requires
  have hc := h.conflictsWith
  have rest := h.rest
  clear h
  generalize m'.long = a at rest
  generalize m'.short = b at rest
  generalize m'.valueName = c at rest
  generalize he : m'.requires = d at rest hr
  generalize hf : m'.conflictsWith = e at rest hc
  subst rest
  unfold argField
  simp only [hn, hl, hs, hv, longEncs, shortEncs, commonErrors]
  split
  · exact ⟨⟨rfl, hi, rfl, rfl, rfl, rfl, rfl, rfl, rfl, rfl, hr, hc, rfl, rfl, rfl⟩, rfl⟩
  · exact ⟨⟨rfl, hi, rfl, rfl, rfl, rfl, rfl, rfl, rfl, rfl, hr, hc, rfl, rfl, rfl⟩, rfl⟩

/-- Related states of the derive macro. -/
structure AlikeState (N : Str → Str → Prop) (ρ : Str → Str) (s s' : DState V) : Prop where
  named : All₂ (PreAlike N ρ) s.named s'.named
  positional : All₂ (PreAlike N ρ) s.positional s'.positional
  varArg : All₂ (PreAlike N ρ) s.varArg.toList s'.varArg.toList
  last : All₂ (PreAlike N ρ) s.last.toList s'.last.toList
  flats : AlikeFlats N (Flats.ofList s.flats) (Flats.ofList s'.flats)
  sub : AlikeSub N s.sub s'.sub
  seen : s'.seen = s.seen
  errors : s'.errors = s.errors

theorem alikeFlats_snoc {l l' : List (Str × ArgsDef V)} (h : AlikeFlats N (Flats.ofList l) (Flats.ofList l')) {i i' : Str} (hi : N i i')
    {d d' : ArgsDef V} (hd : AlikeArgs N d d') : AlikeFlats N (Flats.ofList (l ++ [(i, d)])) (Flats.ofList (l' ++ [(i', d')])) := by
  induction l generalizing l' with
  | nil =>
    cases l' with
    | nil => exact .cons hi hd .nil
    | cons x l' => cases h
  | cons x l ih =>
    cases l' with
    | nil => cases h
    | cons x' l' =>
      obtain ⟨j, e⟩ := x
      obtain ⟨j', e'⟩ := x'
      cases h with
      | cons h0 h1 h2 => exact .cons h0 h1 (ih h2)

theorem step_arg_alike {ρ : Str → Str} {s s' : DState V} (h : AlikeState N ρ s s') {i : Str} {ty : Ty V} {m m' : ArgMeta V} (hi : N i (ρ i))
    (ha : RenamedArg cx ρ i m m') : AlikeState N ρ (deriveStep cx s (.arg i ty m)) (deriveStep cx s' (.arg (ρ i) ty m')) := by
  obtain ⟨hf, he⟩ := argField_alike (ty := ty) hi ha
  have hn := isNamed_renamed ha
  have hl : m'.last = m.last := by rw [ha.rest]
  have ht : m'.trailingVarArg = m.trailingVarArg := by rw [ha.rest]
  have hk := hf.kind
  have hv := toList_isSome h.varArg
  have hla := toList_isSome h.last
  unfold deriveStep
  simp only [hn, hl, ht, hk, hv, he, hla, hf.encNames, h.seen, h.errors]
  split
  · split
    · exact ⟨h.named, h.positional, h.varArg, h.last, h.flats, h.sub, rfl, rfl⟩
    · exact ⟨h.named.append (.cons hf .nil), h.positional, h.varArg, h.last, h.flats, h.sub, rfl, rfl⟩
  · split
    · exact ⟨h.named, h.positional, h.varArg, .cons hf .nil, h.flats, h.sub, rfl, rfl⟩
    · split
      · exact ⟨h.named, h.positional, .cons hf .nil, h.last, h.flats, h.sub, rfl, rfl⟩
      · split
        · exact ⟨h.named, h.positional, h.varArg, h.last, h.flats, h.sub, rfl, rfl⟩
        · exact ⟨h.named, h.positional.append (.cons hf .nil), h.varArg, h.last, h.flats, h.sub, rfl, rfl⟩

theorem same_index {l : List (FieldInfo V)} (hn : (l.map (·.ident)).Nodup) {i j : Nat} {a b : FieldInfo V} (ha : l[i]? = some a)
    (hb : l[j]? = some b) (he : a.ident = b.ident) : i = j := by
  refine (List.getElem?_inj (l := l.map (·.ident)) ?_ hn).1 ?_
  · rw [List.length_map]; exact (List.getElem?_eq_some_iff.1 ha).1
  · rw [List.getElem?_map, List.getElem?_map, ha, hb, Option.map_some, Option.map_some, he]

/-- The references resolve to the same indexes. -/
theorem resolved_alike {c c' : Core V} {ρ : Str → Str} (h : All₂ (PreAlike N ρ) c.fields c'.fields) (hn : (c'.fields.map (·.ident)).Nodup)
    {ids : List Str} {o o' : Option (List Nat)} (ho : ResolvedOk c ids o) (ho' : ResolvedOk c' (ids.map ρ) o') : ids = [] ∨ o' = o := by
  by_cases h0 : ids = []
  · exact .inl h0
  right
  rcases ho with ⟨h1, _⟩ | ⟨ns, rfl, h2, h3⟩
  · exact absurd h1 h0
  rcases ho' with ⟨g1, _⟩ | ⟨ns', rfl, g2, g3⟩
  · exact absurd (List.map_eq_nil_iff.1 g1) h0
  rw [List.length_map] at g2
  have he : ns' = ns := by
    refine List.ext_getElem? fun k => ?_
    by_cases hk : k < ids.length
    · have e1 : ids[k]? = some ids[k] := List.getElem?_eq_getElem hk
      have e2 : ns[k]? = some (ns[k]'(by omega)) := List.getElem?_eq_getElem _
      have e3 : ns'[k]? = some (ns'[k]'(by omega)) := List.getElem?_eq_getElem _
      obtain ⟨a, a1, a2⟩ := h3 k _ _ e1 e2
      obtain ⟨b, b1, b2⟩ := g3 k (ρ ids[k]) _ (by rw [List.getElem?_map, e1]; rfl) e3
      obtain ⟨a', c1, c2⟩ := h.get_some a1
      have hid : a'.ident = b.ident := by rw [c2.ident, a2, b2]
      rw [e2, e3, same_index hn b1 c1 hid.symm]
    · rw [List.getElem?_eq_none (by omega), List.getElem?_eq_none (by omega)]
  rw [he]

theorem resolved_mem {c : Core V} {ids : List Str} {o : Option (List Nat)} (ho : ResolvedOk c ids o) {x : Str} (hx : x ∈ ids) :
    ∃ g ∈ c.fields, g.ident = x := by
  rcases ho with ⟨h1, _⟩ | ⟨ns, rfl, h2, h3⟩
  · subst h1; cases hx
  · obtain ⟨k, hk, e⟩ := List.getElem_of_mem hx
    have e1 : ids[k]? = some x := by rw [List.getElem?_eq_getElem hk, e]
    have e2 : ns[k]? = some (ns[k]'(by omega)) := List.getElem?_eq_getElem _
    obtain ⟨g, g1, g2⟩ := h3 k _ _ e1 e2
    exact ⟨g, List.mem_of_getElem? g1, g2⟩

theorem assignIndexes_alike {ρ : Str → Str} {l l' : List (FieldInfo V)} (h : All₂ (PreAlike N ρ) l l') :
    All₂ (PreAlike N ρ) (assignIndexes l) (assignIndexes l') :=
  (h.zipIdx 0).map (S := PreAlike N ρ)
    (g := fun x => { x.1 with attrs := ArgAttrs.set x.1.attrs (ArgAttrs.index x.2) true })
    (g' := fun x => { x.1 with attrs := ArgAttrs.set x.1.attrs (ArgAttrs.index x.2) true })
    (fun x x' hx => ⟨hx.2.ident, hx.2.name, hx.2.kind, hx.2.parser, hx.2.delimiter, hx.2.encNames, by
      show ArgAttrs.set x'.1.attrs (ArgAttrs.index x'.2) true = ArgAttrs.set x.1.attrs (ArgAttrs.index x.2) true
      rw [hx.2.attrs, hx.1], hx.2.required, hx.2.default,
      hx.2.exclusive, hx.2.deps, hx.2.confs, hx.2.description, hx.2.doc, hx.2.hide⟩)

mutual
theorem renamed_alike {d d' : ArgsDef V} : Renamed cx N d d' → AlikeArgs N d d'
  | .mk (ρ := ρ) (cm := cm) (ds := ds) (ds' := ds') fields hd hd' => by
    have h := renamedDecls_alike fields {} {} ⟨.nil, .nil, .nil, .nil, .nil, .none, rfl, rfl⟩
    have key : ∀ {ds : List (FieldDecl V)} {d : ArgsDef V}, deriveArgs cx cm ds = .ok d →
        d = .mk { fields := ((assignIndexes (ds.foldl (deriveStep cx) {}).all).map (resolveField (assignIndexes (ds.foldl (deriveStep cx) {}).all))).map (·.2),
                  namedCnt := (ds.foldl (deriveStep cx) {}).named.length, cmdMeta := cm }
          (Flats.ofList (ds.foldl (deriveStep cx) {}).flats) (ds.foldl (deriveStep cx) {}).sub := by
      intro ds d h
      unfold deriveArgs at h
      split at h
      · cases h
      · obtain ⟨_, h⟩ := ite_ok h
        cases h
        rfl
    have k := key hd
    have k' := key hd'
    subst k k'
    have w := (deriveArgs_ok hd).wf
    have w' := (deriveArgs_ok hd').wf
    refine .mk ?_ h.flats h.sub
    have hall : All₂ (PreAlike N ρ) (ds.foldl (deriveStep cx) {}).all (ds'.foldl (deriveStep cx) {}).all :=
      ((h.named.append h.positional).append h.varArg).append h.last
    have h2 := assignIndexes_alike hall
    have h3 : ∀ D D' : List (FieldInfo V), All₂ (PreAlike N ρ)
        ((assignIndexes (ds.foldl (deriveStep cx) {}).all).map (resolveField D) |>.map (·.2))
        ((assignIndexes (ds'.foldl (deriveStep cx) {}).all).map (resolveField D') |>.map (·.2)) := by
      intro D D'
      rw [List.map_map, List.map_map]
      exact All₂.map (R := PreAlike N ρ) h2 (fun x x' hx => ⟨hx.ident, hx.name, hx.kind, hx.parser, hx.delimiter, hx.encNames, hx.attrs,
        hx.required, hx.default, hx.exclusive, hx.deps, hx.confs, hx.description, hx.doc, hx.hide⟩)
    have h4 := h3 (assignIndexes (ds.foldl (deriveStep cx) {}).all) (assignIndexes (ds'.foldl (deriveStep cx) {}).all)
    refine ⟨h.named.length, rfl, ρ, ?_, ?_, ?_⟩
    · refine h4.with_mem.imp ?_
      rintro f f' ⟨hf, hf', hx⟩
      have d1 := w'.depsOk f' hf'
      have d2 := w'.confsOk f' hf'
      rw [hx.deps] at d1
      rw [hx.confs] at d2
      exact ⟨hx, resolved_alike h4 w'.idents (w.depsOk f hf) d1, resolved_alike h4 w'.idents (w.confsOk f hf) d2⟩
    · intro f hf g hg he
      obtain ⟨i, hi, rfl⟩ := List.getElem_of_mem hf
      obtain ⟨j, hj, rfl⟩ := List.getElem_of_mem hg
      obtain ⟨f', a1, a2⟩ := h4.get_some (List.getElem?_eq_getElem hi)
      obtain ⟨g', b1, b2⟩ := h4.get_some (List.getElem?_eq_getElem hj)
      have hid : f'.ident = g'.ident := by rw [a2.ident, b2.ident]; exact he
      have hij := same_index w'.idents a1 b1 hid
      subst hij
      rfl
    · intro f hf x hx
      rcases hx with hx | hx
      · exact resolved_mem (w.depsOk f hf) hx
      · exact resolved_mem (w.confsOk f hf) hx
theorem renamedDecls_alike {ρ : Str → Str} {ds ds' : List (FieldDecl V)} : RenamedDecls cx N ρ ds ds' → ∀ s s' : DState V, AlikeState N ρ s s' →
    AlikeState N ρ (ds.foldl (deriveStep cx) s) (ds'.foldl (deriveStep cx) s')
  | .nil, _, _, h => h
  | .arg hi ha t, s, s', h => renamedDecls_alike t _ _ (step_arg_alike h hi ha)
  | .flatten (i := i) hi he t, s, s', h => by
    refine renamedDecls_alike t _ _ ?_
    have he' := renamed_alike he
    exact ⟨h.named, h.positional, h.varArg, h.last, alikeFlats_snoc h.flats hi he', h.sub, h.seen, by
      simp only [deriveStep, h.errors, info_alike he', hasSub_alike he']⟩
  | .subcommand (vs := vs) (vs' := vs') hi hv t, s, s', h => by
    refine renamedDecls_alike t _ _ ?_
    have hv' := renamedVariants_alike hv
    obtain ⟨h1, h2, h3, h4, h5, h6, h7, h8⟩ := h
    cases s
    cases s'
    simp only at h1 h2 h3 h4 h5 h6 h7 h8
    cases h6 with
    | none => exact ⟨h1, h2, h3, h4, h5, .some hi hv', h7, h8⟩
    | some hj q => exact ⟨h1, h2, h3, h4, h5, .some hj q, h7, by simp only [deriveStep, h8]⟩
theorem renamedVariants_alike {vs vs' : Variants V} : RenamedVariants cx N vs vs' → AlikeVariants N vs vs'
  | .nil => .nil
  | .unit hi h => .unit hi (renamedVariants_alike h)
  | .args hi hd h => .args hi (renamed_alike hd) (renamedVariants_alike h)
end

/-! ## Renamed structs are accepted -/

section
variable {ρ : Str → Str}

theorem lookupIdx_alike {l l' : List (FieldInfo V)} (h : All₂ (PreAlike N ρ) l l')
    (hinj : ∀ f ∈ l, ∀ g ∈ l, ρ f.ident = ρ g.ident → f.ident = g.ident) {i : Str} {n : Nat} (hl : lookupIdx l i = some n) :
    lookupIdx l' (ρ i) = some n := by
  unfold lookupIdx at hl ⊢
  obtain ⟨g, hg, rfl⟩ := Option.map_eq_some_iff.1 hl
  have hgi : g.ident = i := by simpa using List.find?_some hg
  have hgm := List.mem_of_find?_eq_some hg
  rcases h.with_mem.find₂ (p := fun x : FieldInfo V => decide (x.ident = i)) (p' := fun x : FieldInfo V => decide (x.ident = ρ i)) (fun x x' hx => by
    rw [hx.2.2.ident]
    by_cases hc : x.ident = i
    · simp [hc]
    · rw [decide_eq_false hc, decide_eq_false (fun hcc => hc ((hinj x hx.1 g hgm (by rw [hcc, hgi])).trans hgi))]) with ⟨h1, _⟩ | ⟨x, x', h1, h2, h3⟩
  · rw [h1] at hg; cases hg
  · rw [h1] at hg
    cases hg
    rw [h2, Option.map_some, h3.2.2.attrs]

theorem resolveAll_alike {l l' : List (FieldInfo V)} (h : All₂ (PreAlike N ρ) l l')
    (hinj : ∀ f ∈ l, ∀ g ∈ l, ρ f.ident = ρ g.ident → f.ident = g.ident) :
    ∀ {ids : List Str} {ns : List Nat}, resolveAll l ids = some ns → resolveAll l' (ids.map ρ) = some ns
  | [], _, hr => hr
  | i :: ids, ns, hr => by
    simp only [resolveAll, List.map_cons] at hr ⊢
    cases hl : lookupIdx l i with
    | none => rw [hl] at hr; cases hr
    | some n =>
      rw [hl] at hr
      obtain ⟨k, hk, rfl⟩ := Option.map_eq_some_iff.1 hr
      rw [lookupIdx_alike h hinj hl, resolveAll_alike h hinj hk]
      rfl

theorem resolveRefs_alike {l l' : List (FieldInfo V)} (h : All₂ (PreAlike N ρ) l l')
    (hinj : ∀ f ∈ l, ∀ g ∈ l, ρ f.ident = ρ g.ident → f.ident = g.ident) {ids : List Str} (hr : (resolveRefs l ids).1 = []) :
    (resolveRefs l' (ids.map ρ)).1 = [] := by
  unfold resolveRefs at hr ⊢
  by_cases h0 : ids = []
  · subst h0; rfl
  · rw [if_neg h0] at hr
    rw [if_neg (fun hc => h0 (List.map_eq_nil_iff.1 hc))]
    cases ha : resolveAll l ids with
    | none => rw [ha] at hr; cases hr
    | some ns => rw [resolveAll_alike h hinj ha]

theorem identsDistinct_map {ids : List Str} (h : identsDistinct ids = true) (hinj : ∀ i ∈ ids, ∀ j ∈ ids, ρ i = ρ j → i = j) :
    identsDistinct (ids.map ρ) = true := by
  induction ids with
  | nil => rfl
  | cons i ids ih =>
    simp only [identsDistinct, List.map_cons, Bool.and_eq_true, Bool.not_eq_true', List.contains_eq_mem, decide_eq_false_iff_not] at h ⊢
    refine ⟨fun hm => ?_, ih h.2 (fun a ha b hb => hinj a (List.mem_cons_of_mem _ ha) b (List.mem_cons_of_mem _ hb))⟩
    obtain ⟨j, hj, he⟩ := List.mem_map.1 hm
    exact h.1 (hinj j (List.mem_cons_of_mem _ hj) i List.mem_cons_self he ▸ hj)

theorem renamedDecls_idents {ds ds' : List (FieldDecl V)} : RenamedDecls cx N ρ ds ds' → ds'.map (·.ident) = (ds.map (·.ident)).map ρ
  | .nil => rfl
  | .arg _ _ t => by rw [List.map_cons, List.map_cons, List.map_cons, renamedDecls_idents t]; rfl
  | .flatten _ _ t => by rw [List.map_cons, List.map_cons, List.map_cons, renamedDecls_idents t]; rfl
  | .subcommand _ _ t => by rw [List.map_cons, List.map_cons, List.map_cons, renamedDecls_idents t]; rfl

theorem step_idents (s : DState V) (x : FieldDecl V) : ∀ f ∈ (deriveStep cx s x).all, f ∈ s.all ∨ f.ident = x.ident := by
  intro f hf
  unfold deriveStep DState.all at hf
  unfold DState.all
  cases x with
  | subcommand i o vs => left; simp only at hf; split at hf <;> exact hf
  | flatten i d => left; exact hf
  | arg i ty m =>
    have hid : (argField cx i ty m).2.ident = i := by unfold argField; simp only; split <;> rfl
    simp only at hf
    simp only [FieldDecl.ident]
    split at hf
    · split at hf
      · left; exact hf
      · simp only [List.mem_append, List.mem_singleton] at hf ⊢
        rcases hf with (((hf | rfl) | hf) | hf) | hf <;> simp_all
    · split at hf
      · simp only [List.mem_append, Option.toList_some, List.mem_singleton] at hf ⊢
        rcases hf with ((hf | hf) | hf) | rfl <;> simp_all
      · split at hf
        · simp only [List.mem_append, Option.toList_some, List.mem_singleton] at hf ⊢
          rcases hf with ((hf | hf) | rfl) | hf <;> simp_all
        · split at hf
          · left; exact hf
          · simp only [List.mem_append, List.mem_singleton] at hf ⊢
            rcases hf with ((hf | hf | rfl) | hf) | hf <;> simp_all

theorem foldl_idents (ds : List (FieldDecl V)) : ∀ s : DState V, ∀ f ∈ (ds.foldl (deriveStep cx) s).all, f ∈ s.all ∨ f.ident ∈ ds.map (·.ident) := by
  induction ds with
  | nil => intro s f hf; exact .inl hf
  | cons x ds ih =>
    intro s f hf
    rcases ih _ f hf with h | h
    · rcases step_idents s x f h with h | h
      · exact .inl h
      · right; rw [List.map_cons, h]; exact List.mem_cons_self
    · right; rw [List.map_cons]; exact List.mem_cons_of_mem _ h

theorem flats_isEmpty {l l' : List (Str × ArgsDef V)} (h : AlikeFlats N (Flats.ofList l) (Flats.ofList l')) : l'.isEmpty = l.isEmpty := by
  cases l <;> cases l' <;> first | rfl | cases h

theorem derive_renamed {cm : Option CommandMeta} {ds ds' : List (FieldDecl V)} {d : ArgsDef V} (fields : RenamedDecls cx N ρ ds ds')
    (hinj : ∀ x ∈ ds, ∀ y ∈ ds, ρ x.ident = ρ y.ident → x.ident = y.ident) (hd : deriveArgs cx cm ds = .ok d) :
    ∃ d', deriveArgs cx cm ds' = .ok d' := by
  have h := renamedDecls_alike fields {} {} ⟨.nil, .nil, .nil, .nil, .nil, .none, rfl, rfl⟩
  have hids := renamedDecls_idents fields
  have hlen : ds'.length = ds.length := by simpa using congrArg List.length hids
  have hall : All₂ (PreAlike N ρ) (ds.foldl (deriveStep cx) {}).all (ds'.foldl (deriveStep cx) {}).all :=
    ((h.named.append h.positional).append h.varArg).append h.last
  have h2 := assignIndexes_alike hall
  have hij : ∀ i ∈ ds.map (·.ident), ∀ j ∈ ds.map (·.ident), ρ i = ρ j → i = j := by
    intro i hi j hj he
    obtain ⟨x, hx, rfl⟩ := List.mem_map.1 hi
    obtain ⟨y, hy, rfl⟩ := List.mem_map.1 hj
    exact hinj x hx y hy he
  have hfi : ∀ f ∈ assignIndexes (ds.foldl (deriveStep cx) {}).all, f.ident ∈ ds.map (·.ident) := by
    intro f hf
    obtain ⟨⟨g, k⟩, hg, rfl⟩ := List.mem_map.1 hf
    have hg' : g ∈ (ds.foldl (deriveStep cx) {}).all := (List.mem_zipIdx' hg).2 ▸ List.getElem_mem _
    rcases foldl_idents ds {} g hg' with hc | hc
    · cases hc
    · exact hc
  have hinj' : ∀ f ∈ assignIndexes (ds.foldl (deriveStep cx) {}).all, ∀ g ∈ assignIndexes (ds.foldl (deriveStep cx) {}).all,
      ρ f.ident = ρ g.ident → f.ident = g.ident := fun f hf g hg => hij _ (hfi f hf) _ (hfi g hg)
  unfold deriveArgs at hd ⊢
  rw [hlen]
  split at hd
  · cases hd
  rename_i hle
  rw [if_neg hle]
  obtain ⟨he, _⟩ := ite_ok hd
  simp only [List.append_eq_nil_iff] at he
  obtain ⟨⟨⟨he, hres⟩, hexc⟩, hid⟩ := he
  have hid' : identsDistinct (ds.map (·.ident)) = true := by
    refine Classical.byContradiction fun hne => ?_
    rw [if_neg hne] at hid
    simp at hid
  refine ⟨_, if_pos ?_⟩
  simp only [List.append_eq_nil_iff]
  refine ⟨⟨⟨h.errors.trans he, ?_⟩, ?_⟩, ?_⟩
  · rw [List.flatMap_eq_nil_iff] at hres ⊢
    intro x hx
    obtain ⟨f', hf', rfl⟩ := List.mem_map.1 hx
    obtain ⟨k, hk⟩ := List.getElem?_of_mem hf'
    obtain ⟨f, hf, hff⟩ := All₂.get_some' h2 hk
    have h0 := hres _ (List.mem_map.2 ⟨f, List.mem_of_getElem? hf, rfl⟩)
    simp only [resolveField, List.append_eq_nil_iff] at h0 ⊢
    rw [hff.deps, hff.confs]
    exact ⟨resolveRefs_alike h2 hinj' h0.1, resolveRefs_alike h2 hinj' h0.2⟩
  · have e1 : (assignIndexes (ds'.foldl (deriveStep cx) {}).all).any (·.exclusive) = (assignIndexes (ds.foldl (deriveStep cx) {}).all).any (·.exclusive) :=
      h2.any_eq (fun f f' hx => hx.exclusive)
    rw [flats_isEmpty h.flats]
    unfold DState.all at e1
    rw [e1]
    exact hexc
  · rw [hids, if_pos (identsDistinct_map hid' hij)]
end

end Palc
