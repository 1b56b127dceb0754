import Verif.SpecTitle
import Verif.Lemmas.Style
/-! Definitions with other container attributes of flattened structs: the generated tables, and the commands that are entered. -/

namespace Palc

open Spec

variable {V : Type} {cx : Cx V}

mutual
/-- A definition with other container attributes of flattened structs. -/
inductive TitleArgs : (flat : Bool) → ArgsDef V → ArgsDef V → Prop
  | mk {flat : Bool} {c : Core V} {cm' : Option CommandMeta} {fl fl' : Flats V} {s s' : SubField V} (own : flat = false → cm' = c.cmdMeta)
      (hf : TitleFlats fl fl') (hs : TitleSub s s') : TitleArgs flat (.mk c fl s) (.mk { c with cmdMeta := cm' } fl' s')
inductive TitleFlats : Flats V → Flats V → Prop
  | nil : TitleFlats .nil .nil
  | cons {i : Str} {d d' : ArgsDef V} {r r' : Flats V} (h : TitleArgs true d d') (hr : TitleFlats r r') : TitleFlats (.cons i d r) (.cons i d' r')
inductive TitleSub : SubField V → SubField V → Prop
  | none : TitleSub .none .none
  | some {i : Str} {o : Bool} {vs vs' : Variants V} (h : TitleVariants vs vs') : TitleSub (.some i o vs) (.some i o vs')
inductive TitleVariants : Variants V → Variants V → Prop
  | nil : TitleVariants .nil .nil
  | unit {i n : Str} {cm : Option CommandMeta} {vs vs' : Variants V} (h : TitleVariants vs vs') :
      TitleVariants (.cons (.unit i n cm) vs) (.cons (.unit i n cm) vs')
  | args {i n : Str} {d d' : ArgsDef V} {vs vs' : Variants V} (hd : TitleArgs false d d') (h : TitleVariants vs vs') :
      TitleVariants (.cons (.args i n d) vs) (.cons (.args i n d') vs')
end

/-! ## The derive macro -/

structure TitleState (s s' : DState V) : Prop where
  flats : TitleFlats (Flats.ofList s.flats) (Flats.ofList s'.flats)
  sub : TitleSub s.sub s'.sub
  rest : s' = { s with flats := s'.flats, sub := s'.sub }

theorem titleFlats_snoc {l l' : List (Str × ArgsDef V)} (h : TitleFlats (Flats.ofList l) (Flats.ofList l')) {i : Str} {d d' : ArgsDef V}
    (hd : TitleArgs true d d') : TitleFlats (Flats.ofList (l ++ [(i, d)])) (Flats.ofList (l' ++ [(i, d')])) := by
  induction l generalizing l' with
  | nil =>
    cases l' with
    | nil => exact .cons hd .nil
    | cons x l' => cases h
  | cons x l ih =>
    cases l' with
    | nil => cases h
    | cons x' l' =>
      obtain ⟨j, e⟩ := x
      obtain ⟨j', e'⟩ := x'
      cases h with
      | cons h1 h2 => exact .cons h1 (ih h2)

theorem step_arg_title {s s' : DState V} (h : TitleState s s') (i : Str) (ty : Ty V) (m : ArgMeta V) :
    TitleState (deriveStep cx s (.arg i ty m)) (deriveStep cx s' (.arg i ty m)) := by
  obtain ⟨hf, hs, hr⟩ := h
  rw [hr]
  unfold deriveStep
  dsimp only
  split
  · split <;> exact ⟨hf, hs, rfl⟩
  · split
    · exact ⟨hf, hs, rfl⟩
    · split
      · exact ⟨hf, hs, rfl⟩
      · split <;> exact ⟨hf, hs, rfl⟩

theorem flatten_title {flat : Bool} {d d' : ArgsDef V} (h : TitleArgs flat d d') :
    d'.info.positionalLen = d.info.positionalLen ∧ d'.hasSub = d.hasSub := by
  cases h with
  | mk _ _ hs => exact ⟨by rw [ArgsDef.info, ArgsDef.info]; rfl, by cases hs <;> rfl⟩

theorem derived_core {cm : Option CommandMeta} {ds : List (FieldDecl V)} {d : ArgsDef V} (h : deriveArgs cx cm ds = .ok d) :
    d = .mk { fields := ((assignIndexes (ds.foldl (deriveStep cx) {}).all).map (resolveField (assignIndexes (ds.foldl (deriveStep cx) {}).all))).map (·.2),
              namedCnt := (ds.foldl (deriveStep cx) {}).named.length, cmdMeta := cm }
      (Flats.ofList (ds.foldl (deriveStep cx) {}).flats) (ds.foldl (deriveStep cx) {}).sub := by
  unfold deriveArgs at h
  split at h
  · cases h
  · obtain ⟨_, h⟩ := ite_ok h
    cases h
    rfl

mutual
theorem retitled_args {flat : Bool} {d d' : ArgsDef V} : Retitled cx flat d d' → TitleArgs flat d d'
  | .mk (ds := ds) (ds' := ds') own fields hd hd' => by
    have h := retitledDecls_state fields {} {} ⟨.nil, .none, rfl⟩
    rw [derived_core hd, derived_core hd']
    have hall : (ds'.foldl (deriveStep cx) {}).all = (ds.foldl (deriveStep cx) {}).all := by rw [h.rest]; rfl
    have hn : (ds'.foldl (deriveStep cx) {}).named = (ds.foldl (deriveStep cx) {}).named := by rw [h.rest]
    rw [hall, hn]
    exact .mk (c := { fields := _, namedCnt := _, cmdMeta := _ }) own h.flats h.sub
theorem retitledDecls_state {ds ds' : List (FieldDecl V)} : RetitledDecls cx ds ds' → ∀ s s' : DState V, TitleState s s' →
    TitleState (ds.foldl (deriveStep cx) s) (ds'.foldl (deriveStep cx) s')
  | .nil, _, _, h => h
  | .arg t, s, s', h => retitledDecls_state t _ _ (step_arg_title h _ _ _)
  | .flatten he t, s, s', h => by
    refine retitledDecls_state t _ _ ⟨titleFlats_snoc h.flats (retitled_args he), h.sub, ?_⟩
    obtain ⟨e1, e2⟩ := flatten_title (retitled_args he)
    unfold deriveStep
    dsimp only
    rw [h.rest, e1, e2]
  | .subcommand (vs := vs) (vs' := vs') hv t, s, s', h => by
    refine retitledDecls_state t _ _ ?_
    have hv' := retitledVariants_variants hv
    obtain ⟨h1, h2, h3⟩ := h
    rw [h3]
    cases s
    cases s'
    simp only at h1 h2 h3 ⊢
    cases h2 with
    | none => exact ⟨h1, .some hv', rfl⟩
    | some q => exact ⟨h1, .some q, rfl⟩
theorem retitledVariants_variants {vs vs' : Variants V} : RetitledVariants cx vs vs' → TitleVariants vs vs'
  | .nil => .nil
  | .unit h => .unit (retitledVariants_variants h)
  | .args hd h => .args (retitled_args hd) (retitledVariants_variants h)
end

/-! ## The generated tables -/

mutual
theorem info_title {flat : Bool} {d d' : ArgsDef V} : TitleArgs flat d d' →
    (∀ k : Nat, k < 4 → d'.info.help k = d.info.help k) ∧ d'.info.hasOptionalNamed = d.info.hasOptionalNamed
      ∧ (flat = false → d'.info = d.info)
  | .mk (c := c) (cm' := cm') (fl := fl) (fl' := fl') (s := s) (s' := s') own hf hs => by
    obtain ⟨f1, f2⟩ := flatInfos_title hf
    have f2' := f2 c.hasOptionalNamed
    have hc : ({ c with cmdMeta := cm' } : Core V).hasOptionalNamed = c.hasOptionalNamed := rfl
    refine ⟨?_, ?_, ?_⟩
    · intro k hk
      rw [ArgsDef.info, ArgsDef.info]
      simp only [ArgsInfo.new]
      have hk' := f1 k hk
      rcases k with _ | _ | _ | _ | k
      · simp only [helpDisplay, hk']; rfl
      · simp only [helpDisplay, hk']; rfl
      · simp only [helpDisplay, hk']; rfl
      · simp only [helpDisplay, hk']; rfl
      · omega
    · rw [ArgsDef.info, ArgsDef.info]
      simp only [ArgsInfo.new, hc, f2']
    · intro ht
      have ho : s'.isOptional = s.isOptional := by cases hs <;> rfl
      have hm := own ht
      subst hm
      have hd : helpDisplay (some c) c.cmdMeta (fl'.infos.map (·.help)) = helpDisplay (some c) c.cmdMeta (fl.infos.map (·.help)) := by
        funext k
        rcases k with _ | _ | _ | _ | _ | _ | k
        · simp only [helpDisplay, f1 0 (by omega)]
        · simp only [helpDisplay, f1 1 (by omega)]
        · simp only [helpDisplay, f1 2 (by omega)]
        · simp only [helpDisplay, f1 3 (by omega)]
        · rfl
        · rfl
        · rfl
      rw [ArgsDef.info, ArgsDef.info]
      simp only [ArgsInfo.new, subInfo_title hs, ho, f2', hd]
theorem flatInfos_title {fl fl' : Flats V} : TitleFlats fl fl' →
    (∀ k : Nat, k < 4 → (fl'.infos.map (·.help)).flatMap (fun h => h k) = (fl.infos.map (·.help)).flatMap (fun h => h k))
    ∧ ∀ b : Bool, fl'.infos.foldl (fun b i => b || i.hasOptionalNamed) b = fl.infos.foldl (fun b i => b || i.hasOptionalNamed) b
  | .nil => ⟨fun _ _ => rfl, fun _ => rfl⟩
  | .cons h hr => by
    obtain ⟨h1, h2, _⟩ := info_title h
    obtain ⟨r1, r2⟩ := flatInfos_title hr
    refine ⟨fun k hk => ?_, fun b => ?_⟩
    · rw [Flats.infos, Flats.infos, List.map_cons, List.map_cons, List.flatMap_cons, List.flatMap_cons, h1 k hk, r1 k hk]
    · rw [Flats.infos, Flats.infos, List.foldl_cons, List.foldl_cons, h2, r2]
theorem subInfo_title {s s' : SubField V} : TitleSub s s' → s'.info = s.info
  | .none => rfl
  | .some h => by rw [SubField.info, SubField.info, variantHelps_title h, variantNames_title h]
theorem variantHelps_title {vs vs' : Variants V} : TitleVariants vs vs' → vs'.helps = vs.helps
  | .nil => rfl
  | .unit h => by rw [Variants.helps, Variants.helps, variantHelps_title h]
  | .args hd h => by rw [Variants.helps, Variants.helps, variantHelps_title h, Variant.info, Variant.info, (info_title hd).2.2 rfl]
theorem variantNames_title {vs vs' : Variants V} : TitleVariants vs vs' → vs'.names = vs.names
  | .nil => rfl
  | .unit h => by rw [Variants.names, Variants.names, variantNames_title h]
  | .args _ h => by rw [Variants.names, Variants.names, variantNames_title h]; rfl
end

/-! ## Commands -/

/-- The same subcommand. -/
structure TitleVariant (v v' : Variant V) : Prop where
  name : v'.name = v.name
  args : TitleArgs false (variantDef v) (variantDef v')

theorem variantList_title {vs vs' : Variants V} : TitleVariants vs vs' → All₂ TitleVariant (variantList vs) (variantList vs')
  | .nil => .nil
  | .unit (cm := cm) h => .cons ⟨rfl, TitleArgs.mk (c := { fields := [], namedCnt := 0, cmdMeta := cm }) (fun _ => rfl) .nil .none⟩ (variantList_title h)
  | .args hd h => .cons ⟨rfl, hd⟩ (variantList_title h)

theorem subVariants_title {flat : Bool} {d d' : ArgsDef V} (h : TitleArgs flat d d') : All₂ TitleVariant (subVariants d) (subVariants d') := by
  cases h with
  | mk _ _ hs =>
    cases hs with
    | none => exact .nil
    | some h => exact variantList_title h

theorem selected_title {flat : Bool} {d d' : ArgsDef V} (h : TitleArgs flat d d') {v v' : Variant V} (hv : Selected d v) (hv' : Selected d' v')
    (hn : v'.name = v.name) : TitleVariant v v' := by
  have hm : searched d (enc v.name) = some v := mSub_variant hv
  have hm' : searched d' (enc v'.name) = some v' := mSub_variant hv'
  have hl := subVariants_title h
  rw [hn] at hm'
  cases h with
  | mk _ _ hs =>
    cases hs with
    | none => simp [searched, subOf, SubField.info] at hm
    | @some i o vs vs' hvs =>
      simp only [searched, subOf, SubField.info, SubcmdInfo.search, variantNames_title hvs] at hm hm'
      split at hm
      · cases hm
      · rename_i hx
        rw [hx] at hm'
        obtain ⟨w, h1, h2⟩ := hl.get_some hm
        have hm' := h1.symm.trans hm'
        cases hm'
        exact h2

/-- The entered commands: each is a subcommand of the one before. -/
inductive Linked (argv0 : Bytes) (d : ArgsDef V) : List (Entry V) → Prop
  | root : Linked argv0 d (start argv0 d).stack
  | sub {i : CmdId} {e : ArgsDef V} {st : List (Entry V)} {v : Variant V} (hv : Selected e v) (h : Linked argv0 d ((i, e) :: st)) :
      Linked argv0 d ((⟨variantIdent v, v.name⟩, variantDef v) :: (i, e) :: st)

theorem step_linked {argv0 : Bytes} {d : ArgsDef V} {κ κ1 : Ctx V} {toks rest : Toks} {evs : List Event} (h : Step cx κ toks evs κ1 rest)
    (hl : Linked argv0 d κ.stack) : Linked argv0 d κ1.stack := by
  cases h
  case sub hv _ => exact .sub hv hl
  all_goals exact hl

theorem steps_linked {argv0 : Bytes} {d : ArgsDef V} {κ κ1 : Ctx V} {toks rest : Toks} {evs : List Event} (h : Steps cx κ toks evs κ1 rest)
    (hl : Linked argv0 d κ.stack) : Linked argv0 d κ1.stack := by
  induction h with
  | refl => exact hl
  | step h _ ih => exact ih (step_linked h hl)

theorem linked_title {argv0 : Bytes} {d d' : ArgsDef V} (h : TitleArgs false d d') {st st' : List (Entry V)} (hl : Linked argv0 d st)
    (hl' : Linked argv0 d' st') (hn : st'.map (·.1) = st.map (·.1)) : All₂ (fun x x' : Entry V => x'.1 = x.1 ∧ TitleArgs false x.2 x'.2) st st' := by
  induction hl generalizing st' with
  | root =>
    cases hl' with
    | root => exact .cons ⟨rfl, h⟩ .nil
    | sub hv h => simp [start] at hn
  | @sub i e st v hv hs ih =>
    cases hl' with
    | root => simp [start] at hn
    | @sub i' e' st2 v' hv' hs' =>
      rw [List.map_cons, List.map_cons] at hn
      have h1 := (List.cons.inj hn).1
      have h2 := ih hs' (List.cons.inj hn).2
      refine .cons ⟨h1, ?_⟩ h2
      cases h2 with
      | cons hx _ => exact (selected_title hx.2 hv hv' (congrArg CmdId.name h1)).args

end Palc
