import Verif.Lemmas.HelpText
import Verif.Lemmas.Levels
import Verif.WF
/-! The parts of the help text of a well-formed definition, from the declarations. -/

namespace Palc

open Spec

variable {V : Type} {cx : Cx V}

theorem shownParts_option {f : FieldInfo V} (h : shortPart f ≠ [] ∨ longPart cx f ≠ []) : isOption f = true := by
  unfold shortPart longPart at h
  unfold isOption
  cases hs : f.src.short <;> cases hl : f.src.long <;> simp_all

theorem shortPart_eq (f : FieldInfo V) : shortPart f = [] ∨ ∃ c, shortPart f = [['-', c]] ∧ c ∈ shortNames f := by
  unfold shortPart shortNames
  cases f.src.short with
  | none => exact .inl rfl
  | some o =>
    cases o with
    | explicit c => exact .inr ⟨c, rfl, by simp⟩
    | inherit =>
      cases f.ident with
      | nil => exact .inl rfl
      | cons c r => exact .inr ⟨c, rfl, by simp⟩

theorem longPart_eq (cx : Cx V) (f : FieldInfo V) : longPart cx f = [] ∨ ∃ l, longPart cx f = ['-' :: '-' :: l] := by
  unfold longPart
  cases f.src.long with
  | none => exact .inl rfl
  | some o => cases o <;> exact .inr ⟨_, rfl⟩

theorem valuePart_head (cx : Cx V) (f : FieldInfo V) (c : Char) (r : Str) (h : valuePart cx f = c :: r) : c ≠ '-' ∧ c ≠ ',' := by
  unfold valuePart at h
  revert h
  generalize valueName cx f = vn
  cases f.kind <;> cases f.src.requireEquals <;> intro h <;> cases h <;> exact ⟨by decide, by decide⟩

theorem positionalLabel_head (cx : Cx V) (f : FieldInfo V) : ∃ c r, positionalLabel cx f = c :: r ∧ c ≠ '-' := by
  unfold positionalLabel
  cases isRequired f
  · exact ⟨'[', _, rfl, by decide⟩
  · exact ⟨'<', _, rfl, by decide⟩

theorem helpFor_spec {f : FieldInfo V} (h : FieldPre cx f) : helpFor f = entryText cx f := by
  unfold helpFor entryText
  rw [h.docSrc]
  have key : (lit "  " ++ (match f.description with
      | '-' :: '-' :: _ => lit "    "
      | _ => [])) = if shortPart f = [] ∧ longPart cx f ≠ [] then lit "      " else lit "  " := by
    rw [h.desc]
    unfold label
    cases ho : isOption f with
    | false =>
      obtain ⟨c, r, e, hc⟩ := positionalLabel_head cx f
      have : longPart cx f = [] := Classical.byContradiction fun hn => by
        rw [shownParts_option (.inr hn)] at ho; exact absurd ho (by decide)
      simp only [Bool.false_eq_true, if_false, e, this, ne_eq, not_true_eq_false, and_false]
      split
      · rename_i _ _ e'; cases e'; exact absurd rfl hc
      · simp
    | true =>
      simp only [if_true]
      rcases shortPart_eq f with es | ⟨c, es, hc⟩ <;> rcases longPart_eq cx f with el | ⟨l, el⟩ <;> rw [es, el]
      · simp only [List.append_nil, ne_eq, not_true_eq_false, and_false, if_false]
        split
        · rename_i _ _ e'; exact absurd rfl (valuePart_head cx f _ _ e').1
        · simp
      · simp [List.intercalate, lit]
      · have := (h.shortOk ho c hc).1
        simp only [List.append_nil, reduceCtorEq, ne_eq, not_true_eq_false, and_false, if_false]
        split
        · rename_i _ _ e'
          simp [List.intercalate] at e'
          exact absurd e'.1 this
        · simp
      · have := (h.shortOk ho c hc).1
        simp only [reduceCtorEq, false_and, if_false]
        split
        · rename_i _ _ e'
          simp [List.intercalate] at e'
          exact absurd e'.1 this
        · simp
  have app : ∀ (a b u v x y z : Str), a = b → a ++ u ++ v ++ x ++ y ++ z = b ++ u ++ v ++ x ++ y ++ z := by
    intro a b u v x y z e; rw [e]
  rw [h.desc] at key ⊢
  exact app _ _ _ _ _ _ _ key

theorem usageFor_spec {f : FieldInfo V} (h : FieldPre cx f) : usageFor f = lit " " ++ usageLabel cx f := by
  unfold usageFor usageLabel
  rw [h.desc]
  show _ :: _ = ' ' :: _
  congr 1
  cases ho : isOption f with
  | false =>
    obtain ⟨c, r, e, hc⟩ := positionalLabel_head cx f
    have : longPart cx f = [] := Classical.byContradiction fun hn => by
      rw [shownParts_option (.inr hn)] at ho; exact absurd ho (by decide)
    simp only [this, ne_eq, not_true_eq_false, false_and, if_false]
    split
    · rename_i e'
      rw [label, ho] at e'
      simp only [Bool.false_eq_true, if_false, e] at e'
      cases e'; exact absurd rfl hc
    · rfl
  | true =>
    have hl : label cx f = List.intercalate (lit ", ") (shortPart f ++ longPart cx f) ++ valuePart cx f := by
      unfold label; rw [if_pos ho]
    rw [hl]
    rcases shortPart_eq f with es | ⟨c, es, hc⟩ <;> rcases longPart_eq cx f with el | ⟨l, el⟩ <;> rw [es, el]
    · simp only [List.append_nil, ne_eq, not_true_eq_false, false_and, if_false]
      split
      · rename_i e'; exact absurd rfl (valuePart_head cx f _ _ e').1
      · rfl
    · simp only [List.nil_append, List.intercalate, List.intersperse, List.flatten_cons, List.flatten_nil, List.append_nil,
        List.cons_append, reduceCtorEq, not_false_eq_true, ne_eq, List.not_mem_nil, false_implies, implies_true, and_self, if_true]
      split
      · rename_i e'
        simp only [List.cons.injEq, true_and] at e'
        simp [← e'.1]
      · rfl
    · simp only [List.append_nil, ne_eq, not_true_eq_false, false_and, if_false]
      split
      · rename_i e'
        simp [List.intercalate] at e'
        exact absurd rfl (valuePart_head cx f _ _ e'.2).2
      · rfl
    · have := (h.shortOk ho c hc).1
      by_cases hA : c.toNat < 128
      · simp [List.intercalate, lit, this, hA]
      · simp [List.intercalate, lit, hA]

theorem fieldUsage_spec {f : FieldInfo V} (h : FieldPre cx f) : fieldUsage f = usageText cx f := by
  unfold fieldUsage usageText
  rw [h.la, h.required]
  dsimp only
  cases hl : f.src.last with
  | true =>
    have ho : isOption f = false := by
      cases ho : isOption f with
      | false => rfl
      | true => rw [(h.namedNoLast ho).1] at hl; exact absurd hl (by decide)
    have hlp : longPart cx f = [] := Classical.byContradiction fun hn => by
      rw [shownParts_option (.inr hn)] at ho; exact absurd ho (by decide)
    rw [usageFor_spec h]
    unfold usageLabel
    rw [hlp]
    cases isRequired f <;> simp [lit]
  | false =>
    simp only [Bool.false_eq_true, if_false, Bool.false_and, List.nil_append, List.append_nil, Bool.or_false]
    have : f.attrs.contains ArgAttrs.VAR_ARG = (!isOption f && isMulti f) := by
      cases ho : isOption f with
      | true => rw [h.vaNamed ho]; rfl
      | false => rw [h.va ho]; rfl
    rw [this, usageFor_spec h]

theorem named_filter {c : Core V} (h : CoreWF cx c) : c.named = c.fields.filter isOption := by
  unfold Core.named
  conv => rhs; rw [← List.take_append_drop c.namedCnt c.fields]
  rw [List.filter_append, List.filter_eq_self.2, List.filter_eq_nil_iff.2]
  · simp
  · obtain ⟨ps, va, la, hl, h1, h2, h3⟩ := h.layout
    intro f hf
    rw [hl] at hf
    simp only [List.mem_append, Option.mem_toList] at hf
    rcases hf with (hf | hf) | hf
    · simp [(h1 f hf).1]
    · simp [(h2 f hf).1]
    · simp [(h3 f hf).1]
  · intro f hf
    simp [h.named f hf]

theorem rest_filter {c : Core V} (h : CoreWF cx c) : c.positional = c.fields.filter (fun f => !isOption f) := by
  unfold Core.positional
  conv => rhs; rw [← List.take_append_drop c.namedCnt c.fields]
  rw [List.filter_append, List.filter_eq_nil_iff.2, List.filter_eq_self.2]
  · simp
  · obtain ⟨ps, va, la, hl, h1, h2, h3⟩ := h.layout
    intro f hf
    rw [hl] at hf
    simp only [List.mem_append, Option.mem_toList] at hf
    rcases hf with (hf | hf) | hf
    · simp [(h1 f hf).1]
    · simp [(h2 f hf).1]
    · simp [(h3 f hf).1]
  · intro f hf
    simp [h.named f hf]

/-- What one struct shows. -/
theorem core_texts {c : Core V} (h : CoreWF cx c) (p : FieldInfo V → Bool) :
    helpOf (c.fields.filter p) = ((c.fields.filter (fun f => !f.src.hide)).filter p).flatMap (entryText cx)
    ∧ usageOf (c.fields.filter p) = ((c.fields.filter (fun f => !f.src.hide)).filter p).flatMap (usageText cx) := by
  have hf : ∀ f ∈ c.fields, FieldPre cx f := by
    intro f hf
    obtain ⟨i, hi⟩ := List.mem_iff_getElem?.1 hf
    exact (h.fields i f hi).toFieldPre
  unfold helpOf usageOf
  revert hf
  clear h
  induction c.fields with
  | nil => intro _; exact ⟨rfl, rfl⟩
  | cons f fs ih =>
    intro hf
    have h0 := hf f (by simp)
    obtain ⟨i1, i2⟩ := ih (fun g hg => hf g (by simp [hg]))
    have e1 := helpFor_spec h0
    have e2 := fieldUsage_spec h0
    cases hp : p f <;> cases hh : f.src.hide <;>
      simp [hp, h0.hideSrc, hh, e1, e2] at i1 i2 ⊢ <;> exact ⟨i1, i2⟩

/-- The fields of the structs of a command, without the hidden ones. -/
def shownOf (cs : List (Core V)) : List (FieldInfo V) := (cs.flatMap (·.fields)).filter (fun f => !f.src.hide)

theorem shownOf_append (as bs : List (Core V)) : shownOf (as ++ bs) = shownOf as ++ shownOf bs := by
  unfold shownOf
  rw [List.flatMap_append, List.filter_append]

theorem shownOf_cons (c : Core V) (bs : List (Core V)) :
    shownOf (c :: bs) = c.fields.filter (fun f => !f.src.hide) ++ shownOf bs := by
  unfold shownOf
  rw [List.flatMap_cons, List.filter_append]

/-- The four lists and the flag of the help of a command. -/
def Shows (cx : Cx V) (cs : List (Core V)) (h : HelpFn) (b : Bool) : Prop :=
  h 0 = ((shownOf cs).filter isOption).flatMap (usageText cx)
  ∧ h 1 = ((shownOf cs).filter (fun f => !isOption f)).flatMap (usageText cx)
  ∧ h 2 = ((shownOf cs).filter isOption).flatMap (entryText cx)
  ∧ h 3 = ((shownOf cs).filter (fun f => !isOption f)).flatMap (entryText cx)
  ∧ (b = true ↔ ∃ f ∈ (shownOf cs).filter isOption, isRequired f = false)

theorem foldl_or (l : List ArgsInfo) (b : Bool) :
    l.foldl (fun b i => b || i.hasOptionalNamed) b = (b || l.any (·.hasOptionalNamed)) := by
  induction l generalizing b with
  | nil => simp
  | cons x l ih => rw [List.foldl_cons, ih, List.any_cons, Bool.or_assoc]

mutual
theorem info_shows : (d : ArgsDef V) → WFArgs cx d → Shows cx (structs d) d.info.help d.info.hasOptionalNamed
  | .mk core flats sub, h => by
    rw [WFArgs] at h
    obtain ⟨hc, hfl, _, _⟩ := h
    obtain ⟨f0, f1, f2, f3, f4⟩ := infos_shows flats hfl
    obtain ⟨n1, n2⟩ := core_texts hc isOption
    obtain ⟨p1, p2⟩ := core_texts hc (fun f => !isOption f)
    rw [ArgsDef.info, structs]
    unfold Shows ArgsInfo.new helpDisplay
    simp only [shownOf_cons, List.filter_append, List.flatMap_append, named_filter hc, rest_filter hc, n1, n2, p1, p2]
    dsimp only at f0 f1 f2 f3
    refine ⟨by rw [f0], by rw [f1], by rw [f2], by rw [f3], ?_⟩
    rw [foldl_or, Bool.or_eq_true, f4]
    unfold Core.hasOptionalNamed
    rw [named_filter hc]
    simp only [List.any_eq_true, List.mem_filter, Bool.and_eq_true, Bool.not_eq_true', List.mem_append]
    constructor
    · rintro (⟨f, ⟨hf, ho⟩, hr, hh⟩ | ⟨f, ⟨hf, ho⟩, hr⟩)
      · obtain ⟨i, hi⟩ := List.mem_iff_getElem?.1 hf
        have := (hc.fields i f hi).toFieldPre
        exact ⟨f, .inl ⟨⟨hf, this.hideSrc ▸ hh⟩, ho⟩, this.required ▸ hr⟩
      · exact ⟨f, .inr ⟨hf, ho⟩, hr⟩
    · rintro ⟨f, ⟨⟨hf, hh⟩, ho⟩ | ⟨hf, ho⟩, hr⟩
      · obtain ⟨i, hi⟩ := List.mem_iff_getElem?.1 hf
        have := (hc.fields i f hi).toFieldPre
        exact .inl ⟨f, ⟨hf, ho⟩, this.required ▸ hr, this.hideSrc ▸ hh⟩
      · exact .inr ⟨f, ⟨hf, ho⟩, hr⟩
theorem infos_shows : (fl : Flats V) → WFFlats cx fl →
    Shows cx (flatStructs fl) (fun n => (fl.infos.map (·.help)).flatMap (fun h => h n)) (fl.infos.any (·.hasOptionalNamed))
  | .nil, _ => by
    rw [Flats.infos, flatStructs]
    refine ⟨rfl, rfl, rfl, rfl, ?_⟩
    simp [shownOf]
  | .cons i d rest, h => by
    rw [WFFlats] at h
    obtain ⟨d0, d1, d2, d3, d4⟩ := info_shows d h.1
    obtain ⟨f0, f1, f2, f3, f4⟩ := infos_shows rest h.2.2.2
    rw [Flats.infos, flatStructs]
    unfold Shows
    simp only [shownOf_append, List.filter_append, List.flatMap_append, List.map_cons, List.flatMap_cons]
    dsimp only at f0 f1 f2 f3
    refine ⟨by rw [d0, f0], by rw [d1, f1], by rw [d2, f2], by rw [d3, f3], ?_⟩
    rw [List.any_cons, Bool.or_eq_true, d4, f4]
    simp only [List.mem_append]
    constructor
    · rintro (⟨f, h1, h2⟩ | ⟨f, h1, h2⟩)
      · exact ⟨f, .inl h1, h2⟩
      · exact ⟨f, .inr h1, h2⟩
    · rintro ⟨f, h1 | h1, h2⟩
      · exact .inl ⟨f, h1, h2⟩
      · exact .inr ⟨f, h1, h2⟩
end

end Palc

namespace Palc

open Spec

variable {V : Type} {cx : Cx V}

theorem aboutOf_eq (m : Option CommandMeta) : aboutOf m = aboutText m := by
  cases m with
  | none => rfl
  | some m => simp only [aboutOf, aboutText]; cases m.longAbout <;> rfl

theorem afterOf_eq (m : Option CommandMeta) : afterOf m = afterText m := by
  cases m with
  | none => rfl
  | some m => simp only [afterOf, afterText]; cases m.afterLongHelp <;> rfl

theorem info_texts (d : ArgsDef V) : d.info.help 4 = aboutText (coreOf d).cmdMeta ∧ d.info.help 5 = afterText (coreOf d).cmdMeta := by
  obtain ⟨core, flats, sub⟩ := d
  rw [ArgsDef.info, ← aboutOf_eq, ← afterOf_eq]
  exact ⟨rfl, rfl⟩

theorem help_sub (d : ArgsDef V) : d.info.subcmdInfo = (subOf d).info ∧ d.info.isSubcmdOptional = (subOf d).isOptional := by
  obtain ⟨core, flats, sub⟩ := d
  rw [ArgsDef.info]
  exact ⟨rfl, rfl⟩

theorem variant_about (v : Variant V) : v.info.help 4 = aboutText (coreOf (variantDef v)).cmdMeta := by
  cases v with
  | unit i n m => rw [Variant.info, ← aboutOf_eq]; rfl
  | args i n d => rw [Variant.info, (info_texts d).1]; rfl

theorem zip_helps (vs : Variants V) : vs.names.zip vs.helps = (variantList vs).map (fun v => (v.name, v.info.help)) := by
  match vs with
  | .nil => rw [Variants.names, Variants.helps, variantList]; rfl
  | .cons v rest => rw [Variants.names, Variants.helps, variantList, List.zip_cons_cons, zip_helps rest]; rfl

theorem names_list (vs : Variants V) : vs.names = (variantList vs).map Variant.name := by
  match vs with
  | .nil => rw [Variants.names, variantList]; rfl
  | .cons v rest => rw [Variants.names, variantList, names_list rest]; rfl

theorem maxLen_eq (vs : List (Variant V)) : maxLen (vs.map (fun v => (v.name, v.info.help))) = nameWidth vs := by
  unfold maxLen
  have key : ∀ (vs : List (Variant V)) (m : Nat),
      (vs.map (fun v => (v.name, v.info.help))).foldl (fun m c => max m (enc c.1).length) m = max m (nameWidth vs) := by
    intro vs
    induction vs with
    | nil => intro m; simp [nameWidth]
    | cons v vs ih => intro m; rw [List.map_cons, List.foldl_cons, ih, nameWidth, Nat.max_assoc]
  rw [key]
  omega

theorem cmdLine_spec (w : Nat) (v : Variant V) : cmdLine w v.name v.info.help = commandLine w v := by
  unfold cmdLine commandLine firstLine
  rw [variant_about]
  have : (fun c : Char => c != '\n') = fun c => decide (c ≠ '\n') := by
    funext c
    cases h : decide (c = '\n') <;> simp_all
  rw [this]
  rfl

/-- The list of subcommands. -/
theorem commandsPart_spec {d : ArgsDef V} (h : ∀ v ∈ subVariants d, nul ∉ v.name) : commandsPart d.info = commandList d := by
  unfold commandsPart commandList ArgsInfo.subcommandsWithHelp subVariants at *
  rw [(help_sub d).1]
  cases hs : subOf d with
  | none => rw [SubField.info]
  | some i o vs =>
    rw [hs] at h
    rw [SubField.info]
    simp only at h ⊢
    rw [splitTerminator_packNul _ (by rw [names_list]; simpa using h), zip_helps]
    unfold cmdList
    rw [maxLen_eq, List.flatMap_map]
    simp only [cmdLine_spec]
    rfl

theorem commandPart_spec (d : ArgsDef V) : commandPart d.info = match subOf d with
    | .none => []
    | .some _ optional _ => if optional then lit " [COMMAND]" else lit " <COMMAND>" := by
  unfold commandPart ArgsInfo.subcommandsWithHelp
  rw [(help_sub d).1, (help_sub d).2]
  cases subOf d with
  | none => rw [SubField.info]
  | some i o vs => rw [SubField.info]; rfl

theorem commandsPart_none {d : ArgsDef V} (h : subOf d = .none) : commandsPart d.info = [] := by
  unfold commandsPart ArgsInfo.subcommandsWithHelp
  rw [(help_sub d).1, h, SubField.info]

theorem entryText_ne_nil (cx : Cx V) (f : FieldInfo V) : entryText cx f ≠ [] := by
  unfold entryText
  intro h
  simp only [List.append_eq_nil_iff] at h
  exact absurd h.2 (by decide)

theorem section_spec (title : Str) (fs : List (FieldInfo V)) :
    sectionOf title (fs.flatMap (entryText cx)) = entryList cx title fs := by
  unfold sectionOf entryList
  cases fs with
  | nil => rfl
  | cons f fs =>
    rw [if_neg (c := f :: fs = []) (by simp), if_neg]
    rw [List.flatMap_cons, List.append_eq_nil_iff]
    exact fun h => entryText_ne_nil cx f h.1

/-- The help text of a well-formed command. -/
theorem renderHelp_spec {d : ArgsDef V} (h : WFArgs cx d) (p : Str) : renderHelp d.info p =
    (if aboutText (coreOf d).cmdMeta = [] then [] else aboutText (coreOf d).cmdMeta ++ lit "\n\n")
      ++ lit "Usage:" ++ p ++ usageLine cx d ++ lit "\n\n" ++ commandsPart d.info
      ++ entryList cx (lit "Arguments:\n") (shownPositionals d) ++ entryList cx (lit "Options:\n") (shownOptions d)
      ++ afterText (coreOf d).cmdMeta := by
  obtain ⟨h0, h1, h2, h3, h4⟩ := info_shows d h
  have ho : shownOptions d = (shownOf (structs d)).filter isOption := rfl
  have hp : shownPositionals d = (shownOf (structs d)).filter (fun f => !isOption f) := rfl
  rw [renderHelp_eq]
  unfold aboutPart usagePart usageLine
  rw [(info_texts d).1, (info_texts d).2, h0, h1, h2, h3, section_spec, section_spec, commandPart_spec, ho, hp]
  have : (if d.info.hasOptionalNamed = true then lit " [OPTIONS]" else [])
      = if ∃ f ∈ (shownOf (structs d)).filter isOption, isRequired f = false then lit " [OPTIONS]" else [] := by
    simp only [h4]
  rw [this]
  cases subOf d <;> rfl

end Palc
