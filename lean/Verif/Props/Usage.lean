import Verif.Lemmas.Usage
import Verif.Lemmas.After
import Verif.Lemmas.Evolve
import Verif.Props.NoPanic
import Verif.Props.Help
import Verif.Props.Subcommand
/-!
# The usage line can be followed (C75)
-/

namespace Palc

open Spec

variable {V : Type} {cx : Cx V} {d : ArgsDef V} {argv0 : Bytes} {evs : List Event} {out : Out V} {val : Addr → List Bytes}

/-! ## The text -/

/-- Arguments as written on a line. -/
def spaced (ts : List Bytes) : Bytes := ts.flatMap (fun t => enc (lit " ") ++ t)

/-- The same in brackets. -/
def bracketed (ts : List Bytes) : Bytes := enc (lit " [") ++ (spaced ts).drop 1 ++ enc (lit "]")

/-- The placeholders of the usage line as values. -/
def placeholders (cx : Cx V) (level : Nat) (e : ArgsDef V) (a : Addr) : List Bytes :=
  ((fieldsAt level e).filter (fun x => decide (x.1 = a))).map (fun x => enc (placeholder cx x.2))

theorem placeholders_at {level : Nat} {e : ArgsDef V} {a : Addr} {f : FieldInfo V} (h : (a, f) ∈ fieldsAt level e) :
    placeholders cx level e a = [enc (placeholder cx f)] := by
  unfold placeholders
  have hn := fieldsAt_nodup level e
  generalize fieldsAt level e = L at h hn
  induction L with
  | nil => cases h
  | cons x L ih =>
    rw [List.map_cons, List.nodup_cons] at hn
    rcases List.mem_cons.1 h with h | h
    · subst h
      rw [List.filter_cons_of_pos (by simp), List.filter_eq_nil_iff.2]
      · rfl
      · intro y hy he
        simp only [decide_eq_true_eq] at he
        exact hn.1 (List.mem_map.2 ⟨y, hy, he⟩)
    · rw [List.filter_cons_of_neg, ih h hn.2]
      simp only [decide_eq_true_eq]
      intro he
      exact hn.1 (List.mem_map.2 ⟨(a, f), h, he.symm⟩)

theorem spaced_append (s t : List Bytes) : spaced (s ++ t) = spaced s ++ spaced t := List.flatMap_append

theorem spaced_flatMap {α : Type} (l : List α) (g : α → List Bytes) : spaced (l.flatMap g) = l.flatMap (fun x => spaced (g x)) := by
  unfold spaced
  rw [List.flatMap_assoc]

theorem enc_flatMap {α : Type} (l : List α) (g : α → Str) : enc (l.flatMap g) = l.flatMap (fun x => enc (g x)) := by
  induction l with
  | nil => rfl
  | cons x l ih => rw [List.flatMap_cons, List.flatMap_cons, enc_append, ih]

theorem flatMap_filter_nil {α β : Type} (l : List α) (p : α → Bool) (g : α → List β) (h : ∀ x ∈ l, p x = false → g x = []) :
    (l.filter p).flatMap g = l.flatMap g := by
  induction l with
  | nil => rfl
  | cons x l ih =>
    have ih := ih (fun y hy => h y (by simp [hy]))
    cases hp : p x with
    | true => rw [List.filter_cons_of_pos hp, List.flatMap_cons, List.flatMap_cons, ih]
    | false => rw [List.filter_cons_of_neg (by simp [hp]), List.flatMap_cons, h x (by simp) hp, ih]; rfl

/-- What the usage line shows of an option is what is typed for it. -/
theorem typed_text {f : FieldInfo V} (hpre : FieldPre cx f) (ho : isOption f = true) (hr : isRequired f = true) (hi : f.ident ≠ [])
    (hk : f.kind ≠ .optionOption) (ha : f.src.long.isSome = true → ∀ s ∈ shortPart f, ∀ c ∈ s, c.toNat < 128) :
    spaced (typedOption cx f [enc (placeholder cx f)]) = enc (usageText cx f) := by
  have hl := (hpre.namedNoLast ho).1
  have hq : takesValue f = false → valuePart cx f = [] := by
    unfold takesValue valuePart
    cases hkk : f.kind <;> simp_all
  have hv : takesValue f = true → valuePart cx f = (if f.src.requireEquals then lit "=<" else lit " <") ++ valueName cx f ++ lit ">" := by
    unfold takesValue valuePart
    cases hkk : f.kind <;> simp_all
  have hp : placeholder cx f = lit "<" ++ valueName cx f ++ lit ">" := by unfold placeholder; rw [if_pos ho]
  -- by any name
  have name : ∀ (n : Name) (s : Str), (∀ v, optToken n (some v) = enc s ++ eqSign :: v) → optToken n none = enc s →
      usageName cx f = some n → usageLabel cx f = s ++ valuePart cx f → spaced (typedOption cx f [enc (placeholder cx f)]) = enc (usageText cx f) := by
    intro n s h1 h2 h3 h4
    unfold usageText typedOption
    rw [hl, hr, h3, h4]
    simp only [Bool.false_eq_true, if_false, Bool.true_or, if_true]
    cases ht : takesValue f with
    | false =>
      rw [hq ht]
      simp [spaced, h2, enc_append]
    | true =>
      rw [hv ht, hp]
      cases hre : f.src.requireEquals with
      | true =>
        simp only [if_true, List.flatMap_cons, List.flatMap_nil, List.append_nil, spaced, h1, enc_append]
        rw [show enc (lit "=<") = eqSign :: enc (lit "<") from by decide]
        simp
      | false =>
        simp only [Bool.false_eq_true, if_false, if_true, List.flatMap_cons, List.flatMap_nil, List.append_nil, spaced, h2, enc_append]
        rw [show enc (lit " <") = enc (lit " ") ++ enc (lit "<") from by decide]
        simp
  have hlab : label cx f = List.intercalate (lit ", ") (shortPart f ++ longPart cx f) ++ valuePart cx f := by
    unfold label; rw [if_pos ho]
  rcases hlong : f.src.long with _ | (_ | s)
  · have hlp : longPart cx f = [] := by unfold longPart; rw [hlong]
    have hul : ∀ c, shortPart f = [['-', c]] → usageLabel cx f = lit "-" ++ [c] ++ valuePart cx f := by
      intro c hc
      unfold usageLabel
      rw [hlp, hlab, hc, hlp]
      simp [List.intercalate, lit]
    rcases hshort : f.src.short with _ | (_ | c)
    · unfold isOption at ho
      rw [hlong, hshort] at ho
      cases ho
    · cases hid : f.ident with
      | nil => exact absurd hid hi
      | cons c r =>
        exact name (.short c) (lit "-" ++ [c]) (fun v => rfl) rfl (by simp [usageName, hlong, hshort, hid])
          (hul c (by simp [shortPart, hshort, hid]))
    · exact name (.short c) (lit "-" ++ [c]) (fun v => rfl) rfl (by simp [usageName, hlong, hshort]) (hul c (by simp [shortPart, hshort]))
  all_goals
    have hul : ∀ s, longPart cx f = [lit "--" ++ s] → usageLabel cx f = lit "--" ++ s ++ valuePart cx f := by
      intro s hs
      unfold usageLabel
      rw [hs, if_pos ⟨by simp, ha (by rw [hlong]; rfl)⟩]
      simp
  · exact name (.long (cx.kebab f.ident)) (lit "--" ++ cx.kebab f.ident) (fun v => rfl) rfl (by simp [usageName, hlong])
      (hul _ (by simp [longPart, hlong]))
  · exact name (.long s) (lit "--" ++ s) (fun v => rfl) rfl (by simp [usageName, hlong]) (hul _ (by simp [longPart, hlong]))

theorem fieldsAt_snd (level : Nat) (e : ArgsDef V) : (fieldsAt level e).map (·.2) = (structs e).flatMap (·.fields) := by
  rw [fieldsAt_eq]
  unfold fieldsFrom
  rw [List.map_flatMap]
  have : ∀ (cs : List (Core V)) (s : Nat), (cs.zipIdx s).flatMap (fun a => (a.1.fields.zipIdx.map (fun x => ((⟨level, a.2, x.2⟩ : Addr), x.1))).map (·.2))
      = cs.flatMap (·.fields) := by
    intro cs
    induction cs with
    | nil => intro s; rfl
    | cons c cs ih =>
      intro s
      rw [List.zipIdx_cons, List.flatMap_cons, List.flatMap_cons, ih (s + 1), List.map_map]
      congr 1
      exact List.zipIdx_map_fst 0 c.fields
  exact this (structs e) 0

theorem flatMap_snd {α β γ : Type} (l : List (α × β)) (g : β → List γ) : l.flatMap (fun x => g x.2) = (l.map (·.2)).flatMap g := by
  rw [List.flatMap_map]

theorem positionals_eq (wf : WFArgs cx d) : ((structs d).flatMap (·.fields)).filter (fun f => !isOption f)
    = (singles d ++ (varArg d).toList ++ (lastArg d).toList).map (·.1) := by
  have hc : CoreWF cx (coreOf d) := by cases d; exact wf.1
  rw [structs_eq, List.flatMap_cons, List.filter_append, ← positional_split hc]
  have h2 : ((flatStructs (flatsOf d)).flatMap (·.fields)).filter (fun f => !isOption f) = [] := by
    rw [List.filter_eq_nil_iff]
    intro f hf
    obtain ⟨c, hc, hf⟩ := List.mem_flatMap.1 hf
    have hfl : WFFlats cx (flatsOf d) := by cases d; exact wf.2.1
    simp [flat_options _ hfl c hc f hf]
  rw [h2, List.append_nil]
  exact (zipIdx_filter_fst _ _).symm

theorem usageLine_text (wf : WFArgs cx d) (hi : ∀ c ∈ structs d, ∀ f ∈ c.fields, f.ident ≠ [])
    (hk : ∀ x ∈ usageOptions 0 d, x.2.kind ≠ .optionOption)
    (ha : ∀ x ∈ usageOptions 0 d, x.2.src.long.isSome = true → ∀ s ∈ shortPart x.2, ∀ c ∈ s, c.toNat < 128) :
    enc (usageLine cx d) =
      spaced (typedOptions cx 0 d (placeholders cx 0 d))
        ++ enc (if ∃ f ∈ shownOptions d, isRequired f = false then lit " [OPTIONS]" else [])
        ++ spaced (typedArgs 0 d (placeholders cx 0 d))
        ++ (match usageLast d with
            | [] => []
            | x :: _ => if isRequired x.1 then spaced (typedLast 0 d (placeholders cx 0 d)) else bracketed (typedLast 0 d (placeholders cx 0 d)))
        ++ enc (match subOf d with
            | .none => []
            | .some _ optional _ => if optional then lit " [COMMAND]" else lit " <COMMAND>") := by
  have hc : CoreWF cx (coreOf d) := by cases d; exact wf.1
  have hcs : ∀ c ∈ structs d, CoreWF cx c := WFArgs.structs d wf
  have hpre : ∀ x ∈ fieldsAt 0 d, FieldPre cx x.2 ∧ x.2.ident ≠ [] := by
    rintro ⟨a, f⟩ hx
    obtain ⟨_, c, h1, h2⟩ := fieldsAt_mem_iff.1 hx
    have hm := List.mem_of_getElem? h1
    exact ⟨((hcs c hm).fields _ _ h2).toFieldPre, hi c hm f (List.mem_of_getElem? h2)⟩
  -- options
  have hopt : enc ((shownOptions d).flatMap (usageText cx)) = spaced (typedOptions cx 0 d (placeholders cx 0 d)) := by
    unfold typedOptions
    rw [spaced_flatMap, enc_flatMap]
    have h1 : (usageOptions 0 d).flatMap (fun x => spaced (typedOption cx x.2 (placeholders cx 0 d x.1)))
        = (usageOptions 0 d).flatMap (fun x => enc (usageText cx x.2)) := by
      have : ∀ x ∈ usageOptions 0 d, spaced (typedOption cx x.2 (placeholders cx 0 d x.1)) = enc (usageText cx x.2) := by
        rintro ⟨a, f⟩ hx
        obtain ⟨m1, m2, m3⟩ := usageOptions_mem.1 hx
        have hreq : isRequired f = true := by
          rcases m3.2 with h | ⟨h, _⟩
          · exact h
          · rw [m2] at h; cases h
        rw [placeholders_at m1]
        exact typed_text (hpre _ m1).1 m2 hreq (hpre _ m1).2 (hk _ hx) (ha _ hx)
      rw [List.flatMap_def, List.flatMap_def, List.map_congr_left this]
    rw [h1]
    unfold usageOptions shownOptions shownArgs
    rw [← fieldsAt_snd 0, List.filter_map, List.filter_map, List.flatMap_map, List.filter_filter]
    have h2 : (fieldsAt 0 d).filter (fun x => isOption x.2 && isRequired x.2 && !x.2.src.hide)
        = ((fieldsAt 0 d).filter (fun x => isOption x.2 && !x.2.src.hide)).filter (fun x => isRequired x.2) := by
      rw [List.filter_filter]
      congr 1
      funext x
      cases isOption x.2 <;> cases isRequired x.2 <;> rfl
    rw [h2, flatMap_filter_nil _ (fun x : Addr × FieldInfo V => isRequired x.2)]
    · rfl
    · rintro ⟨a, f⟩ hx hr
      obtain ⟨m1, m2⟩ := List.mem_filter.1 hx
      simp only [Bool.and_eq_true, Bool.not_eq_true'] at m2 hr
      have := ((hpre _ m1).1.namedNoLast m2.1).1
      simp only at this
      unfold usageText
      rw [this, hr, m2.1]
      rfl
  -- positional arguments
  have hplab : ∀ x ∈ singles d ++ (varArg d).toList ++ (lastArg d).toList, placeholders cx 0 d ⟨0, 0, x.2⟩ = [enc (label cx x.1)]
      ∧ usageLabel cx x.1 = label cx x.1 := by
    intro x hx
    obtain ⟨h1, h2⟩ := (positional_mem hc).2 hx
    refine ⟨?_, ?_⟩
    · rw [placeholders_at (core_fieldsAt h1)]
      unfold placeholder label
      rw [h2]
      rfl
    · unfold usageLabel
      rw [if_neg]
      rintro ⟨hne, _⟩
      rw [shownParts_option (.inr hne)] at h2
      cases h2
  have hpos : enc ((shownPositionals d).flatMap (usageText cx)) = spaced (typedArgs 0 d (placeholders cx 0 d))
      ++ (match usageLast d with
            | [] => []
            | x :: _ => if isRequired x.1 then spaced (typedLast 0 d (placeholders cx 0 d)) else bracketed (typedLast 0 d (placeholders cx 0 d))) := by
    have hshown : shownPositionals d = ((singles d ++ (varArg d).toList ++ (lastArg d).toList).map (·.1)).filter (fun f => !f.src.hide) := by
      unfold shownPositionals shownArgs
      rw [← positionals_eq wf, List.filter_filter, List.filter_filter]
      congr 1
      funext f
      exact Bool.and_comm _ _
    rw [hshown, List.filter_map, List.flatMap_map, enc_flatMap, List.filter_append, List.filter_append, List.flatMap_append, List.flatMap_append]
    have hS : ((singles d).filter ((fun f => !f.src.hide) ∘ (·.1))).flatMap (fun x => enc (usageText cx x.1))
        = spaced ((usageSingles d).flatMap (fun x => placeholders cx 0 d ⟨0, 0, x.2⟩)) := by
      rw [spaced_flatMap]
      unfold usageSingles
      have h2 : (singles d).filter (fun x => isRequired x.1 && !x.1.src.hide)
          = ((singles d).filter ((fun f => !f.src.hide) ∘ (·.1))).filter (fun x => isRequired x.1) := by
        rw [List.filter_filter]; rfl
      have hsing : ∀ x ∈ (singles d).filter ((fun f => !f.src.hide) ∘ (·.1)), x.1.src.last = false ∧ isMulti x.1 = false
          ∧ placeholders cx 0 d ⟨0, 0, x.2⟩ = [enc (label cx x.1)] ∧ usageLabel cx x.1 = label cx x.1 := by
        intro x hx
        have hm := (List.mem_filter.1 hx).1
        have := hplab x (by simp [hm])
        refine ⟨?_, singles_kind hm, this⟩
        unfold singles at hm
        have := (List.mem_filter.1 hm).2
        simp only [Bool.and_eq_true, Bool.not_eq_true'] at this
        exact this.2
      rw [h2]
      generalize (singles d).filter ((fun f => !f.src.hide) ∘ (·.1)) = L at hsing
      clear h2
      induction L with
      | nil => rfl
      | cons x L ih =>
        obtain ⟨s1, s2, s3, s4⟩ := hsing x (by simp)
        rw [List.flatMap_cons, ih (fun y hy => hsing y (by simp [hy]))]
        unfold usageText
        rw [s1, s2, s4]
        cases hr : isRequired x.1 with
        | true =>
          rw [List.filter_cons_of_pos (p := fun x : FieldInfo V × Nat => isRequired x.1) hr, List.flatMap_cons, s3]
          simp [spaced, enc_append]
        | false =>
          rw [List.filter_cons_of_neg (p := fun x : FieldInfo V × Nat => isRequired x.1) (by simp [hr])]
          simp [enc]
    have hM : ((varArg d).toList.filter ((fun f => !f.src.hide) ∘ (·.1))).flatMap (fun x => enc (usageText cx x.1))
        = spaced ((usageMany d).flatMap (fun x => placeholders cx 0 d ⟨0, 0, x.2⟩)) := by
      unfold usageMany
      cases hv : varArg d with
      | none => rfl
      | some x =>
        have hp := hplab x (by simp [hv])
        have hm := varArg_kind hv
        have ho := ((positional_mem hc).2 (by rw [hv]; simp : x ∈ _)).2
        have hl : x.1.src.last = false := by
          unfold varArg at hv
          have := List.find?_some hv
          simp only [Bool.and_eq_true, Bool.not_eq_true'] at this
          exact this.2
        simp only [Option.toList_some]
        cases hh : x.1.src.hide with
        | true => simp [hh, spaced]
        | false =>
          simp only [hh, Function.comp, Bool.not_false, List.filter_cons_of_pos, List.filter_nil, List.flatMap_cons, List.flatMap_nil, List.append_nil,
            hp.1, spaced, usageText, hl, ho, hm, Bool.false_eq_true, if_false, Bool.and_self, Bool.or_true, if_true, hp.2, enc_append]
    have hL : ((lastArg d).toList.filter ((fun f => !f.src.hide) ∘ (·.1))).flatMap (fun x => enc (usageText cx x.1))
        = (match usageLast d with
            | [] => []
            | x :: _ => if isRequired x.1 then spaced (typedLast 0 d (placeholders cx 0 d)) else bracketed (typedLast 0 d (placeholders cx 0 d))) := by
      unfold typedLast usageLast
      cases hv : lastArg d with
      | none => rfl
      | some x =>
        have hp := hplab x (by simp [hv])
        have hl := (lastArg_field hv).1
        simp only [Option.toList_some]
        cases hh : x.1.src.hide with
        | true => simp [hh]
        | false =>
          simp only [hh, Function.comp, Bool.not_false, List.filter_cons_of_pos, List.filter_nil, List.flatMap_cons, List.flatMap_nil, List.append_nil,
            hp.1, usageText, hl, if_true, reduceCtorEq, if_false]
          cases isRequired x.1 with
          | true =>
            simp only [if_true, spaced, List.flatMap_cons, List.flatMap_nil, List.append_nil, enc_append]
            rw [show enc (lit " -- ") = enc (lit " ") ++ [dash, dash] ++ enc (lit " ") from by decide]
            simp
          | false =>
            simp only [Bool.false_eq_true, if_false, bracketed, spaced, List.flatMap_cons, List.flatMap_nil, List.append_nil, enc_append]
            rw [show enc (lit " [-- ") = enc (lit " [") ++ [dash, dash] ++ enc (lit " ") from by decide,
              show enc (lit " ") = [32] from by decide]
            simp
    rw [hS, hM, hL]
    unfold typedArgs
    rw [List.flatMap_append, spaced_append]
  unfold usageLine
  rw [enc_append, enc_append, enc_append, hopt, hpos]
  simp only [List.append_assoc]
  rfl

/-! ## Following it -/

/-- C75: the usage line of every command is what is typed, with `<NAME>` for the values, apart from `[OPTIONS]`, the brackets around an optional
last list, and the subcommand.  (Options whose value can be left out are shown with `[=<NAME>]`.  Options with a non-ASCII short
name and a long name are an exception, see `C75_not_short`.) -/
theorem C75_text (hd : DerivedArgs cx d) {e : ArgsDef V} (he : Command d e) (path : Str) (hi : ∀ c ∈ structs e, ∀ f ∈ c.fields, f.ident ≠ [])
    (hk : ∀ x ∈ usageOptions 0 e, x.2.kind ≠ .optionOption)
    (ha : ∀ x ∈ usageOptions 0 e, x.2.src.long.isSome = true → ∀ s ∈ shortPart x.2, ∀ c ∈ s, c.toNat < 128) :
    ∃ x line y, renderHelp e.info path = x ++ lit "Usage:" ++ path ++ line ++ lit "\n\n" ++ y
      ∧ x = (if aboutText (coreOf e).cmdMeta = [] then [] else aboutText (coreOf e).cmdMeta ++ lit "\n\n")
      ∧ enc line =
      spaced (typedOptions cx 0 e (placeholders cx 0 e))
        ++ enc (if ∃ f ∈ shownOptions e, isRequired f = false then lit " [OPTIONS]" else [])
        ++ spaced (typedArgs 0 e (placeholders cx 0 e))
        ++ (match usageLast e with
            | [] => []
            | x :: _ => if isRequired x.1 then spaced (typedLast 0 e (placeholders cx 0 e)) else bracketed (typedLast 0 e (placeholders cx 0 e)))
        ++ enc (match subOf e with
            | .none => []
            | .some _ optional _ => if optional then lit " [COMMAND]" else lit " <COMMAND>") := by
  obtain ⟨commands, hr, _⟩ := C46_help hd he path
  refine ⟨_, usageLine cx e, commands
    ++ entryList cx (lit "Arguments:\n") (shownPositionals e) ++ entryList cx (lit "Options:\n") (shownOptions e)
    ++ afterText (coreOf e).cmdMeta, ?_, rfl, usageLine_text (command_wf hd he) hi hk ha⟩
  rw [hr]
  unfold helpPage
  simp only [List.append_assoc]

/-- C75: in any command that has just been entered, what is typed according to its usage line is read as occurrences of the
arguments shown there, each with the values given for it. -/
theorem C75_reads (hd : DerivedArgs cx d) {pre : List Bytes} {i : CmdId} {e : ArgsDef V} {st : List (Entry V)}
    (hpre : Reads cx (start argv0 d) pre evs ⟨(i, e) :: st, 0, .opts⟩) (hT : Typable cx st.length e val) :
    (∃ k m, After cx d argv0 (pre ++ usageArgs cx st.length e val) (evs ++ usageEvents st.length e val) ⟨(i, e) :: st, k, m⟩)
    ∧ ∀ (a : Addr) (f : FieldInfo V), (a, f) ∈ fieldsAt st.length e →
      (Listed f → occs (usageEvents st.length e val) a = typedOccs f (val a)) ∧ (¬ Listed f → occs (usageEvents st.length e val) a = []) := by
  have hwf := (stack_wf hd.wf (reads_steps hpre)).1
  obtain ⟨k, m, h⟩ := usage_reads hwf hT
  exact ⟨⟨k, m, after_reads hd (reads_append hpre h)⟩, fun a f hf => usage_occs (hwf (i, e) (by simp)) hf⟩

theorem typedOccs_ne {f : FieldInfo V} {vs : List Bytes} (h : vs ≠ []) : typedOccs f vs ≠ [] := by
  unfold typedOccs
  split
  · simpa using h
  · simp

/-- C75: a command line typed according to the usage line is accepted, and the arguments have the values given for them, all
others their defaults; provided that the line can be typed, the values are valid, and the constraints allow it.  Missing from the
full claim: the line cannot be typed for every program (`C75_not_order`, `C75_not_trailing`), and the other constraints (`requires`,
`conflicts_with`, `exclusive`) are not shown in it. -/
theorem C75_followed_partial (hd : DerivedArgs cx d)
    (hdef : ∀ c ∈ structs d, ∀ f ∈ c.fields, ∀ s, f.src.defaultValue = some s → ValidDefault f s)
    (hT : Typable cx 0 d val) (hS : Sufficient 0 d val) :
    ∃ out, tryParseFrom d (argv0 :: usageArgs cx 0 d val) = .ok out
      ∧ ∀ (a : Addr) (f : FieldInfo V), (a, f) ∈ fieldsAt 0 d →
        ∃ w, outAt (start argv0 d).stack out a = some (f.ident, .field w)
          ∧ (Listed f → fieldOut f (typedOccs f (val a)) = some w) ∧ (¬ Listed f → fieldOut f [] = some w) := by
  have hpre : Reads cx (start argv0 d) [] [] ⟨(⟨[], progName argv0⟩, d) :: [], 0, .opts⟩ := .done
  obtain ⟨⟨k, m, hr⟩, ho⟩ := C75_reads hd hpre (val := val) hT
  have hr := hr.reads
  simp only [List.nil_append, List.length_nil] at hr ho
  have hlisted : ∀ {a : Addr} {f : FieldInfo V}, (a, f) ∈ fieldsAt 0 d → occs (usageEvents 0 d val) a ≠ [] → Listed f := by
    intro a f hf hne
    exact Classical.byContradiction (fun hl => hne ((ho a f hf).2 hl))
  have hreq : ∀ {a : Addr} {f : FieldInfo V}, (a, f) ∈ fieldsAt 0 d → isRequired f = true → occs (usageEvents 0 d val) a ≠ [] := by
    intro a f hf hreq
    obtain ⟨h1, h2⟩ := hS.required (a, f) hf hreq
    rw [(ho a f hf).1 ⟨h1, .inl hreq⟩]
    exact typedOccs_ne h2
  have finish : ∃ o, tryParseFrom d (argv0 :: usageArgs cx 0 d val) = .ok o := by
    rcases outcome_reads hd.wf hr with ⟨hwf, _, _, h⟩ | ⟨e, hb, _⟩
    · cases hfail : allFail (usageEvents 0 d val) [(⟨[], progName argv0⟩, d)] false with
      | none =>
        rw [hfail] at h
        obtain ⟨o, _, h⟩ := h
        exact ⟨o, h⟩
      | some x =>
        exfalso
        obtain ⟨pre, i, d', outer, s, c, hst, hc, hsf, _⟩ := allFail_some hwf hfail
        have : pre = [] ∧ outer = [] ∧ (i, d') = (⟨[], progName argv0⟩, d) := by
          cases pre with
          | nil => simp only [List.nil_append, List.cons.injEq] at hst; exact ⟨rfl, hst.2.symm, hst.1.symm⟩
          | cons y pre => simp at hst
        obtain ⟨rfl, rfl, he⟩ := this
        cases he
        have hcm := List.mem_of_getElem? hc
        have at_ : ∀ {j : Nat} {g : FieldInfo V}, c.fields[j]? = some g → ((⟨0, s, j⟩ : Addr), g) ∈ fieldsAt 0 d := by
          intro j g hg
          exact fieldsAt_mem_iff.2 ⟨rfl, c, hc, hg⟩
        simp only [List.length_nil] at hsf
        cases hsf with
        | error hv =>
          cases hv with
          | exclusive hf hg hx _ =>
            have := hS.exclusive c hcm _ (List.mem_of_getElem? hf) (hlisted (at_ hf) hg)
            rw [hx] at this; cases this
          | requires hf hg hj hx hn =>
            exact hreq (at_ hj) (hS.requires c hcm _ (List.mem_of_getElem? hf) (hlisted (at_ hf) hg) _ (List.mem_of_getElem? hj) hx) hn
          | conflict hf hg hj hx hn =>
            exact hS.conflicts c hcm _ (List.mem_of_getElem? hf) (hlisted (at_ hf) hg) _ (List.mem_of_getElem? hj) (hlisted (at_ hj) hn) hx
          | missing hf hr hn _ => exact hreq (at_ hf) hr hn
          | subcommand hneed _ _ =>
            rw [hS.subcommand] at hneed
            cases hneed
        | panic hf _ hd' hr' _ =>
          have hwfc : CoreWF cx c := WFArgs.structs d hd.wf c hcm
          obtain ⟨str, h1, h2⟩ := (fieldOut_absent (hwfc.fields _ _ hf).toFieldPre hr').1 hd'
          exact h2 (hdef c hcm _ (List.mem_of_getElem? hf) str h1)
    · exfalso
      refine hb.not_acceptable ?_
      intro a f hf
      rw [List.nil_append]
      have hm : (a, f) ∈ fieldsAt 0 d := by
        have hlt := fieldAt_lt hf
        exact (fieldsAt_cons_iff (i := ⟨[], progName argv0⟩) (outer := [])).2 ⟨by simp at hlt ⊢; exact hlt, hf⟩
      by_cases hl : Listed f
      · rw [(ho a f hm).1 hl]
        exact hS.values (a, f) hm hl
      · rw [(ho a f hm).2 hl]
        simp [given, content]
  obtain ⟨o, hok⟩ := finish
  refine ⟨o, hok, fun a f hf => ?_⟩
  have hP : Parsed cx d argv0 (usageArgs cx 0 d val) (usageEvents 0 d val) ⟨[(⟨[], progName argv0⟩, d)], k, m⟩ o := ⟨hd, hr, hok⟩
  obtain ⟨w, h1, h2⟩ := hP.explains.values a f ((fieldsAt_cons_iff (i := ⟨[], progName argv0⟩) (outer := [])).1 hf).2
  refine ⟨w, h2, fun hl => ?_, fun hl => ?_⟩
  · rw [← (ho a f hf).1 hl]; exact h1
  · rw [← (ho a f hf).2 hl]; exact h1

/-- C75: the same after the name of a subcommand, with the usage line of the subcommand, if what was typed before is accepted with any
arguments of that subcommand.  (The usage line of a subcommand does not show what the commands before it require, `C75_not_parents`.) -/
theorem C75_subcommand_partial (hd : DerivedArgs cx d) {pre rest : List Bytes} {i : CmdId} {e : ArgsDef V} {st : List (Entry V)} {k : Nat}
    {v : Variant V} {a : Bytes} {o : Out V}
    (hpre : Reads cx (start argv0 d) pre evs ⟨(i, e) :: st, k, .opts⟩) (hv : Selected e v) (hp : Plain (enc v.name))
    (he : DerivedArgs cx (variantDef v))
    (hdef : ∀ c ∈ structs (variantDef v), ∀ f ∈ c.fields, ∀ s, f.src.defaultValue = some s → ValidDefault f s)
    (hT : Typable cx 0 (variantDef v) val) (hS : Sufficient 0 (variantDef v) val)
    (h : tryParseFrom (variantDef v) (a :: rest) = .ok o) (hok : tryParseFrom d (argv0 :: (pre ++ enc v.name :: rest)) = .ok out) :
    ∃ out', tryParseFrom d (argv0 :: (pre ++ enc v.name :: usageArgs cx 0 (variantDef v) val)) = .ok out' := by
  obtain ⟨o', ho', _⟩ := C75_followed_partial (argv0 := a) he hdef hT hS
  obtain ⟨out', h', _⟩ := C72_exchange hd hpre hv hp h ho' hok
  exact ⟨out', h'⟩

/-! ## Examples -/

namespace Sample

/-- `struct Copy { #[arg(short, long)] from: String, #[arg(long, require_equals = true)] mode: Number, #[arg(short)] quiet: bool,
src: String, files: Vec<String>, #[arg(last = true)] extra: Vec<String> }`. -/
def copyDecls : List (FieldDecl Val) :=
  [ .arg (lit "from") string { short := some .inherit, long := some .inherit },
    .arg (lit "mode") number { long := some .inherit, requireEquals := true },
    .arg (lit "quiet") .bool { short := some .inherit },
    .arg (lit "src") string {},
    .arg (lit "files") (.vec string) {},
    .arg (lit "extra") (.vec string) { last := true } ]

def copy : ArgsDef Val := get (deriveArgs Sample.cx none copyDecls)

theorem copy_derived : DerivedArgs Sample.cx copy := derived_leaf (by decide) (by decide)

/-- Values for it. -/
def copyVal (a : Addr) : List Bytes :=
  (([[blit "here"], [blit "-7"], [], [blit "a"], [blit "b", blit "-"], [blit "-q", blit "--"]] : List (List Bytes))[a.field]?).getD []

example : usageLine Sample.cx copy = lit " --from <FROM> --mode=<MODE> [OPTIONS] <SRC> [FILES]... [-- [EXTRA]...]"
    ∧ usageArgs Sample.cx 0 copy copyVal
      = [blit "--from", blit "here", blit "--mode=-7", blit "a", blit "b", blit "-", blit "--", blit "-q", blit "--"]
    ∧ spaced (typedOptions Sample.cx 0 copy (placeholders Sample.cx 0 copy)) = blit " --from <FROM> --mode=<MODE>"
    ∧ spaced (typedArgs 0 copy (placeholders Sample.cx 0 copy)) = blit " <SRC> [FILES]..."
    ∧ bracketed (typedLast 0 copy (placeholders Sample.cx 0 copy)) = blit " [-- [EXTRA]...]" := by decide +kernel

theorem all_mem {α : Type} {l : List α} {p : α → Bool} (h : l.all p = true) : ∀ x ∈ l, p x = true := List.all_eq_true.1 h

theorem copy_typable : Typable Sample.cx 0 copy copyVal where
  unique := by
    have h : (usageOptions 0 copy).all (fun x => match usageName Sample.cx x.2 with
      | none => false
      | some n => (fieldsAt 0 copy).all (fun y => !declares Sample.cx y.2 n || decide (y.1 = x.1))) = true := by decide +kernel
    intro x hx
    have := all_mem h x hx
    split at this
    · cases this
    · rename_i n hn
      refine ⟨n, hn, fun y hy hd => ?_⟩
      have := all_mem this y hy
      simpa [hd] using this
  option := by
    have h : (usageOptions 0 copy).all (fun x => x.2.src.requireEquals || (copyVal x.1).all (fun v => decide (v.head? ≠ some dash))) = true := by
      decide +kernel
    intro x hx hq v hv
    have := all_mem h x hx
    rw [hq, Bool.false_or] at this
    exact .inl (.inl (of_decide_eq_true (all_mem this v hv)))
  single := by
    have h : (usageSingles copy).all (fun x => decide ((copyVal ⟨0, 0, x.2⟩).length = 1)) = true := by decide +kernel
    intro x hx
    exact of_decide_eq_true (all_mem h x hx)
  plain := by
    have h : (usageSingles copy ++ usageMany copy).all (fun x => (copyVal ⟨0, 0, x.2⟩).all (fun v => decide (v.head? ≠ some dash ∨ v = [dash]))) = true := by
      decide +kernel
    have hs : (subVariants copy).all (fun _ => false) = true := by decide +kernel
    intro x hx v hv
    refine ⟨of_decide_eq_true (all_mem (all_mem h x hx) v hv), fun w hw => ?_⟩
    cases all_mem hs w hw
  order := by
    have h : (usageSingles copy).length = (singles copy).length := by decide +kernel
    have : usageSingles copy = singles copy := List.filter_sublist.eq_of_length h
    rw [this]
    exact List.prefix_refl _
  many := by
    have h : (usageSingles copy).length = (singles copy).length := by decide +kernel
    intro _ _ _
    exact List.filter_sublist.eq_of_length h
  trailing := by
    have h : (usageSingles copy).all (fun x => !x.1.src.trailingVarArg) = true := by decide +kernel
    intro x hx
    simpa using all_mem h x hx
  last := by
    have h : (usageMany copy).all (fun x => !x.1.src.trailingVarArg) = true := by decide +kernel
    intro x hx ht
    have := all_mem h x hx
    simp [ht] at this

theorem copy_sufficient : Sufficient 0 copy copyVal where
  required := by
    have h : (fieldsAt 0 copy).all (fun x => !isRequired x.2 || (!x.2.src.hide && decide (copyVal x.1 ≠ []))) = true := by decide +kernel
    intro x hx hr
    have := all_mem h x hx
    simpa [hr] using this
  values := by
    have h : (fieldsAt 0 copy).all (fun x => (given x.2 (typedOccs x.2 (copyVal x.1))).isSome) = true := by decide +kernel
    intro x hx _ hn
    have := all_mem h x hx
    rw [hn] at this
    cases this
  requires := by
    have h : (structs copy).all (fun c => c.fields.all (fun f => f.src.requires.isEmpty)) = true := by decide +kernel
    intro c hc f hf _ g _ hg
    have := all_mem (all_mem h c hc) f hf
    rw [List.isEmpty_iff] at this
    rw [this] at hg
    cases hg
  conflicts := by
    have h : (structs copy).all (fun c => c.fields.all (fun f => f.src.conflictsWith.isEmpty)) = true := by decide +kernel
    intro c hc f hf _ g _ _ hg
    have := all_mem (all_mem h c hc) f hf
    rw [List.isEmpty_iff] at this
    rw [this] at hg
    cases hg
  exclusive := by
    have h : (structs copy).all (fun c => c.fields.all (fun f => !f.src.exclusive)) = true := by decide +kernel
    intro c hc f hf _
    simpa using all_mem (all_mem h c hc) f hf
  subcommand := by decide +kernel

theorem copy_defaults : ∀ c ∈ structs copy, ∀ f ∈ c.fields, ∀ s, f.src.defaultValue = some s → ValidDefault f s := by
  have h : (structs copy).all (fun c => c.fields.all (fun f => f.src.defaultValue.isNone)) = true := by decide +kernel
  intro c hc f hf s hs
  have := all_mem (all_mem h c hc) f hf
  rw [hs] at this
  cases this

/-- Followed: `copy --from here --mode=-7 a b - -- -q --`. -/
example : ∃ x line y, renderHelp copy.info (lit " copy") = x ++ lit "Usage:" ++ lit " copy" ++ line ++ lit "\n\n" ++ y
    ∧ enc line = blit " --from <FROM> --mode=<MODE> [OPTIONS] <SRC> [FILES]... [-- [EXTRA]...]" := by
  obtain ⟨x, line, y, h1, _, h2⟩ := C75_text copy_derived .root (lit " copy") (by decide) (by decide) (by decide)
  exact ⟨x, line, y, h1, h2.trans (by decide +kernel)⟩

example : ∃ out, tryParseFrom copy (blit "copy" :: usageArgs Sample.cx 0 copy copyVal) = .ok out := by
  obtain ⟨out, h, _⟩ := C75_followed_partial (argv0 := blit "copy") copy_derived copy_defaults copy_typable copy_sufficient
  exact ⟨out, h⟩

example : value (tryParseFrom copy (blit "copy" :: usageArgs Sample.cx 0 copy copyVal)) ["mode"] = some (.value (lit "-7"))
    ∧ value (tryParseFrom copy (blit "copy" :: usageArgs Sample.cx 0 copy copyVal)) ["files"] = some (.vec [lit "b", lit "-"])
    ∧ value (tryParseFrom copy (blit "copy" :: usageArgs Sample.cx 0 copy copyVal)) ["extra"] = some (.vec [lit "-q", lit "--"]) := by
  decide +kernel

/-- `struct Tool { #[arg(long)] token: String, #[command(subcommand)] cmd: ToolCmd }`, `enum ToolCmd { Copy(Copy) }`. -/
def toolCmd : Variants Val := deriveSub Sample.cx [.args (lit "Copy") copy]

def toolDecls : List (FieldDecl Val) :=
  [ .arg (lit "token") string { long := some .inherit }, .subcommand (lit "cmd") false toolCmd ]

def tool : ArgsDef Val := get (deriveArgs Sample.cx none toolDecls)

theorem tool_derived : DerivedArgs Sample.cx tool := by
  refine .mk none toolDecls ?_ ?_ (get_ok (by decide))
  · intro i d hm
    simp [toolDecls] at hm
  · intro i o vs hm
    simp only [toolDecls, List.mem_cons, FieldDecl.subcommand.injEq, reduceCtorEq, List.not_mem_nil, or_false, false_or] at hm
    obtain ⟨_, _, rfl⟩ := hm
    refine .mk [.args (lit "Copy") copy] ?_ rfl
    intro i d hm
    simp only [List.mem_singleton, VariantDecl.args.injEq] at hm
    obtain ⟨_, rfl⟩ := hm
    exact copy_derived

/-- After `tool --token=t copy`, the usage line of `copy` is followed. -/
example : ∃ out, tryParseFrom tool (blit "tool" :: ([blit "--token=t"] ++ enc (lit "copy") :: usageArgs Sample.cx 0 copy copyVal)) = .ok out := by
  have ok : ∀ {r : R (Out Val)}, isOk r = true → ∃ o, r = .ok o := by
    intro r h; cases r with
    | ok o => exact ⟨o, rfl⟩
    | error e => simp [isOk] at h
  obtain ⟨o, ho⟩ := ok (r := tryParseFrom copy ([blit "x", blit "-fa", blit "--mode=1", blit "s"])) (by decide +kernel)
  obtain ⟨out, hx⟩ := ok (r := tryParseFrom tool ([blit "tool", blit "--token=t", blit "copy", blit "-fa", blit "--mode=1", blit "s"])) (by decide +kernel)
  have hr : Resolves Sample.cx [(⟨[], lit "tool"⟩, tool)] (.long (lit "token")) ⟨0, 0, 0⟩ ((coreOf tool).fields[0]'(by decide +kernel)) := by rfl
  have hpre : Reads Sample.cx (start (blit "tool") tool) [blit "--token=t"] [(⟨0, 0, 0⟩, some (blit "t"))] ⟨(⟨[], lit "tool"⟩, tool) :: [], 0, .opts⟩ :=
    .longEq (n := lit "token") (v := blit "t") hr (by decide) (by decide +kernel) .done
  exact C75_subcommand_partial (v := .args (lit "Copy") (lit "copy") copy) (rest := [blit "-fa", blit "--mode=1", blit "s"]) tool_derived hpre
    (Selected.of_nodup (by decide +kernel) List.mem_cons_self) (.inl (by decide)) copy_derived copy_defaults copy_typable copy_sufficient ho hx

/-! ## Where it cannot -/

/-- `struct Order { first: Option<String>, second: String }`. -/
def order : ArgsDef Val := get (deriveArgs Sample.cx none
  [ .arg (lit "first") (.option string) {}, .arg (lit "second") string {} ])

/-- `struct Trail { #[arg(trailing_var_arg = true)] args: Vec<String>, #[arg(last = true, required = true)] rest: Vec<String> }`. -/
def trail : ArgsDef Val := get (deriveArgs Sample.cx none
  [ .arg (lit "args") (.vec string) { trailingVarArg := true }, .arg (lit "rest") (.vec string) { last := true, required := true } ])

/-- `struct Wide { #[arg(short = 'ß', long)] level: String }`. -/
def wide : ArgsDef Val := get (deriveArgs Sample.cx none
  [ .arg (lit "level") string { short := some (.explicit 'ß'), long := some .inherit } ])

end Sample

/-- The usage line is `<SECOND>`, but a single value is for the optional argument before it (finding 15). -/
theorem C75_not_order : DerivedArgs Sample.cx Sample.order ∧ lit "Usage: order <SECOND>\n" <+: renderHelp Sample.order.info (lit " order")
    ∧ usageArgs Sample.cx 0 Sample.order (fun _ => [blit "x"]) = [blit "x"]
    ∧ Sample.failure (tryParseFrom Sample.order [blit "order", blit "x"])
      = some (.error { kind := .missingRequiredArgument, argDesc := some (lit "<SECOND>") }) := by
  exact ⟨Sample.derived_leaf (by decide) (by decide), by decide +kernel, by decide +kernel, by decide +kernel⟩

/-- The usage line is `[ARGS]... -- <REST>...`, but `--` is one of the arguments (finding 16). -/
theorem C75_not_trailing : DerivedArgs Sample.cx Sample.trail ∧ lit "Usage: trail [ARGS]... -- <REST>...\n" <+: renderHelp Sample.trail.info (lit " trail")
    ∧ usageArgs Sample.cx 0 Sample.trail (fun _ => [blit "x"]) = [blit "x", blit "--", blit "x"]
    ∧ Sample.failure (tryParseFrom Sample.trail [blit "trail", blit "x", blit "--", blit "x"])
      = some (.error { kind := .missingRequiredArgument, argDesc := some (lit "<REST>...") }) := by
  exact ⟨Sample.derived_leaf (by decide) (by decide), by decide +kernel, by decide +kernel, by decide +kernel⟩

/-- The usage line is `-ß, --level <LEVEL>`, both names (finding 17): what is shown cannot be typed. -/
theorem C75_not_short : DerivedArgs Sample.cx Sample.wide ∧ lit "Usage: wide -ß, --level <LEVEL>\n" <+: renderHelp Sample.wide.info (lit " wide")
    ∧ (Sample.failure (tryParseFrom Sample.wide [blit "wide", blit "-ß,", blit "--level", blit "3"])).isSome = true
    ∧ Sample.failure (tryParseFrom Sample.wide [blit "wide", blit "--level", blit "3"]) = none := by
  exact ⟨Sample.derived_leaf (by decide) (by decide), by decide +kernel, by decide +kernel, by decide +kernel⟩

/-- The help of `tool copy` says `Usage: tool copy --from <FROM> ..`, but `tool` needs its token before `copy`. -/
theorem C75_not_parents :
    Sample.failure (tryParseFrom Sample.tool [blit "tool", blit "copy", blit "--help"])
        = some (.error { kind := .help, help := some (renderHelp Sample.copy.info (lit " tool copy")) })
    ∧ Sample.failure (tryParseFrom Sample.tool (blit "tool" :: blit "copy" :: usageArgs Sample.cx 0 Sample.copy Sample.copyVal))
      = some (.error { kind := .missingRequiredArgument, argDesc := some (lit "--token <TOKEN>") }) := by
  exact ⟨by decide +kernel, by decide +kernel⟩

end Palc
