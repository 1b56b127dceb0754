import Verif.EmitHelp
/-!
# The emitted formatters of help texts: lemmas
-/

namespace Palc.Emit

variable {V : Type}

theorem pieces_append (a b : Str) : ∀ {ps qs : List Piece}, pieces a = some ps → pieces b = some qs → pieces (a ++ b) = some (ps ++ qs) := by
  fun_induction pieces a with
  | case1 => intro ps qs h1 h2; cases h1; exact h2
  | case2 r ih | case3 r ih | case6 r ih =>
    intro ps qs h1 h2
    cases h : pieces r with
    | none => rw [h] at h1; cases h1
    | some p =>
      rw [h] at h1
      cases h1
      simp only [List.cons_append, pieces]
      rw [ih h h2]
      rfl
  | case4 c r hc ih =>
    intro ps qs h1 h2
    cases h : pieces r with
    | none => rw [h] at h1; cases h1
    | some p =>
      rw [h] at h1
      cases h1
      simp only [List.cons_append, pieces]
      rw [if_pos hc, ih h h2]
      rfl
  | case5 => intro ps qs h1; cases h1
  | case7 => intro ps qs h1; cases h1
  | case8 => intro ps qs h1; cases h1
  | case9 c r _ _ _ _ h5 h6 ih =>
    intro ps qs h1 h2
    cases h : pieces r with
    | none => rw [h] at h1; cases h1
    | some p =>
      rw [h] at h1
      cases h1
      rw [List.cons_append, pieces.eq_def]
      split <;> simp_all

theorem formatPieces_append (ps qs : List Piece) : ∀ {as bs : List FArg} {s t : Str}, formatPieces ps as = some s →
    formatPieces qs bs = some t → formatPieces (ps ++ qs) (as ++ bs) = some (s ++ t) := by
  induction ps with
  | nil =>
    intro as bs s t h1 h2
    cases as with
    | nil => rw [formatPieces, Option.some.injEq] at h1; subst h1; exact h2
    | cons => rw [formatPieces] at h1; cases h1
  | cons p ps ih =>
    intro as bs s t h1 h2
    cases p with
    | char c =>
      rw [formatPieces] at h1
      cases h : formatPieces ps as with
      | none => rw [h] at h1; cases h1
      | some s' =>
        rw [h] at h1
        cases h1
        rw [List.cons_append, formatPieces, ih h h2]
        rfl
    | arg p =>
      cases as with
      | nil => rw [formatPieces] at h1; cases h1
      | cons a as =>
        rw [formatPieces] at h1
        cases h : formatPieces ps as with
        | none => rw [h] at h1; cases h1
        | some s' =>
          rw [h] at h1
          cases h1
          rw [List.cons_append, List.cons_append, formatPieces, ih h h2]
          simp

theorem format_append {t1 t2 : Str} {a1 a2 : List FArg} {s1 s2 : Str} (h1 : format t1 a1 = some s1) (h2 : format t2 a2 = some s2) :
    format (t1 ++ t2) (a1 ++ a2) = some (s1 ++ s2) := by
  unfold format at h1 h2 ⊢
  cases e1 : pieces t1 with
  | none => rw [e1] at h1; cases h1
  | some p1 =>
    cases e2 : pieces t2 with
    | none => rw [e2] at h2; cases h2
    | some p2 =>
      rw [e1] at h1
      rw [e2] at h2
      rw [pieces_append _ _ e1 e2]
      exact formatPieces_append _ _ h1 h2

/-- The builder is well-formed and prints the text. -/
def Prints (b : Builder) (s : Str) : Prop := format b.template b.args = some s

theorem Prints.empty : Prints {} [] := rfl

theorem Prints.push {b : Builder} {s : Str} (h : Prints b s) {t : Str} (ht : format t [] = some t) : Prints (b.push t) (s ++ t) := by
  have := format_append h ht
  rw [List.append_nil] at this
  exact this

theorem Prints.pushArg {b : Builder} {s : Str} (h : Prints b s) (t : Str) : Prints (b.pushArg t) (s ++ t) := by
  have : format (lit "{}") [.text t] = some t := by
    show some (t ++ []) = _
    rw [List.append_nil]
  exact format_append h this

theorem Prints.pushPad {b : Builder} {s : Str} (h : Prints b s) (f : FieldInfo V) : Prints (b.pushPad f) (s ++ match f.description with
      | '-' :: '-' :: _ => lit "    "
      | _ => []) := by
  unfold Builder.pushPad
  split
  · rename_i he
    rw [he]
    exact h.push (t := lit "    ") rfl
  · rename_i hne
    split
    · rename_i he
      exact absurd he (hne _)
    · rw [List.append_nil]; exact h

theorem Prints.pushDoc {b : Builder} {s : Str} (h : Prints b s) (f : FieldInfo V) : Prints (b.pushDoc f)
    (s ++ if f.doc = [] then [] else lit "          " ++ f.doc ++ ['\n']) := by
  unfold Builder.pushDoc
  split
  · rw [List.append_nil]; exact h
  · have := ((h.push (t := lit "          ") rfl).pushArg f.doc).push (t := ['\n']) rfl
    simpa only [List.append_assoc] using this

theorem Prints.pushDefault {b : Builder} {s : Str} (h : Prints b s) (f : FieldInfo V) : Prints (b.pushDefault f)
    (s ++ match f.defaultValue with
        | some (.parseStr s) => lit "          [default: " ++ s ++ lit "]\n"
        | some (.valueExpr _ shown) => lit "          [default: " ++ shown ++ lit "]\n"
        | none => []) := by
  unfold Builder.pushDefault
  split
  · rename_i t he
    rw [he]
    have := ((h.push (t := lit "          [default: ") rfl).pushArg t).push (t := lit "]\n") rfl
    simpa only [List.append_assoc] using this
  · rename_i t he
    rw [he]
    have := ((h.push (t := lit "          [default: ") rfl).pushArg t).push (t := lit "]\n") rfl
    simpa only [List.append_assoc] using this
  · rename_i he
    rw [he, List.append_nil]; exact h

theorem Prints.pushHelpFor {b : Builder} {s : Str} (h : Prints b s) (f : FieldInfo V) : Prints (b.pushHelpFor f) (s ++ helpFor f) := by
  have := ((((((h.push (t := lit "  ") rfl).pushPad f).pushArg f.description).push (t := ['\n']) rfl).pushDoc f).pushDefault f).push
    (t := ['\n']) rfl
  unfold helpFor
  simp only [List.append_assoc] at this ⊢
  exact this

theorem usageFor_eq (f : FieldInfo V) : usageFor f = ' ' :: Builder.usageDesc f := rfl

theorem Prints.pushUsageFor {b : Builder} {s : Str} (h : Prints b s) (f : FieldInfo V) : Prints (b.pushUsageFor f) (s ++ usageFor f) := by
  have := (h.push (t := [' ']) rfl).pushArg (Builder.usageDesc f)
  rw [usageFor_eq]
  rw [List.append_assoc] at this
  exact this

theorem Prints.pushUsage {b : Builder} {s : Str} (h : Prints b s) (f : FieldInfo V) : Prints (b.pushUsage f) (s ++ fieldUsage f) := by
  unfold Builder.pushUsage fieldUsage
  dsimp only
  rw [← List.append_assoc, ← List.append_assoc]
  have h1 : Prints (if f.attrs.contains ArgAttrs.LAST then b.push (if f.required then lit " --" else lit " [--") else b)
      (s ++ if f.attrs.contains ArgAttrs.LAST then (if f.required then lit " --" else lit " [--") else []) := by
    cases f.attrs.contains ArgAttrs.LAST with
    | false => simpa using h
    | true =>
      cases f.required with
      | false => exact h.push rfl
      | true => exact h.push rfl
  have h2 : ∀ {b : Builder} {s : Str}, Prints b s →
      Prints (if f.required || f.attrs.contains ArgAttrs.VAR_ARG || f.attrs.contains ArgAttrs.LAST then b.pushUsageFor f else b)
      (s ++ if f.required || f.attrs.contains ArgAttrs.VAR_ARG || f.attrs.contains ArgAttrs.LAST then usageFor f else []) := by
    intro b s h
    cases f.required || f.attrs.contains ArgAttrs.VAR_ARG || f.attrs.contains ArgAttrs.LAST with
    | false => simpa using h
    | true => exact h.pushUsageFor f
  have h3 : ∀ {b : Builder} {s : Str}, Prints b s →
      Prints (if f.attrs.contains ArgAttrs.LAST && !f.required then b.push [']'] else b)
      (s ++ if f.attrs.contains ArgAttrs.LAST && !f.required then [']'] else []) := by
    intro b s h
    cases f.attrs.contains ArgAttrs.LAST && !f.required with
    | false => simpa using h
    | true => exact h.push rfl
  exact h3 (h2 h1)

/-- What the four builders print. -/
structure AllPrint (bs : Builders) (un up hn hp : Str) : Prop where
  un : Prints bs.usageNamed un
  up : Prints bs.usagePositional up
  hn : Prints bs.helpNamed hn
  hp : Prints bs.helpPositional hp

theorem pushField_print {n : Nat} : ∀ (l : List (FieldInfo V × Nat)) {bs : Builders} {un up hn hp : Str}, AllPrint bs un up hn hp →
    AllPrint (l.foldl (pushField n) bs)
      (un ++ usageOf ((l.filter (fun x => x.2 < n)).map (·.1))) (up ++ usageOf ((l.filter (fun x => ¬ x.2 < n)).map (·.1)))
      (hn ++ helpOf ((l.filter (fun x => x.2 < n)).map (·.1))) (hp ++ helpOf ((l.filter (fun x => ¬ x.2 < n)).map (·.1))) := by
  intro l
  induction l with
  | nil => intro bs un up hn hp h; simpa [usageOf, helpOf] using h
  | cons x l ih =>
    intro bs un up hn hp h
    obtain ⟨f, i⟩ := x
    rw [List.foldl_cons]
    have split1 : ∀ (fs : List (FieldInfo V)), usageOf (f :: fs) = (if f.hide then [] else fieldUsage f) ++ usageOf fs := by
      intro fs
      unfold usageOf
      rw [List.filter_cons]
      cases f.hide <;> simp
    have split2 : ∀ (fs : List (FieldInfo V)), helpOf (f :: fs) = (if f.hide then [] else helpFor f) ++ helpOf fs := by
      intro fs
      unfold helpOf
      rw [List.filter_cons]
      cases f.hide <;> simp
    have step : AllPrint (pushField n bs (f, i)) (un ++ if i < n then (if f.hide then [] else fieldUsage f) else [])
        (up ++ if i < n then [] else (if f.hide then [] else fieldUsage f)) (hn ++ if i < n then (if f.hide then [] else helpFor f) else [])
        (hp ++ if i < n then [] else (if f.hide then [] else helpFor f)) := by
      unfold pushField
      by_cases hh : f.hide = true
      · simpa [hh] using h
      · by_cases hi : i < n
        · rw [if_neg hh, if_pos hi]
          simp only [hi, if_true, hh, List.append_nil]
          exact ⟨h.un.pushUsage f, h.up, h.hn.pushHelpFor f, h.hp⟩
        · rw [if_neg hh, if_neg hi]
          simp only [hi, if_false, hh, List.append_nil]
          exact ⟨h.un, h.up.pushUsage f, h.hn, h.hp.pushHelpFor f⟩
    have := ih step
    rw [List.filter_cons, List.filter_cons]
    by_cases hi : i < n
    · simpa [hi, split1, split2, List.append_assoc] using this
    · simpa [hi, split1, split2, List.append_assoc] using this

theorem pushFlat_print : ∀ (hs : List HelpFn) {bs : Builders} {un up hn hp : Str}, AllPrint bs un up hn hp →
    AllPrint (hs.foldl pushFlat bs) (un ++ hs.flatMap (fun h => h 0)) (up ++ hs.flatMap (fun h => h 1))
      (hn ++ hs.flatMap (fun h => h 2)) (hp ++ hs.flatMap (fun h => h 3)) := by
  intro hs
  induction hs with
  | nil => intro bs un up hn hp h; simpa using h
  | cons x hs ih =>
    intro bs un up hn hp h
    have g0 : format (lit "{:.0}") [.help x] = some (x 0) := by show some (x 0 ++ []) = _; rw [List.append_nil]
    have g1 : format (lit "{:.1}") [.help x] = some (x 1) := by show some (x 1 ++ []) = _; rw [List.append_nil]
    have g2 : format (lit "{:.2}") [.help x] = some (x 2) := by show some (x 2 ++ []) = _; rw [List.append_nil]
    have g3 : format (lit "{:.3}") [.help x] = some (x 3) := by show some (x 3 ++ []) = _; rw [List.append_nil]
    have := ih (bs := pushFlat bs x) ⟨format_append h.un g0, format_append h.up g1, format_append h.hn g2, format_append h.hp g3⟩
    simp only [List.flatMap_cons]
    simp only [List.append_assoc] at this
    exact this

theorem filter_zipIdx_lt {α : Type} (l : List α) (n k : Nat) :
    ((l.zipIdx k).filter (fun x => x.2 < n)).map (·.1) = l.take (n - k)
      ∧ ((l.zipIdx k).filter (fun x => ¬ x.2 < n)).map (·.1) = l.drop (n - k) := by
  induction l generalizing k with
  | nil => simp
  | cons a l ih =>
    obtain ⟨h1, h2⟩ := ih (k + 1)
    rw [List.zipIdx_cons, List.filter_cons, List.filter_cons]
    by_cases hk : k < n
    · have e : n - k = (n - (k + 1)) + 1 := by omega
      rw [e]
      simp only [hk, decide_true, if_true, not_true_eq_false, decide_false, Bool.false_eq_true, if_false]
      rw [List.map_cons, h1, h2]
      simp
    · have e : n - k = 0 := by omega
      have e' : n - (k + 1) = 0 := by omega
      rw [e'] at h1 h2
      rw [e]
      simp only [hk, decide_false, Bool.false_eq_true, if_false, not_false_eq_true, decide_true, if_true]
      rw [List.map_cons, h1, h2]
      simp

theorem builders_print (core : Core V) (flats : List HelpFn) : AllPrint (builders core flats)
    (usageOf core.named ++ flats.flatMap (fun h => h 0)) (usageOf core.positional ++ flats.flatMap (fun h => h 1))
    (helpOf core.named ++ flats.flatMap (fun h => h 2)) (helpOf core.positional ++ flats.flatMap (fun h => h 3)) := by
  have h0 : AllPrint {} [] [] [] [] := ⟨.empty, .empty, .empty, .empty⟩
  have h1 := pushField_print (n := core.namedCnt) core.fields.zipIdx h0
  have e1 : (core.fields.zipIdx.filter (fun x => x.2 < core.namedCnt)).map (·.1) = core.named := (filter_zipIdx_lt _ _ 0).1
  have e2 : (core.fields.zipIdx.filter (fun x => ¬ x.2 < core.namedCnt)).map (·.1) = core.positional := (filter_zipIdx_lt _ _ 0).2
  rw [e1, e2] at h1
  exact pushFlat_print flats h1

theorem Prints.template_nil {b : Builder} {s : Str} (h : Prints b s) (ht : b.template = []) : s = [] := by
  unfold Prints format at h
  rw [ht] at h
  cases ha : b.args with
  | nil => rw [ha] at h; cases h; rfl
  | cons => rw [ha] at h; cases h

/-- The arm with this number prints this text; without an arm nothing is printed. -/
def ArmsPrint (arms : List (Nat × Builder)) (g : HelpFn) : Prop :=
  (∀ x ∈ arms, Prints x.2 (g x.1)) ∧ ∀ n, (∀ x ∈ arms, x.1 ≠ n) → g n = []

theorem helpValue_arms {arms : List (Nat × Builder)} {g : HelpFn} (h : ArmsPrint arms g) : helpValue arms = some g := by
  have hall : arms.all (fun x => (format x.2.template x.2.args).isSome) = true := by
    rw [List.all_eq_true]
    intro x hx
    rw [h.1 x hx]
    rfl
  unfold helpValue
  rw [if_pos hall, Option.some.injEq]
  funext p
  cases arms with
  | nil =>
    dsimp only
    rw [h.2 p (by intro x hx; cases hx), FArg.display, List.take_nil]
  | cons y ys =>
    dsimp only
    split
    · rename_i x hx
      have h1 := List.mem_of_find?_eq_some hx
      have h2 := List.find?_some hx
      rw [h.1 x h1]
      simp only [beq_iff_eq] at h2
      rw [h2]
    · rename_i hx
      rw [List.find?_eq_none] at hx
      refine (h.2 p (fun x hm he => hx x hm ?_)).symm
      rw [he]
      exact beq_self_eq_true _

theorem mem_armOf {i : Nat} {b : Builder} {x : Nat × Builder} (h : x ∈ armOf i b) : x = (i, b) := by
  unfold armOf at h
  split at h
  · cases h
  · exact List.mem_singleton.1 h

theorem not_mem_armOf {i : Nat} {b : Builder} (h : ∀ x ∈ armOf i b, x.1 ≠ i) : b.template = [] := by
  unfold armOf at h
  refine Classical.byContradiction fun hne => ?_
  rw [if_neg hne] at h
  exact h _ List.mem_cons_self rfl

theorem format_one (s : Str) : format (lit "{}") [.text s] = some s := by
  show some (s ++ []) = _
  rw [List.append_nil]

theorem metaArms (cmeta : Option CommandMeta) : ∃ arms, (∀ parse : Option (Core V × List HelpFn), helpArms parse cmeta
      = (match parse with
        | some (core, flats) =>
          armOf 0 (builders core flats).usageNamed ++ armOf 1 (builders core flats).usagePositional
            ++ armOf 2 (builders core flats).helpNamed ++ armOf 3 (builders core flats).helpPositional
        | none => []) ++ arms)
    ∧ (∀ x ∈ arms, (x.1 = 4 ∧ Prints x.2 (aboutOf cmeta)) ∨ (x.1 = 5 ∧ Prints x.2 (afterOf cmeta)))
    ∧ ((∀ x ∈ arms, x.1 ≠ 4) → aboutOf cmeta = []) ∧ ((∀ x ∈ arms, x.1 ≠ 5) → afterOf cmeta = []) := by
  cases cmeta with
  | none => exact ⟨[], fun p => rfl, by intro x hx; (cases hx), fun _ => rfl, fun _ => rfl⟩
  | some m =>
    refine ⟨_, fun p => rfl, ?_, ?_, ?_⟩
    · intro x hx
      rcases List.mem_cons.1 hx with rfl | hx
      · exact .inl ⟨rfl, format_one _⟩
      · cases h : m.afterLongHelp with
        | none => rw [h] at hx; cases hx
        | some e =>
          rw [h] at hx
          have hx := List.mem_singleton.1 hx
          subst hx
          refine .inr ⟨rfl, ?_⟩
          unfold afterOf
          dsimp only
          rw [h]
          exact format_one _
    · intro h; exact absurd rfl (h _ List.mem_cons_self)
    · intro h
      cases he : m.afterLongHelp with
      | none => unfold afterOf; dsimp only; rw [he]; rfl
      | some e =>
        dsimp only at h
        rw [he] at h
        exact absurd rfl (h (5, { template := lit "{}", args := [.text e] }) (List.mem_cons_of_mem _ List.mem_cons_self))

theorem helpArms_some (core : Core V) (flats : List HelpFn) (cmeta : Option CommandMeta) :
    helpValue (helpArms (some (core, flats)) cmeta) = some (helpDisplay (some core) cmeta flats) := by
  obtain ⟨arms, h1, h2, h3, h4⟩ := metaArms (V := V) cmeta
  have hp := builders_print core flats
  apply helpValue_arms
  rw [h1]
  dsimp only
  constructor
  · intro x hx
    rcases List.mem_append.1 hx with hx | hx
    · rcases List.mem_append.1 hx with hx | hx
      · rcases List.mem_append.1 hx with hx | hx
        · rcases List.mem_append.1 hx with hx | hx
          · rw [mem_armOf hx]; exact hp.un
          · rw [mem_armOf hx]; exact hp.up
        · rw [mem_armOf hx]; exact hp.hn
      · rw [mem_armOf hx]; exact hp.hp
    · rcases h2 x hx with ⟨e, h⟩ | ⟨e, h⟩
      · rw [e]; exact h
      · rw [e]; exact h
  · intro n hn
    match n with
    | 0 =>
      exact hp.un.template_nil (not_mem_armOf fun x hx => hn x (by simp only [List.mem_append]; exact .inl (.inl (.inl (.inl hx)))))
    | 1 =>
      exact hp.up.template_nil (not_mem_armOf fun x hx => hn x (by simp only [List.mem_append]; exact .inl (.inl (.inl (.inr hx)))))
    | 2 =>
      exact hp.hn.template_nil (not_mem_armOf fun x hx => hn x (by simp only [List.mem_append]; exact .inl (.inl (.inr hx))))
    | 3 =>
      exact hp.hp.template_nil (not_mem_armOf fun x hx => hn x (by simp only [List.mem_append]; exact .inl (.inr hx)))
    | 4 => exact h3 fun x hx => hn x (List.mem_append.2 (.inr hx))
    | 5 => exact h4 fun x hx => hn x (List.mem_append.2 (.inr hx))
    | _ + 6 => rfl

theorem helpArms_none (cmeta : Option CommandMeta) :
    helpValue (helpArms (V := V) none cmeta) = some (helpDisplay (V := V) none cmeta []) := by
  obtain ⟨arms, h1, h2, h3, h4⟩ := metaArms (V := V) cmeta
  apply helpValue_arms
  rw [h1]
  dsimp only
  constructor
  · intro x hx
    rcases h2 x hx with ⟨e, h⟩ | ⟨e, h⟩
    · rw [e]; exact h
    · rw [e]; exact h
  · intro n hn
    match n with
    | 0 | 1 | 2 | 3 => rfl
    | 4 => exact h3 hn
    | 5 => exact h4 hn
    | _ + 6 => rfl

mutual
theorem emittedHelp_eq : (d : ArgsDef V) → emittedHelp d = some d.info.help
  | .mk core flats sub => by
    rw [emittedHelp, emittedHelps_eq flats]
    dsimp only
    rw [helpArms_some, ArgsDef.info]
    rfl
theorem emittedHelps_eq : (fl : Flats V) → emittedHelps fl = some (fl.infos.map (·.help))
  | .nil => by rw [emittedHelps, Flats.infos]; rfl
  | .cons _ d rest => by
    rw [emittedHelps, emittedHelp_eq d, emittedHelps_eq rest, Flats.infos]
    rfl
end

end Palc.Emit
