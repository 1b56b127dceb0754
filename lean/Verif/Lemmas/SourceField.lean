import Verif.Lemmas.SourceMeta
/-!
# The attributes of a field
-/

namespace Palc

open Spec

variable {V E : Type}

theorem argItems_append {xs ys : List (Attr E)} : argItems (xs ++ ys) = argItems xs ++ argItems ys := by
  simp [argItems]
theorem docLines_append {xs ys : List (Attr E)} : docLines (xs ++ ys) = docLines xs ++ docLines ys := by
  simp [docLines]
theorem commands_append {xs ys : List (Attr E)} : commands (xs ++ ys) = commands xs ++ commands ys := by
  simp [commands]
theorem hasArg_append {xs ys : List (Attr E)} : hasArg (xs ++ ys) = (hasArg xs || hasArg ys) := by
  simp [hasArg]

theorem parseArgsCommand_ok {items : Option (List (Item E))} {c : ArgsCommand} :
    parseArgsCommand items = .ok c ↔ AttrForm (.command items) ∧ commands [.command items] = [c] := by
  unfold parseArgsCommand AttrForm commands
  split
  · rename_i p
    by_cases h1 : p = lit "subcommand"
    · subst h1
      cases c <;> simp
    · by_cases h2 : p = lit "flatten"
      · subst h2
        have : lit "flatten" ≠ lit "subcommand" := by decide
        cases c <;> simp [this]
      · simp [h1, h2]
  · rename_i h
    simp only [reduceCtorEq, false_iff, not_and]
    rintro (rfl | rfl)
    · exact absurd rfl (h _)
    · exact absurd rfl (h _)

theorem commands_nil {items : Option (List (Item E))} (h : ∀ c, parseArgsCommand items ≠ .ok c) :
    ¬ AttrForm (.command items) := by
  rintro (rfl | rfl)
  · exact h .subcommand rfl
  · exact h .flatten rfl

theorem argItems_none {attrs : List (Attr E)} (h : hasArg attrs = false) : argItems attrs = [] := by
  unfold hasArg at h
  unfold argItems
  rw [List.any_eq_false] at h
  rw [List.flatMap_eq_nil_iff]
  intro a ha
  have := h a ha
  cases a with
  | arg i => simp at this
  | _ => rfl

/-- Attributes read without an error so far. -/
structure FieldOk (isIdent : Str → Bool) (attrs : List (Attr E)) : Prop where
  forms : ∀ a ∈ attrs, AttrForm a
  items : ∀ it ∈ argItems attrs, ItemOk isIdent it
  once : (settings (argItems attrs)).Nodup
  one : (commands attrs).length ≤ 1

/-- The state after them. -/
structure FieldSt (attrs : List (Attr (DefaultOut V × Str))) (s : FieldAttrs V) : Prop where
  doc : s.doc = (docLines attrs).foldl docExtend []
  arg : s.arg = if hasArg attrs then some (metaOf [] (argItems attrs)) else none
  command : s.command = (commands attrs).head?

theorem FieldSt.getD {attrs : List (Attr (DefaultOut V × Str))} {s : FieldAttrs V}
    (h : FieldSt attrs s) : s.arg.getD {} = metaOf [] (argItems attrs) := by
  rw [h.arg]
  cases hh : hasArg attrs with
  | true => rfl
  | false =>
    rw [argItems_none hh]
    rfl

theorem FieldOk.init {isIdent : Str → Bool} {xs ys : List (Attr E)} (h : FieldOk isIdent (xs ++ ys)) : FieldOk isIdent xs where
  forms := fun a ha => h.forms a (by simp [ha])
  items := fun a ha => h.items a (by rw [argItems_append]; simp [ha])
  once := by
    have := h.once
    rw [argItems_append, settings_append] at this
    exact (List.nodup_append.mp this).1
  one := by
    have := h.one
    rw [commands_append, List.length_append] at this
    omega

theorem FieldSt.cmd_none {attrs : List (Attr (DefaultOut V × Str))} {s : FieldAttrs V}
    (h : FieldSt attrs s) : s.command.isSome = false ↔ (commands attrs).length = 0 := by
  rw [h.command]
  cases commands attrs <;> simp

theorem runs_from {isIdent : Str → Bool} {xs ys : List (Item (DefaultOut V × Str))} {m : ArgMeta V}
    (hx : ∀ it ∈ xs, ItemOk isIdent it) (hn : (settings xs).Nodup) :
    Runs (ArgMeta.parseUpdate isIdent) (metaOf [] xs) ys m
      ↔ (∀ it ∈ xs ++ ys, ItemOk isIdent it) ∧ (settings (xs ++ ys)).Nodup ∧ m = metaOf [] (xs ++ ys) := by
  rw [← runs_iff, Runs_append]
  constructor
  · intro h
    exact ⟨_, runs_iff.mpr ⟨hx, hn, rfl⟩, h⟩
  · rintro ⟨m1, h1, h2⟩
    obtain ⟨_, _, rfl⟩ := runs_iff.mp h1
    exact h2

theorem fieldAttrs_iff {isIdent : Str → Bool} (attrs : List (Attr (DefaultOut V × Str))) :
    ((attrs.foldl (fieldAttrStep isIdent) {} : FieldAttrs V).errors = [] ↔ FieldOk isIdent attrs)
    ∧ ((attrs.foldl (fieldAttrStep isIdent) {} : FieldAttrs V).errors = [] →
        FieldSt attrs (attrs.foldl (fieldAttrStep isIdent) {})) := by
  induction attrs using snocInd with
  | nil =>
    refine ⟨⟨fun _ => ⟨by simp, by simp [argItems], by simp [argItems, settings], by simp [commands]⟩, fun _ => rfl⟩, fun _ => ⟨rfl, rfl, rfl⟩⟩
  | snoc attrs a ih =>
    rw [List.foldl_append]
    simp only [List.foldl_cons, List.foldl_nil]
    generalize attrs.foldl (fieldAttrStep isIdent) {} = s at ih ⊢
    obtain ⟨ih1, ih2⟩ := ih
    have key : ∀ (s' : FieldAttrs V), s' = fieldAttrStep isIdent s a →
        (s'.errors = [] → s.errors = []) →
        (s.errors = [] → FieldOk isIdent attrs → FieldSt attrs s →
          (s'.errors = [] ↔ FieldOk isIdent (attrs ++ [a])) ∧ (s'.errors = [] → FieldSt (attrs ++ [a]) s')) →
        (s'.errors = [] ↔ FieldOk isIdent (attrs ++ [a])) ∧ (s'.errors = [] → FieldSt (attrs ++ [a]) s') := by
      intro s' _ h1 h2
      by_cases hs : s.errors = []
      · exact h2 hs (ih1.mp hs) (ih2 hs)
      · refine ⟨⟨fun h => absurd (h1 h) hs, fun h => absurd (ih1.mpr h.init) hs⟩, fun h => absurd (h1 h) hs⟩
    refine key _ rfl ?_ ?_
    · cases a with
      | doc t => cases t <;> simp [fieldAttrStep]
      | arg i => cases i <;> simp +contextual [fieldAttrStep]
      | command i =>
        simp only [fieldAttrStep]
        split <;> simp +contextual
      | value i => exact id
      | other => exact id
    · intro hs hok hst
      cases a with
      | doc t =>
        cases t with
        | none =>
          simp only [fieldAttrStep, List.append_eq_nil_iff, and_false, false_iff, false_imp_iff, and_true, List.cons_ne_nil]
          intro h
          exact h.forms (.doc none) (by simp) rfl
        | some t =>
          simp only [fieldAttrStep, hs, true_iff, true_imp_iff]
          have e1 : argItems (attrs ++ [.doc (some t)]) = argItems attrs := by rw [argItems_append]; simp [argItems]
          have e2 : commands (attrs ++ [.doc (some t)]) = commands attrs := by rw [commands_append]; simp [commands]
          have e3 : hasArg (attrs ++ [.doc (some t)]) = hasArg attrs := by rw [hasArg_append]; simp [hasArg]
          refine ⟨⟨?_, by rw [e1]; exact hok.items, by rw [e1]; exact hok.once, by rw [e2]; exact hok.one⟩,
            ⟨?_, by rw [e1, e3]; exact hst.arg, by rw [e2]; exact hst.command⟩⟩
          · intro b hb
            rcases List.mem_append.mp hb with hb | hb
            · exact hok.forms b hb
            · simp only [List.mem_singleton] at hb; subst hb; simp [AttrForm]
          · rw [docLines_append, List.foldl_append, ← hst.doc]; rfl
      | arg i =>
        cases i with
        | none =>
          simp only [fieldAttrStep, List.append_eq_nil_iff, and_false, false_iff, false_imp_iff, and_true, List.cons_ne_nil]
          intro h
          exact h.forms (.arg none) (by simp) rfl
        | some items =>
          have e1 : argItems (attrs ++ [.arg (some items)]) = argItems attrs ++ items := by
            rw [argItems_append]; simp [argItems]
          have e2 : commands (attrs ++ [.arg (some items)]) = commands attrs := by rw [commands_append]; simp [commands]
          have e3 : hasArg (attrs ++ [.arg (some items)]) = true := by rw [hasArg_append]; simp [hasArg]
          have e4 : docLines (attrs ++ [.arg (some items)]) = docLines attrs := by
            rw [docLines_append]; simp [docLines]
          have hf : ∀ b ∈ attrs ++ [.arg (some items)], AttrForm b := by
            intro b hb
            rcases List.mem_append.mp hb with hb | hb
            · exact hok.forms b hb
            · simp only [List.mem_singleton] at hb; subst hb; simp [AttrForm]
          simp only [fieldAttrStep, hs, List.nil_append]
          rw [hst.getD]
          have hr := fun m => (parseNested_clean (upd := ArgMeta.parseUpdate isIdent) (m := metaOf [] (argItems attrs)) (m' := m) (items := items)).trans
            (runs_from hok.items hok.once)
          generalize parseNested (ArgMeta.parseUpdate isIdent) (metaOf [] (argItems attrs)) items = r at hr ⊢
          obtain ⟨m, errs⟩ := r
          dsimp only
          constructor
          · constructor
            · rintro rfl
              obtain ⟨h1, h2, _⟩ := (hr m).mp rfl
              exact ⟨hf, by rw [e1]; exact h1, by rw [e1]; exact h2, by rw [e2]; exact hok.one⟩
            · intro h
              have h1 := h.items
              have h2 := h.once
              rw [e1] at h1 h2
              have := (hr (metaOf [] (argItems attrs ++ items))).mpr ⟨h1, h2, rfl⟩
              exact (Prod.mk.inj this).2
          · rintro rfl
            obtain ⟨h1, h2, h3⟩ := (hr m).mp rfl
            exact ⟨by rw [e4]; exact hst.doc, by rw [e3, e1, h3]; rfl, by rw [e2]; exact hst.command⟩
      | command i =>
        simp only [fieldAttrStep]
        cases hp : parseArgsCommand i with
        | error e =>
          simp only [List.append_eq_nil_iff, and_false, false_iff, false_imp_iff, and_true, List.cons_ne_nil]
          intro h
          exact commands_nil (by rw [hp]; simp) (h.forms (.command i) (by simp))
        | ok c =>
          obtain ⟨hf1, hc⟩ := parseArgsCommand_ok.mp hp
          have e1 : argItems (attrs ++ [.command i]) = argItems attrs := by rw [argItems_append]; simp [argItems]
          have e2 : commands (attrs ++ [.command i]) = commands attrs ++ [c] := by rw [commands_append, hc]
          have e3 : hasArg (attrs ++ [.command i]) = hasArg attrs := by rw [hasArg_append]; simp [hasArg]
          have e4 : docLines (attrs ++ [.command i]) = docLines attrs := by
            rw [docLines_append]; simp [docLines]
          have hf : ∀ b ∈ attrs ++ [.command i], AttrForm b := by
            intro b hb
            rcases List.mem_append.mp hb with hb | hb
            · exact hok.forms b hb
            · simp only [List.mem_singleton] at hb; subst hb; exact hf1
          simp only [hs, List.nil_append]
          cases hcs : s.command.isSome with
          | true =>
            simp only [if_true, List.cons_ne_nil, false_iff, false_imp_iff, and_true]
            intro h
            have := h.one
            rw [e2, List.length_append] at this
            have h0 : (commands attrs).length = 0 := by simp at this; simpa using this
            rw [hst.cmd_none.mpr h0] at hcs
            cases hcs
          | false =>
            have h0 := hst.cmd_none.mp hcs
            simp only [Bool.false_eq_true, if_false, true_iff, true_imp_iff]
            refine ⟨⟨hf, by rw [e1]; exact hok.items, by rw [e1]; exact hok.once, by rw [e2, List.length_append, h0]; simp⟩,
              ⟨by rw [e4]; exact hst.doc, by rw [e1, e3]; exact hst.arg, ?_⟩⟩
            rw [e2, List.length_eq_zero_iff.mp h0]; rfl
      | value i =>
        have e1 : argItems (attrs ++ [.value i]) = argItems attrs := by rw [argItems_append]; simp [argItems]
        have e2 : commands (attrs ++ [.value i]) = commands attrs := by rw [commands_append]; simp [commands]
        have e3 : hasArg (attrs ++ [.value i]) = hasArg attrs := by rw [hasArg_append]; simp [hasArg]
        have e4 : docLines (attrs ++ [.value i]) = docLines attrs := by rw [docLines_append]; simp [docLines]
        simp only [fieldAttrStep, hs, true_iff, true_imp_iff]
        refine ⟨⟨?_, by rw [e1]; exact hok.items, by rw [e1]; exact hok.once, by rw [e2]; exact hok.one⟩,
          ⟨by rw [e4]; exact hst.doc, by rw [e1, e3]; exact hst.arg, by rw [e2]; exact hst.command⟩⟩
        intro b hb
        rcases List.mem_append.mp hb with hb | hb
        · exact hok.forms b hb
        · simp only [List.mem_singleton] at hb; subst hb; trivial
      | other =>
        have e1 : argItems (attrs ++ [.other]) = argItems attrs := by rw [argItems_append]; simp [argItems]
        have e2 : commands (attrs ++ [.other]) = commands attrs := by rw [commands_append]; simp [commands]
        have e3 : hasArg (attrs ++ [.other]) = hasArg attrs := by rw [hasArg_append]; simp [hasArg]
        have e4 : docLines (attrs ++ [.other]) = docLines attrs := by rw [docLines_append]; simp [docLines]
        simp only [fieldAttrStep, hs, true_iff, true_imp_iff]
        refine ⟨⟨?_, by rw [e1]; exact hok.items, by rw [e1]; exact hok.once, by rw [e2]; exact hok.one⟩,
          ⟨by rw [e4]; exact hst.doc, by rw [e1, e3]; exact hst.arg, by rw [e2]; exact hst.command⟩⟩
        intro b hb
        rcases List.mem_append.mp hb with hb | hb
        · exact hok.forms b hb
        · simp only [List.mem_singleton] at hb; subst hb; trivial

theorem parseFieldAttrs_ok {isIdent : Str → Bool} {attrs : List (Attr (DefaultOut V × Str))} :
    (parseFieldAttrs (V := V) isIdent attrs).2 = [] ↔ AttrsOk isIdent attrs := by
  obtain ⟨h1, h2⟩ := fieldAttrs_iff (V := V) (isIdent := isIdent) attrs
  unfold parseFieldAttrs
  dsimp only
  generalize attrs.foldl (fieldAttrStep isIdent) {} = s at h1 h2
  have hsplit : AttrsOk isIdent attrs ↔ FieldOk isIdent attrs ∧ (commands attrs = [] ∨ hasArg attrs = false) :=
    ⟨fun h => ⟨⟨h.forms, h.items, h.once, h.one⟩, h.excl⟩, fun h => ⟨h.1.forms, h.1.items, h.1.once, h.1.one, h.2⟩⟩
  rw [hsplit, ← h1]
  by_cases he : s.errors = []
  · have hst := h2 he
    have hc := hst.command
    have ha := hst.arg
    cases hcs : commands attrs with
    | nil =>
      rw [hcs] at hc
      rw [show s.command = none from hc]
      simp
    | cons c cs =>
      rw [hcs] at hc
      rw [show s.command = some c from hc, he, ha]
      cases hasArg attrs <;> simp
  · have : ∀ o : Option ArgsCommand, (match o with
      | some c => (ArgOrCommand.command (V := V) c, s.errors ++ (if s.arg.isSome then [SrcError.commandConflictsArg] else []))
      | none => (.arg { (s.arg.getD {}) with doc := trimAsciiEnd s.doc }, s.errors)).2 ≠ [] := by
      intro o; cases o <;> simp [he]
    simp only [he, false_and, iff_false]
    exact this _

theorem parseFieldAttrs_fst {isIdent : Str → Bool} {attrs : List (Attr (DefaultOut V × Str))} (h : AttrsOk isIdent attrs) :
    (parseFieldAttrs (V := V) isIdent attrs).1 = match commands attrs with
      | [] => .arg (metaOf (docOf (docLines attrs)) (argItems attrs))
      | c :: _ => .command c := by
  obtain ⟨h1, h2⟩ := fieldAttrs_iff (V := V) (isIdent := isIdent) attrs
  have hst := h2 (h1.mpr ⟨h.forms, h.items, h.once, h.one⟩)
  unfold parseFieldAttrs
  dsimp only
  generalize attrs.foldl (fieldAttrStep isIdent) {} = s at hst
  have hc := hst.command
  cases hcs : commands attrs with
  | nil =>
    rw [hcs] at hc
    rw [show s.command = none from hc]
    dsimp only
    rw [hst.getD, hst.doc]
    rfl
  | cons c cs =>
    rw [hcs] at hc
    rw [show s.command = some c from hc]

end Palc
