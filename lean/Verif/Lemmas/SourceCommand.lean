import Verif.Lemmas.SourceField
/-!
# The attributes of a struct or enum variant
-/

namespace Palc

open Spec

variable {V E : Type}

theorem overrideExpr_map {v : MetaVal Str} {pkg x : Str} :
    ((overrideExpr v).map (fun
      | .inherit => pkg
      | .explicit e => e) = .ok x ∧ v.isList = false) ↔ IsOptExpr v ∧ x = (match exprOf v with
        | some e => e
        | none => pkg) := by
  unfold overrideExpr IsOptExpr exprOf
  cases v with
  | eq l e => cases e <;> simp [MetaVal.isList, Except.map, eq_comm]
  | arr ls e => cases e <;> simp [MetaVal.isList, Except.map, eq_comm]
  | bare => simp [MetaVal.isList, Except.map, eq_comm]
  | list => simp [MetaVal.isList]

theorem valueExpr_ok {v : MetaVal E} {x : E} : valueExpr v = .ok x ↔ exprOf v = some x := by
  unfold valueExpr exprOf
  cases v with
  | eq l e => cases e <;> simp
  | arr ls e => cases e <;> simp
  | bare => simp
  | list => simp

/-- Effect of one item. -/
def cmdApply (pkg : Str) (m : CommandMeta) (it : Item Str) : CommandMeta :=
  if it.path = lit "name" then { m with name := (strs it.val).head? }
  else if it.path = lit "version" then { m with version := some (overrideVal it.val) }
  else if it.path = lit "long_about" then { m with longAbout := some (match exprOf it.val with
    | some e => e
    | none => pkg) }
  else { m with afterLongHelp := exprOf it.val }

/-- Was the attribute already given? -/
def cmdSet (m : CommandMeta) (p : Str) : Bool :=
  if p = lit "name" then m.name.isSome
  else if p = lit "version" then m.version.isSome
  else if p = lit "long_about" then m.longAbout.isSome
  else m.afterLongHelp.isSome

theorem cmdUpdate_ok {pkg : Str} {m m' : CommandMeta} {it : Item Str} :
    m.parseUpdate pkg it = .ok (m', [], false) ↔ CmdItemOk it ∧ cmdSet m it.path = false ∧ m' = cmdApply pkg m it := by
  obtain ⟨p, v⟩ := it
  unfold CommandMeta.parseUpdate CmdItemOk cmdSet cmdApply
  dsimp only
  by_cases h1 : p = lit "name"
  · subst h1
    rw [if_pos rfl, if_pos rfl, if_pos rfl, setBranch_ok]
    have e1 : lit "name" ≠ lit "version" := by decide
    have e2 : lit "name" ≠ lit "long_about" := by decide
    have e3 : lit "name" ≠ lit "after_long_help" := by decide
    simp only [e1, e2, e3, false_and, or_false, true_and]
    constructor
    · rintro ⟨a, h, h2, rfl⟩
      obtain ⟨h3, h4⟩ := lit_str.mp h
      exact ⟨h3, by simp [h2], by rw [h4]⟩
    · rintro ⟨h3, h2, rfl⟩
      obtain ⟨s, e, rfl⟩ := h3
      exact ⟨s, rfl, by simpa using h2, rfl⟩
  · rw [if_neg h1, if_neg h1, if_neg h1]
    by_cases h2 : p = lit "version"
    · subst h2
      rw [if_pos rfl, if_pos rfl, if_pos rfl, setBranch_ok]
      have e1 : lit "version" ≠ lit "name" := by decide
      have e2 : lit "version" ≠ lit "long_about" := by decide
      have e3 : lit "version" ≠ lit "after_long_help" := by decide
      simp only [e1, e2, e3, false_and, or_false, true_and, false_or]
      constructor
      · rintro ⟨a, h, h2, h3, rfl⟩
        obtain ⟨h4, h5⟩ := overrideExpr_ok.mp ⟨h, h3⟩
        exact ⟨h4, by simp [h2], by rw [h5]⟩
      · rintro ⟨h3, h2, rfl⟩
        obtain ⟨h4, h5⟩ := overrideExpr_ok.mpr ⟨h3, rfl⟩
        exact ⟨_, h4, by simpa using h2, h5, rfl⟩
    · rw [if_neg h2, if_neg h2, if_neg h2]
      by_cases h3 : p = lit "long_about"
      · subst h3
        rw [if_pos rfl, if_pos rfl, if_pos rfl, setBranch_ok]
        have e1 : lit "long_about" ≠ lit "name" := by decide
        have e2 : lit "long_about" ≠ lit "version" := by decide
        have e3 : lit "long_about" ≠ lit "after_long_help" := by decide
        simp only [e1, e2, e3, false_and, or_false, true_and, false_or]
        constructor
        · rintro ⟨a, h, h2, h3, rfl⟩
          obtain ⟨h4, h5⟩ := overrideExpr_map.mp ⟨h, h3⟩
          exact ⟨h4, by simp [h2], by rw [h5]⟩
        · rintro ⟨h3, h2, rfl⟩
          obtain ⟨h4, h5⟩ := overrideExpr_map.mpr ⟨h3, rfl⟩
          exact ⟨_, h4, by simpa using h2, h5, rfl⟩
      · rw [if_neg h3, if_neg h3, if_neg h3]
        by_cases h4 : p = lit "after_long_help"
        · subst h4
          rw [if_pos rfl, setBranch_ok]
          simp only [h1, h2, h3, false_and, true_and, false_or]
          constructor
          · rintro ⟨a, h, h2, rfl⟩
            have h4 := valueExpr_ok.mp h
            exact ⟨by rw [h4]; rfl, by simp [h2], by rw [h4]⟩
          · rintro ⟨h3, h2, rfl⟩
            obtain ⟨x, hx⟩ := Option.isSome_iff_exists.mp h3
            exact ⟨x, valueExpr_ok.mpr hx, by simpa using h2, by rw [hx]⟩
        · rw [if_neg h4]
          simp only [h1, h2, h3, h4, false_and, or_false, iff_false]
          by_cases h5 : p = lit "author" ∨ p = lit "about" ∨ p = lit "after_help"
          · rw [if_pos h5]
            cases overrideExpr v <;> simp
          · rw [if_neg h5]
            by_cases h6 : p = lit "term_width" ∨ p = lit "max_term_width"
            · rw [if_pos h6]
              cases valueExpr v <;> simp
            · rw [if_neg h6]; simp

theorem cmdValue_append {name : String} {xs ys : List (Item E)} :
    cmdValue name (xs ++ ys) = (cmdValue name xs).or (cmdValue name ys) := by
  unfold cmdValue
  rw [List.find?_append]
  cases xs.find? (fun it => decide (it.path = lit name)) <;> simp

theorem cmdValue_single {name : String} {it : Item E} :
    cmdValue name [it] = if it.path = lit name then some it.val else none := by
  unfold cmdValue
  by_cases h : it.path = lit name <;> simp [h]

theorem cmdValue_isSome {name : String} {xs : List (Item E)} :
    (cmdValue name xs).isSome = true ↔ lit name ∈ xs.map (·.path) := by
  unfold cmdValue
  simp

theorem cmdValue_some {name : String} {xs : List (Item E)} {v : MetaVal E} (h : cmdValue name xs = some v) :
    ∃ it ∈ xs, it.path = lit name ∧ it.val = v := by
  unfold cmdValue at h
  rw [Option.map_eq_some_iff] at h
  obtain ⟨it, h1, h2⟩ := h
  exact ⟨it, List.mem_of_find?_eq_some h1, by simpa using List.find?_some h1, h2⟩

theorem cmdSet_iff {pkg doc : Str} {items : List (Item Str)} (hok : ∀ it ∈ items, CmdItemOk it) {it : Item Str}
    (hit : CmdItemOk it) : cmdSet (cmdMetaOf pkg doc items) it.path = true ↔ it.path ∈ items.map (·.path) := by
  have n1 : lit "name" ≠ lit "version" := by decide
  have n2 : lit "name" ≠ lit "long_about" := by decide
  have n3 : lit "name" ≠ lit "after_long_help" := by decide
  have n4 : lit "version" ≠ lit "long_about" := by decide
  have n5 : lit "version" ≠ lit "after_long_help" := by decide
  have n6 : lit "long_about" ≠ lit "after_long_help" := by decide
  unfold cmdSet cmdMetaOf
  dsimp only
  rcases hit with ⟨h, -⟩ | ⟨h, -⟩ | ⟨h, -⟩ | ⟨h, -⟩
  · rw [h, if_pos rfl, ← cmdValue_isSome, bind_isSome]
    intro v hv
    obtain ⟨i, hi, hp, rfl⟩ := cmdValue_some hv
    rcases hok i hi with ⟨h1, h2⟩ | ⟨h1, h2⟩ | ⟨h1, h2⟩ | ⟨h1, h2⟩
    · exact isStr_head h2
    · exact absurd (hp.symm.trans h1) n1
    · exact absurd (hp.symm.trans h1) n2
    · exact absurd (hp.symm.trans h1) n3
  · rw [h, if_neg n1.symm, if_pos rfl, ← cmdValue_isSome, Option.isSome_map]
  · rw [h, if_neg n2.symm, if_neg n4.symm, if_pos rfl, ← cmdValue_isSome, Option.isSome_map]
  · rw [h, if_neg n3.symm, if_neg n5.symm, if_neg n6.symm, ← cmdValue_isSome, bind_isSome]
    intro v hv
    obtain ⟨i, hi, hp, rfl⟩ := cmdValue_some hv
    rcases hok i hi with ⟨h1, h2⟩ | ⟨h1, h2⟩ | ⟨h1, h2⟩ | ⟨h1, h2⟩
    · exact absurd (hp.symm.trans h1) n3.symm
    · exact absurd (hp.symm.trans h1) n5.symm
    · exact absurd (hp.symm.trans h1) n6.symm
    · exact h2

theorem cmdMetaOf_snoc {pkg doc : Str} {items : List (Item Str)} {it : Item Str} (hit : CmdItemOk it)
    (hn : it.path ∉ items.map (·.path)) :
    cmdMetaOf pkg doc (items ++ [it]) = cmdApply pkg (cmdMetaOf pkg doc items) it := by
  have n1 : lit "name" ≠ lit "version" := by decide
  have n2 : lit "name" ≠ lit "long_about" := by decide
  have n3 : lit "name" ≠ lit "after_long_help" := by decide
  have n4 : lit "version" ≠ lit "long_about" := by decide
  have n5 : lit "version" ≠ lit "after_long_help" := by decide
  have n6 : lit "long_about" ≠ lit "after_long_help" := by decide
  have hnone : ∀ name : String, it.path = lit name → cmdValue name items = none := by
    intro name h
    cases hc : cmdValue name items with
    | none => rfl
    | some v => exact absurd (h ▸ cmdValue_isSome.mp (by rw [hc]; rfl)) hn
  unfold cmdApply cmdMetaOf
  simp only [cmdValue_append, cmdValue_single]
  rcases hit with ⟨h, -⟩ | ⟨h, -⟩ | ⟨h, -⟩ | ⟨h, -⟩
  · simp [hnone "name" h, h, n1, n2, n3]
  · simp [hnone "version" h, h, n1.symm, n4, n5]
  · simp [hnone "long_about" h, h, n2.symm, n4.symm, n6]; rfl
  · simp [hnone "after_long_help" h, h, n3.symm, n5.symm, n6.symm]

theorem cmd_runs_iff {pkg : Str} {items : List (Item Str)} {m : CommandMeta} :
    Runs (CommandMeta.parseUpdate pkg) {} items m
      ↔ (∀ it ∈ items, CmdItemOk it) ∧ (items.map (·.path)).Nodup ∧ m = cmdMetaOf pkg [] items := by
  induction items using snocInd generalizing m with
  | nil => simp [Runs, cmdMetaOf, cmdValue]
  | snoc items it ih =>
    rw [Runs_append]
    simp only [Runs_single]
    constructor
    · rintro ⟨m1, h1, h2⟩
      obtain ⟨ha, hb, rfl⟩ := ih.mp h1
      obtain ⟨hc, hd, rfl⟩ := cmdUpdate_ok.mp h2
      have hn : it.path ∉ items.map (·.path) := by
        intro h
        rw [(cmdSet_iff (pkg := pkg) (doc := []) ha hc).mpr h] at hd
        cases hd
      refine ⟨?_, ?_, (cmdMetaOf_snoc hc hn).symm⟩
      · intro i hi
        rcases List.mem_append.mp hi with hi | hi
        · exact ha i hi
        · simp only [List.mem_singleton] at hi; subst hi; exact hc
      · rw [List.map_append, List.nodup_append]
        refine ⟨hb, by simp, ?_⟩
        intro a h1 b h2 hab
        simp only [List.map_cons, List.map_nil, List.mem_singleton] at h2
        subst h2; subst hab
        exact hn h1
    · rintro ⟨ha, hb, rfl⟩
      have ha' : ∀ i ∈ items, CmdItemOk i := fun i hi => ha i (by simp [hi])
      have hc := ha it (by simp)
      rw [List.map_append, List.nodup_append] at hb
      have hn : it.path ∉ items.map (·.path) := fun h => hb.2.2 _ h _ (by simp) rfl
      refine ⟨_, ih.mpr ⟨ha', hb.1, rfl⟩, cmdUpdate_ok.mpr ⟨hc, ?_, cmdMetaOf_snoc hc hn⟩⟩
      cases hs : cmdSet (cmdMetaOf pkg [] items) it.path with
      | false => rfl
      | true => exact absurd ((cmdSet_iff ha' hc).mp hs) hn

theorem cmdItems_append {xs ys : List (Attr E)} : cmdItems (xs ++ ys) = cmdItems xs ++ cmdItems ys := by
  simp [cmdItems]
theorem hasCmd_append {xs ys : List (Attr E)} : hasCmd (xs ++ ys) = (hasCmd xs || hasCmd ys) := by
  simp [hasCmd]

theorem cmdItems_none {attrs : List (Attr E)} (h : hasCmd attrs = false) : cmdItems attrs = [] := by
  unfold hasCmd at h
  unfold cmdItems
  rw [List.any_eq_false] at h
  rw [List.flatMap_eq_nil_iff]
  intro a ha
  have := h a ha
  cases a with
  | command i => simp at this
  | _ => rfl

/-- The state after attributes without errors. -/
structure CmdSt (pkg : Str) (attrs : List (Attr Str)) (s : CommandAttrs) : Prop where
  doc : s.doc = (docLines attrs).foldl docExtend []
  this : s.this = if hasCmd attrs then some (cmdMetaOf pkg [] (cmdItems attrs)) else none

theorem CmdSt.getD {pkg : Str} {attrs : List (Attr Str)} {s : CommandAttrs}
    (h : CmdSt pkg attrs s) : s.this.getD {} = cmdMetaOf pkg [] (cmdItems attrs) := by
  rw [h.this]
  cases hh : hasCmd attrs with
  | true => rfl
  | false =>
    rw [cmdItems_none hh]
    rfl

theorem Spec.CmdAttrsOk.init {xs ys : List (Attr E)} (h : CmdAttrsOk (xs ++ ys)) : CmdAttrsOk xs where
  forms := fun a ha => h.forms a (by simp [ha])
  items := fun a ha => h.items a (by rw [cmdItems_append]; simp [ha])
  once := by
    have := h.once
    rw [cmdItems_append, List.map_append] at this
    exact (List.nodup_append.mp this).1

theorem cmd_runs_from {pkg : Str} {xs ys : List (Item Str)} {m : CommandMeta}
    (hx : ∀ it ∈ xs, CmdItemOk it) (hn : (xs.map (·.path)).Nodup) :
    Runs (CommandMeta.parseUpdate pkg) (cmdMetaOf pkg [] xs) ys m
      ↔ (∀ it ∈ xs ++ ys, CmdItemOk it) ∧ ((xs ++ ys).map (·.path)).Nodup ∧ m = cmdMetaOf pkg [] (xs ++ ys) := by
  rw [← cmd_runs_iff, Runs_append]
  constructor
  · intro h
    exact ⟨_, cmd_runs_iff.mpr ⟨hx, hn, rfl⟩, h⟩
  · rintro ⟨m1, h1, h2⟩
    obtain ⟨_, _, rfl⟩ := cmd_runs_iff.mp h1
    exact h2

theorem commandAttrs_iff {pkg : Str} (attrs : List (Attr Str)) :
    ((attrs.foldl (commandAttrStep pkg) {} : CommandAttrs).errors = [] ↔ CmdAttrsOk attrs)
    ∧ ((attrs.foldl (commandAttrStep pkg) {} : CommandAttrs).errors = [] →
        CmdSt pkg attrs (attrs.foldl (commandAttrStep pkg) {})) := by
  induction attrs using snocInd with
  | nil =>
    refine ⟨⟨fun _ => ⟨by simp, by simp [cmdItems], by simp [cmdItems]⟩, fun _ => rfl⟩, fun _ => ⟨rfl, rfl⟩⟩
  | snoc attrs a ih =>
    rw [List.foldl_append]
    simp only [List.foldl_cons, List.foldl_nil]
    generalize attrs.foldl (commandAttrStep pkg) {} = s at ih ⊢
    obtain ⟨ih1, ih2⟩ := ih
    have key : ∀ (s' : CommandAttrs), s' = commandAttrStep pkg s a →
        (s'.errors = [] → s.errors = []) →
        (s.errors = [] → CmdAttrsOk attrs → CmdSt pkg attrs s →
          (s'.errors = [] ↔ CmdAttrsOk (attrs ++ [a])) ∧ (s'.errors = [] → CmdSt pkg (attrs ++ [a]) s')) →
        (s'.errors = [] ↔ CmdAttrsOk (attrs ++ [a])) ∧ (s'.errors = [] → CmdSt pkg (attrs ++ [a]) s') := by
      intro s' _ h1 h2
      by_cases hs : s.errors = []
      · exact h2 hs (ih1.mp hs) (ih2 hs)
      · refine ⟨⟨fun h => absurd (h1 h) hs, fun h => absurd (ih1.mpr h.init) hs⟩, fun h => absurd (h1 h) hs⟩
    have plain : (commandAttrStep pkg s a = s) → cmdItems [a] = [] → hasCmd [a] = false → docLines [a] = [] → CmdAttrForm a →
        s.errors = [] → CmdAttrsOk attrs → CmdSt pkg attrs s →
        ((commandAttrStep pkg s a).errors = [] ↔ CmdAttrsOk (attrs ++ [a]))
          ∧ ((commandAttrStep pkg s a).errors = [] → CmdSt pkg (attrs ++ [a]) (commandAttrStep pkg s a)) := by
      intro h1 h2 h3 h4 h5 hs hok hst
      rw [h1]
      have e1 : cmdItems (attrs ++ [a]) = cmdItems attrs := by rw [cmdItems_append, h2]; simp
      have e3 : hasCmd (attrs ++ [a]) = hasCmd attrs := by rw [hasCmd_append, h3]; simp
      have e4 : docLines (attrs ++ [a]) = docLines attrs := by rw [docLines_append, h4]; simp
      refine ⟨⟨fun _ => ⟨?_, by rw [e1]; exact hok.items, by rw [e1]; exact hok.once⟩, fun _ => hs⟩,
        fun _ => ⟨by rw [e4]; exact hst.doc, by rw [e1, e3]; exact hst.this⟩⟩
      intro b hb
      rcases List.mem_append.mp hb with hb | hb
      · exact hok.forms b hb
      · simp only [List.mem_singleton] at hb; subst hb; exact h5
    refine key _ rfl ?_ ?_
    · cases a with
      | doc t => cases t <;> simp [commandAttrStep]
      | command i => cases i <;> simp +contextual [commandAttrStep]
      | arg i => simp [commandAttrStep]
      | value i => exact id
      | other => exact id
    · intro hs hok hst
      cases a with
      | doc t =>
        cases t with
        | none =>
          simp only [commandAttrStep, List.append_eq_nil_iff, and_false, false_iff, false_imp_iff, and_true, List.cons_ne_nil]
          intro h
          exact h.forms (.doc none) (by simp) rfl
        | some t =>
          simp only [commandAttrStep, hs, true_iff, true_imp_iff]
          have e1 : cmdItems (attrs ++ [.doc (some t)]) = cmdItems attrs := by rw [cmdItems_append]; simp [cmdItems]
          have e3 : hasCmd (attrs ++ [.doc (some t)]) = hasCmd attrs := by rw [hasCmd_append]; simp [hasCmd]
          refine ⟨⟨?_, by rw [e1]; exact hok.items, by rw [e1]; exact hok.once⟩,
            ⟨?_, by rw [e1, e3]; exact hst.this⟩⟩
          · intro b hb
            rcases List.mem_append.mp hb with hb | hb
            · exact hok.forms b hb
            · simp only [List.mem_singleton] at hb; subst hb; simp [CmdAttrForm]
          · rw [docLines_append, List.foldl_append, ← hst.doc]; rfl
      | arg i =>
        simp only [commandAttrStep, List.append_eq_nil_iff, and_false, false_iff, false_imp_iff, and_true, List.cons_ne_nil]
        intro h
        exact h.forms (.arg i) (by simp)
      | command i =>
        cases i with
        | none =>
          simp only [commandAttrStep, List.append_eq_nil_iff, and_false, false_iff, false_imp_iff, and_true, List.cons_ne_nil]
          intro h
          exact h.forms (.command none) (by simp) rfl
        | some items =>
          have e1 : cmdItems (attrs ++ [.command (some items)]) = cmdItems attrs ++ items := by
            rw [cmdItems_append]; simp [cmdItems]
          have e3 : hasCmd (attrs ++ [.command (some items)]) = true := by rw [hasCmd_append]; simp [hasCmd]
          have e4 : docLines (attrs ++ [.command (some items)]) = docLines attrs := by
            rw [docLines_append]; simp [docLines]
          have hf : ∀ b ∈ attrs ++ [.command (some items)], CmdAttrForm b := by
            intro b hb
            rcases List.mem_append.mp hb with hb | hb
            · exact hok.forms b hb
            · simp only [List.mem_singleton] at hb; subst hb; simp [CmdAttrForm]
          simp only [commandAttrStep, hs, List.nil_append]
          rw [hst.getD]
          have hr := fun m => (parseNested_clean (upd := CommandMeta.parseUpdate pkg) (m := cmdMetaOf pkg [] (cmdItems attrs)) (m' := m) (items := items)).trans
            (cmd_runs_from hok.items hok.once)
          generalize parseNested (CommandMeta.parseUpdate pkg) (cmdMetaOf pkg [] (cmdItems attrs)) items = r at hr ⊢
          obtain ⟨m, errs⟩ := r
          dsimp only
          constructor
          · constructor
            · rintro rfl
              obtain ⟨h1, h2, _⟩ := (hr m).mp rfl
              exact ⟨hf, by rw [e1]; exact h1, by rw [e1]; exact h2⟩
            · intro h
              have h1 := h.items
              have h2 := h.once
              rw [e1] at h1 h2
              have := (hr (cmdMetaOf pkg [] (cmdItems attrs ++ items))).mpr ⟨h1, h2, rfl⟩
              exact (Prod.mk.inj this).2
          · rintro rfl
            obtain ⟨h1, h2, h3⟩ := (hr m).mp rfl
            exact ⟨by rw [e4]; exact hst.doc, by rw [e3, e1, h3]; rfl⟩
      | value i =>
        exact plain rfl (by simp [cmdItems]) (by simp [hasCmd]) (by simp [docLines]) (by trivial) hs hok hst
      | other =>
        exact plain rfl (by simp [cmdItems]) (by simp [hasCmd]) (by simp [docLines]) (by trivial) hs hok hst

theorem parseCommandAttrs_ok {pkg : Str} {attrs : List (Attr Str)} :
    (parseCommandAttrs pkg attrs).2 = [] ↔ CmdAttrsOk attrs := (commandAttrs_iff attrs).1

theorem parseCommandAttrs_fst {pkg : Str} {attrs : List (Attr Str)} (h : CmdAttrsOk attrs) :
    (parseCommandAttrs pkg attrs).1 =
      if hasCmd attrs = false ∧ docOf (docLines attrs) = [] then none
      else some (cmdMetaOf pkg (docOf (docLines attrs)) (cmdItems attrs)) := by
  obtain ⟨h1, h2⟩ := commandAttrs_iff (pkg := pkg) attrs
  have hst := h2 (h1.mpr h)
  unfold parseCommandAttrs
  dsimp only
  generalize attrs.foldl (commandAttrStep pkg) {} = s at hst
  rw [hst.doc, show trimAsciiEnd ((docLines attrs).foldl docExtend []) = docOf (docLines attrs) from rfl]
  by_cases hd : docOf (docLines attrs) = []
  · rw [if_pos hd, hst.this, hd]
    cases hasCmd attrs <;> simp
  · rw [if_neg hd, if_neg (fun h => hd h.2), hst.getD]
    rfl

end Palc
