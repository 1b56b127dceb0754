import Verif.Lemmas.Macro
import Verif.Props.ValueProps
/-!
# The entry point of `derive(ValueEnum)`
-/

namespace Palc

open Spec

variable {V : Type} {cx : SrcCx V}

/-- An update function that knows one attribute, which may be given once. -/
theorem runs_once {α : Type} {upd : Option α → Item Unit → Upd (Option α)} {p : Str} {f : Option TokLit → Option α}
    (hu : ∀ o it, upd o it = if it.path = p then setBranch (valueLit f it.val) o id false
      else .ok (o, [.unknownAttr], !it.val.isBare)) {items : List (Item Unit)} {r : Option α} :
    Runs upd none items r
      ↔ (items = [] ∧ r = none) ∨ ∃ l e a, items = [⟨p, .eq l e⟩] ∧ f l = some a ∧ r = some a := by
  have step : ∀ {o r : Option α} {it : Item Unit}, upd o it = .ok (r, [], false)
      ↔ ∃ l e a, it = ⟨p, .eq l e⟩ ∧ f l = some a ∧ o = none ∧ r = some a := by
    intro o r it
    rw [hu]
    obtain ⟨q, v⟩ := it
    dsimp only
    split
    · rename_i hq
      subst hq
      rw [setBranch_ok]
      simp only [valueLit_ok, true_and]
      constructor
      · rintro ⟨a, ⟨l, e, rfl, h⟩, rfl, h'⟩; exact ⟨l, e, a, rfl, h, rfl, h'⟩
      · rintro ⟨l, e, a, h1, h2, rfl, h3⟩
        cases h1
        exact ⟨a, ⟨l, e, rfl, h2⟩, rfl, h3⟩
    · rename_i hq
      simp only [Except.ok.injEq, Prod.mk.injEq, List.cons_ne_self, false_and, and_false, false_iff]
      rintro ⟨l, e, a, h, _⟩
      cases h
      exact hq rfl
  cases items with
  | nil => simp [Runs]
  | cons it items =>
    simp only [Runs, step, reduceCtorEq, false_and, false_or, List.cons.injEq]
    constructor
    · rintro ⟨m, ⟨l, e, a, h1, h2, _, rfl⟩, h4⟩
      cases items with
      | nil =>
        simp only [Runs] at h4
        exact ⟨l, e, a, ⟨h1, rfl⟩, h2, h4⟩
      | cons it' items =>
        simp only [Runs, step] at h4
        obtain ⟨m, ⟨_, _, _, _, _, h, _⟩, _⟩ := h4
        cases h
    · rintro ⟨l, e, a, ⟨h1, rfl⟩, h2, h3⟩
      exact ⟨some a, ⟨l, e, a, h1, h2, trivial, rfl⟩, by simp [Runs, h3]⟩

theorem asRename_iff {l : Option TokLit} {f : Str → Str} :
    (∃ x, asRename l = some x ∧ f = x.rename cx) ↔ ∃ s, l = some (.str (lit s)) ∧ (s, f) ∈ styles cx := by
  constructor
  · rintro ⟨x, h, rfl⟩
    unfold asRename at h
    split at h
    · rename_i s
      repeat' split at h
      all_goals first
        | cases h; done
        | (rename_i hs; subst hs; cases h; exact ⟨_, rfl, by simp [styles]; rfl⟩)
    · cases h
  · rintro ⟨s, rfl, h⟩
    simp only [styles, List.mem_cons, Prod.mk.injEq, List.not_mem_nil, or_false] at h
    rcases h with ⟨rfl, rfl⟩ | ⟨rfl, rfl⟩ | ⟨rfl, rfl⟩ | ⟨rfl, rfl⟩ | ⟨rfl, rfl⟩ | ⟨rfl, rfl⟩ | ⟨rfl, rfl⟩ | ⟨rfl, rfl⟩
    · exact ⟨.camelCase, by decide +kernel, rfl⟩
    · exact ⟨.kebabCase, by decide +kernel, rfl⟩
    · exact ⟨.pascalCase, by decide +kernel, rfl⟩
    · exact ⟨.screamingSnakeCase, by decide +kernel, rfl⟩
    · exact ⟨.snakeCase, by decide +kernel, rfl⟩
    · exact ⟨.lower, by decide +kernel, rfl⟩
    · exact ⟨.upper, by decide +kernel, rfl⟩
    · exact ⟨.verbatim, by decide +kernel, rfl⟩

theorem style_iff {attrs : List (Attr Unit)} {f : Str → Str} :
    (∃ r, parseValueAttrs enumUpdate none attrs = (r, []) ∧ f = (r.getD .kebabCase).rename cx) ↔ StyleOf cx attrs f := by
  simp only [parseValueAttrs_iff, runs_once (p := lit "rename_all") (f := asRename) (upd := enumUpdate) (fun _ _ => rfl)]
  constructor
  · rintro ⟨r, ⟨hf, ⟨h1, rfl⟩ | ⟨l, e, a, h1, h2, rfl⟩⟩, rfl⟩
    · exact .default hf h1
    · obtain ⟨s, rfl, hs⟩ := asRename_iff.mp ⟨a, h2, rfl⟩
      exact .given hf h1 hs
  · intro h
    cases h with
    | default hf h => exact ⟨none, ⟨hf, .inl ⟨h, rfl⟩⟩, rfl⟩
    | given hf h hs =>
      obtain ⟨x, h1, h2⟩ := asRename_iff.mpr ⟨_, rfl, hs⟩
      exact ⟨some x, ⟨hf, .inr ⟨_, _, x, h, h1, rfl⟩⟩, h2⟩

theorem name_iff {r : Rename} {v : EnumVariant V} {x : Str × V} :
    variantName cx r v = ([], some x) ↔ v.unit = true ∧ NameOf (r.rename cx) v x.1 ∧ x.2 = v.value := by
  obtain ⟨n, w⟩ := x
  unfold variantName
  cases hu : v.unit with
  | false => simp
  | true =>
    simp only [Bool.not_true, Bool.false_eq_true, if_false, true_and]
    have key : ∀ o, parseValueAttrs variantUpdate none v.attrs = (o, []) ↔ _ := fun o =>
      (parseValueAttrs_iff (upd := variantUpdate) (m := none) (m' := o)).trans (and_congr_right fun _ =>
        runs_once (p := lit "name") (f := asStr) (upd := variantUpdate) (fun _ _ => rfl))
    constructor
    · intro h
      split at h
      · rename_i s errs hp
        simp only [Prod.mk.injEq, Option.some.injEq] at h
        obtain ⟨rfl, rfl, rfl⟩ := h
        obtain ⟨hf, ⟨_, h⟩ | ⟨l, e, a, h1, h2, h3⟩⟩ := (key _).mp hp
        · cases h
        · cases h3
          rw [asStr_some] at h2
          subst h2
          exact ⟨.given hf h1, rfl⟩
      · rename_i errs hp
        simp only [Prod.mk.injEq, Option.some.injEq] at h
        obtain ⟨rfl, rfl, rfl⟩ := h
        obtain ⟨hf, ⟨h, _⟩ | ⟨l, e, a, h1, h2, h3⟩⟩ := (key _).mp hp
        · exact ⟨.default hf h, rfl⟩
        · cases h3
    · rintro ⟨h, hw⟩
      subst hw
      cases h with
      | default hf h => rw [(key none).mpr ⟨hf, .inl ⟨h, rfl⟩⟩]
      | given hf h => rw [(key (some n)).mpr ⟨hf, .inr ⟨_, _, n, h, rfl, rfl⟩⟩]

theorem variantName_some {r : Rename} {v : EnumVariant V} (h : (variantName cx r v).1 = []) :
    ∃ x, (variantName cx r v).2 = some x := by
  unfold variantName at h ⊢
  split
  · rename_i hu; rw [if_pos hu] at h; simp at h
  · split <;> exact ⟨_, rfl⟩

/-- Sorted lists of distinct names have no two equal neighbours. -/
theorem distinct_adjacent {α : Type} {name : α → Str} {xs : List α} (h : (xs.map name).Nodup) :
    (xs.zip (xs.drop 1)).any (fun w => decide (name w.1 = name w.2)) = false := by
  induction xs with
  | nil => rfl
  | cons x xs ih =>
    cases xs with
    | nil => rfl
    | cons y ys =>
      rw [List.map_cons, List.nodup_cons] at h
      simp only [List.drop_succ_cons, List.drop_zero, List.zip_cons_cons, List.any_cons, Bool.or_eq_false_iff,
        decide_eq_false_iff_not]
      exact ⟨fun he => h.1 (by simp [he]), by simpa using ih h.2⟩

theorem deriveValueEnum_iff {variants : List (Str × V)} :
    (∃ e, deriveValueEnum variants = .ok e)
      ↔ (variants.map Prod.fst).Nodup ∧ ∀ x ∈ variants, x.1.any isAsciiControl = false := by
  constructor
  · rintro ⟨e, h⟩
    obtain ⟨-, h2, h3, -⟩ := deriveValueEnum_ok h
    exact ⟨h2, h3⟩
  · rintro ⟨h1, h2⟩
    unfold deriveValueEnum
    dsimp only
    rw [if_pos]
    · exact ⟨_, rfl⟩
    · constructor
      · rw [List.flatMap_eq_nil_iff]
        intro x hx
        rw [h2 x hx]; rfl
      · refine distinct_adjacent (name := Prod.fst) ?_
        refine ((sortByKey_perm _ _).map Prod.fst).nodup_iff.mpr ?_
        rw [List.filter_eq_self.mpr]
        · exact h1
        · intro x hx; rw [h2 x hx]; rfl

theorem expandValueEnum_iff {attrs : List (Attr Unit)} {variants : Option (List (EnumVariant V))} {e : EnumDef V} :
    expandValueEnum cx attrs variants = .ok e ↔ ∃ vs style xs, variants = some vs ∧ StyleOf cx attrs style
      ∧ (∀ v ∈ vs, v.unit = true) ∧ Each (fun v x => NameOf style v x.1 ∧ x.2 = v.value) vs xs
      ∧ deriveValueEnum xs = .ok e := by
  unfold expandValueEnum
  constructor
  · intro h
    cases variants with
    | none => cases h
    | some vs =>
      dsimp only at h
      split at h
      · rename_i e' he
        split at h
        · rename_i hn
          cases h
          rw [List.append_eq_nil_iff] at hn
          have hs := (style_iff (cx := cx)).mp ⟨(parseValueAttrs enumUpdate none attrs).1, Prod.ext rfl hn.1, rfl⟩
          have hx := (collect_iff (fun v => variantName_some)).mp ⟨hn.2, rfl⟩
          refine ⟨vs, _, _, rfl, hs, ?_, hx.imp (fun v _ x h => (name_iff.mp h).2), he⟩
          intro v hv
          obtain ⟨x, -, h⟩ := hx.left hv
          exact (name_iff.mp h).1
        · cases h
      · cases h
  · rintro ⟨vs, style, xs, rfl, hs, hu, hx, he⟩
    obtain ⟨r, h1, rfl⟩ := style_iff.mpr hs
    dsimp only
    rw [h1]
    dsimp only
    have hx' : Each (fun v x => variantName cx (r.getD .kebabCase) v = ([], some x)) vs xs :=
      hx.imp (fun v hv x h => name_iff.mpr ⟨hu v hv, h⟩)
    obtain ⟨h2, h3⟩ := (collect_iff (fun v => variantName_some)).mpr hx'
    rw [h3, he, h2]
    rfl

end Palc
