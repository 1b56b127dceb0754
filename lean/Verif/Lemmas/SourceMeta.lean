import Verif.Lemmas.Source
/-!
# A list of attributes and the settings it makes
-/

namespace Palc

open Spec

variable {V E : Type}

/-- The items are read without any error. -/
def Runs {M : Type} (upd : M → Item E → Upd M) : M → List (Item E) → M → Prop
  | m, [], m' => m' = m
  | m, it :: rest, m' => ∃ m1, upd m it = .ok (m1, [], false) ∧ Runs upd m1 rest m'

theorem parseNested_clean {M : Type} {upd : M → Item E → Upd M} {m m' : M} {items : List (Item E)} :
    parseNested upd m items = (m', []) ↔ Runs upd m items m' := by
  induction items generalizing m with
  | nil => simp [parseNested, Runs, eq_comm]
  | cons it rest ih =>
    rw [parseNested, Runs]
    cases h : upd m it with
    | error e => simp
    | ok r =>
      obtain ⟨m1, errs, left⟩ := r
      cases left with
      | true => simp
      | false =>
        simp only [Prod.mk.injEq, List.append_eq_nil_iff, Except.ok.injEq, and_true]
        constructor
        · rintro ⟨h1, rfl, h2⟩
          exact ⟨m1, ⟨rfl, rfl⟩, ih.mp (Prod.ext h1 h2)⟩
        · rintro ⟨m2, ⟨rfl, rfl⟩, h2⟩
          rw [ih.mpr h2]
          exact ⟨rfl, rfl, rfl⟩

theorem Runs_append {M : Type} {upd : M → Item E → Upd M} {m m' : M} {xs ys : List (Item E)} :
    Runs upd m (xs ++ ys) m' ↔ ∃ m1, Runs upd m xs m1 ∧ Runs upd m1 ys m' := by
  induction xs generalizing m with
  | nil => simp [Runs]
  | cons x xs ih =>
    simp only [List.cons_append, Runs, ih]
    constructor
    · rintro ⟨m1, h1, m2, h2, h3⟩; exact ⟨m2, ⟨m1, h1, h2⟩, h3⟩
    · rintro ⟨m2, ⟨m1, h1, h2⟩, h3⟩; exact ⟨m1, h1, m2, h2, h3⟩

theorem Runs_single {M : Type} {upd : M → Item E → Upd M} {m m' : M} {it : Item E} :
    Runs upd m [it] m' ↔ upd m it = .ok (m', [], false) := by
  simp only [Runs]
  constructor
  · rintro ⟨m1, h, rfl⟩; exact h
  · intro h; exact ⟨m', h, rfl⟩

theorem settings_mem {items : List (Item E)} {s : Key} :
    s ∈ settings items ↔ ∃ it ∈ items, ∃ k, keyOf it.path = some k ∧ k.setting = some s := by
  unfold settings
  simp only [List.mem_filterMap, Option.bind_eq_some_iff]

theorem has_iff {items : List (Item E)} {k : Key} : has k items = true ↔ ∃ it ∈ items, keyOf it.path = some k := by
  unfold has; simp

theorem valueOf_isSome {items : List (Item E)} {k : Key} : (valueOf k items).isSome = has k items := by
  unfold valueOf has
  rw [Option.isSome_map, Bool.eq_iff_iff]
  simp

theorem valueOf_some {items : List (Item E)} {k : Key} {v : MetaVal E} (h : valueOf k items = some v) :
    ∃ it ∈ items, keyOf it.path = some k ∧ it.val = v := by
  unfold valueOf at h
  rw [Option.map_eq_some_iff] at h
  obtain ⟨it, h1, h2⟩ := h
  exact ⟨it, List.mem_of_find?_eq_some h1, by simpa using List.find?_some h1, h2⟩

theorem has_append {xs ys : List (Item E)} {k : Key} : has k (xs ++ ys) = (has k xs || has k ys) := by
  simp [has]

theorem valueOf_append {xs ys : List (Item E)} {k : Key} : valueOf k (xs ++ ys) = (valueOf k xs).or (valueOf k ys) := by
  unfold valueOf
  rw [List.find?_append]
  cases xs.find? (fun it => decide (keyOf it.path = some k)) <;> simp

theorem valuesOf_append {xs ys : List (Item E)} {ks : List Key} : valuesOf ks (xs ++ ys) = valuesOf ks xs ++ valuesOf ks ys := by
  simp [valuesOf]

theorem has_single {it : Item E} {k : Key} : has k [it] = decide (keyOf it.path = some k) := by simp [has]
theorem valueOf_single {it : Item E} {k : Key} : valueOf k [it] = if keyOf it.path = some k then some it.val else none := by
  unfold valueOf
  by_cases h : keyOf it.path = some k <;> simp [h]
theorem valuesOf_single {it : Item E} {ks : List Key} :
    valuesOf ks [it] = if ∃ k ∈ ks, keyOf it.path = some k then [it.val] else [] := by
  unfold valuesOf
  by_cases h : ∃ k ∈ ks, keyOf it.path = some k
  · rw [if_pos h, List.filter_cons_of_pos (by simpa using h)]; rfl
  · rw [if_neg h, List.filter_cons_of_neg (by simpa using h)]; rfl

theorem isStr_head {v : MetaVal E} (h : IsStr v) : ((strs v).head?).isSome = true := by
  obtain ⟨s, e, rfl⟩ := h; rfl
theorem isChar_head {v : MetaVal E} (h : IsChar v) : ((chars v).head?).isSome = true := by
  obtain ⟨s, e, rfl⟩ := h; rfl

theorem bind_isSome {α β : Type} {o : Option α} {f : α → Option β} (h : ∀ a, o = some a → (f a).isSome = true) :
    (o.bind f).isSome = o.isSome := by
  cases o with
  | none => rfl
  | some a => simpa using h a rfl

theorem setting_self {k s : Key} (h : k.setting = some s) : s.setting = some s ∧ s ≠ .useDelimiter := by
  cases k <;> simp [Key.setting] at h <;> subst h <;> simp [Key.setting]

theorem setting_iff {k s : Key} (hs : s.setting = some s) (hd : s ≠ .delimiter) : k.setting = some s ↔ k = s := by
  cases k <;> cases s <;> simp_all [Key.setting]

theorem isSet_iff {isIdent : Str → Bool} {doc : Str} {items : List (Item (DefaultOut V × Str))}
    (hok : ∀ it ∈ items, ItemOk isIdent it) {k s : Key} (hk : k.setting = some s) :
    isSet (metaOf doc items) s = true ↔ s ∈ settings items := by
  have hform : ∀ {j : Key} {v : MetaVal (DefaultOut V × Str)}, valueOf j items = some v → Form isIdent j v := by
    intro j v h
    obtain ⟨it, hit, h1, rfl⟩ := valueOf_some h
    obtain ⟨j', h2, h3⟩ := hok it hit
    rw [h1] at h2
    cases h2
    exact h3
  obtain ⟨hs, hu⟩ := setting_self hk
  by_cases hd : s = .delimiter
  · subst hd
    rw [settings_mem]
    have h1 : isSet (metaOf doc items) .delimiter = (has .useDelimiter items || has .delimiter items) := by
      simp only [isSet, metaOf]
      cases h : has .useDelimiter items with
      | true => simp
      | false =>
        simp only [Bool.false_eq_true, if_false, Bool.false_or]
        rw [bind_isSome, valueOf_isSome]
        intro v hv
        exact isChar_head (hform hv)
    rw [h1, Bool.or_eq_true, has_iff, has_iff]
    constructor
    · rintro (⟨it, h2, h3⟩ | ⟨it, h2, h3⟩)
      · exact ⟨it, h2, _, h3, rfl⟩
      · exact ⟨it, h2, _, h3, rfl⟩
    · rintro ⟨it, h2, j, h3, h4⟩
      cases j <;> simp [Key.setting] at h4
      · exact .inl ⟨it, h2, h3⟩
      · exact .inr ⟨it, h2, h3⟩
  · have h1 : s ∈ settings items ↔ has s items = true := by
      rw [settings_mem, has_iff]
      constructor
      · rintro ⟨it, h2, j, h3, h4⟩
        rw [setting_iff hs hd] at h4
        subst h4
        exact ⟨it, h2, h3⟩
      · rintro ⟨it, h2, h3⟩; exact ⟨it, h2, s, h3, hs⟩
    rw [h1]
    have hb : isSet (metaOf doc items) s = has s items := by
      cases s <;> simp only [Key.setting, reduceCtorEq] at hs <;> simp only [isSet, metaOf, Option.isSome_map, valueOf_isSome]
      case delimiter => exact absurd rfl hd
      case useDelimiter => exact absurd rfl hu
      all_goals
        rw [bind_isSome, valueOf_isSome]
        intro v hv
        exact isStr_head (hform hv)
    rw [hb]

theorem not_has {items : List (Item E)} {k s : Key} (hk : k.setting = some s) (h : s ∉ settings items) : has k items = false := by
  cases hh : has k items with
  | false => rfl
  | true =>
    obtain ⟨it, h1, h2⟩ := has_iff.mp hh
    exact absurd (settings_mem.mpr ⟨it, h1, k, h2, hk⟩) h

theorem not_valueOf {items : List (Item E)} {k s : Key} (hk : k.setting = some s) (h : s ∉ settings items) :
    valueOf k items = none := by
  have := not_has hk h
  rw [← valueOf_isSome] at this
  simpa using this

theorem metaOf_snoc {doc : Str} {items : List (Item (DefaultOut V × Str))} {it : Item (DefaultOut V × Str)} {k : Key}
    (hk : keyOf it.path = some k) (hs : ∀ s, k.setting = some s → s ∉ settings items) :
    metaOf doc (items ++ [it]) = applyKey (metaOf doc items) it.val k := by
  have hn : ∀ s, k.setting = some s → valueOf k items = none := fun s h => not_valueOf h (hs s h)
  unfold metaOf
  simp only [has_append, valueOf_append, valuesOf_append, has_single, valueOf_single, valuesOf_single, hk]
  cases k
  case useDelimiter =>
    have h1 := hs .delimiter rfl
    simp [applyKey, not_has (k := .useDelimiter) rfl h1]
  case delimiter =>
    have h1 := hs .delimiter rfl
    simp [applyKey, not_has (k := .useDelimiter) rfl h1, not_valueOf (k := .delimiter) rfl h1]
  all_goals first
    | (simp [applyKey]; done)
    | (simp [applyKey, hn _ rfl]; done)

theorem settings_append {xs ys : List (Item E)} : settings (xs ++ ys) = settings xs ++ settings ys := by
  simp [settings]

theorem snocInd {α : Type} {P : List α → Prop} (nil : P []) (snoc : ∀ (l : List α) (x : α), P l → P (l ++ [x])) (l : List α) :
    P l := by
  rw [← List.reverse_reverse l]
  induction l.reverse with
  | nil => exact nil
  | cons x xs ih => rw [List.reverse_cons]; exact snoc _ _ ih

theorem runs_iff {isIdent : Str → Bool} {items : List (Item (DefaultOut V × Str))} {m : ArgMeta V} :
    Runs (ArgMeta.parseUpdate isIdent) {} items m
      ↔ (∀ it ∈ items, ItemOk isIdent it) ∧ (settings items).Nodup ∧ m = metaOf [] items := by
  induction items using snocInd generalizing m with
  | nil => simp [Runs, settings, metaOf, has, valueOf, valuesOf]
  | snoc items it ih =>
    rw [Runs_append]
    simp only [ih, Runs_single, parseUpdate_key]
    constructor
    · rintro ⟨m1, ⟨h1, h2, rfl⟩, h3⟩
      cases hk : keyOf it.path with
      | none => rw [hk] at h3; exact absurd h3 (updKey_none _ _ _ _)
      | some k =>
        rw [hk, updKey_ok] at h3
        obtain ⟨h4, h5, rfl⟩ := h3
        have h6 : ∀ s, k.setting = some s → s ∉ settings items := by
          intro s hs hm
          have := (isSet_iff (doc := []) h1 hs).mpr hm
          rw [h5 s hs] at this
          exact absurd this (by simp)
        refine ⟨?_, ?_, (metaOf_snoc hk h6).symm⟩
        · intro it' hit'
          rcases List.mem_append.mp hit' with h | h
          · exact h1 it' h
          · rw [List.mem_singleton] at h; subst h; exact ⟨k, hk, h4⟩
        · rw [settings_append]
          cases hs : k.setting with
          | none => simpa [settings, hk, hs] using h2
          | some s =>
            simp only [settings, List.filterMap_cons, hk, Option.bind_some, hs, List.filterMap_nil]
            rw [List.nodup_append]
            refine ⟨h2, by simp, ?_⟩
            intro a ha b hb
            rw [List.mem_singleton] at hb
            subst hb
            rintro rfl
            exact h6 a hs ha
    · rintro ⟨h1, h2, rfl⟩
      rw [settings_append, List.nodup_append] at h2
      have h1' : ∀ it' ∈ items, ItemOk isIdent it' := fun it' h => h1 it' (List.mem_append_left _ h)
      refine ⟨_, ⟨h1', h2.1, rfl⟩, ?_⟩
      obtain ⟨k, hk, hf⟩ := h1 it (by simp)
      rw [hk, updKey_ok]
      have h6 : ∀ s, k.setting = some s → s ∉ settings items := by
        intro s hs hm
        exact h2.2.2 s hm s (by simp [settings, hk, hs]) rfl
      refine ⟨hf, ?_, metaOf_snoc hk h6⟩
      intro s hs
      cases hh : isSet (metaOf [] items) s with
      | false => rfl
      | true => exact absurd ((isSet_iff h1' hs).mp hh) (h6 s hs)

end Palc
