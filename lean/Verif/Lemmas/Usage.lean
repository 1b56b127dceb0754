import Verif.SpecUsage
import Verif.Lemmas.Violate
import Verif.Lemmas.HelpSpec
import Verif.Props.Write
/-! Lemmas on following the usage line. -/

namespace Palc

open Spec

variable {V : Type} {cx : Cx V} {e : ArgsDef V} {level : Nat} {val : Addr → List Bytes}

/-! ## Positional arguments -/

/-- The positional arguments of a struct: single ones, the list, the last list. -/
theorem positional_split (h : CoreWF cx (coreOf e)) :
    (coreOf e).fields.zipIdx.filter (fun x => !isOption x.1) = singles e ++ (varArg e).toList ++ (lastArg e).toList := by
  obtain ⟨ps, va, la, hl, h1, h2, h3⟩ := h.layout
  have hn := h.named
  unfold singles varArg lastArg
  have hf : (coreOf e).fields = (coreOf e).fields.take (coreOf e).namedCnt ++ (ps ++ va.toList ++ la.toList) := by
    rw [← hl, List.take_append_drop]
  generalize (coreOf e).fields.take (coreOf e).namedCnt = ns at hn hf
  rw [hf, List.zipIdx_append, List.zipIdx_append, List.zipIdx_append]
  generalize 0 + (ns.length) = p
  have A : ∀ x ∈ ns.zipIdx 0, isOption x.1 = true := fun x hx => hn x.1 (List.fst_mem_of_mem_zipIdx hx)
  generalize ns.zipIdx 0 = A' at A
  generalize p + ps.length = q
  generalize p + (ps ++ va.toList).length = r
  have B : ∀ x ∈ ps.zipIdx p, isOption x.1 = false ∧ isMulti x.1 = false ∧ x.1.src.last = false :=
    fun x hx => h1 x.1 (List.fst_mem_of_mem_zipIdx hx)
  generalize ps.zipIdx p = B' at B
  have fA : ∀ q : FieldInfo V × Nat → Bool, (∀ x, isOption x.1 = true → q x = false) → A'.filter q = [] ∧ A'.find? q = none := by
    intro q hq
    exact ⟨List.filter_eq_nil_iff.2 (fun x hx => by simp [hq x (A x hx)]), List.find?_eq_none.2 (fun x hx => by simp [hq x (A x hx)])⟩
  have fB : ∀ q : FieldInfo V × Nat → Bool, (∀ x, isMulti x.1 = false → x.1.src.last = false → q x = false) →
      B'.filter q = [] ∧ B'.find? q = none := by
    intro q hq
    exact ⟨List.filter_eq_nil_iff.2 (fun x hx => by simp [hq x (B x hx).2.1 (B x hx).2.2]),
      List.find?_eq_none.2 (fun x hx => by simp [hq x (B x hx).2.1 (B x hx).2.2])⟩
  have gB : ∀ q : FieldInfo V × Nat → Bool, (∀ x, isOption x.1 = false → isMulti x.1 = false → x.1.src.last = false → q x = true) →
      B'.filter q = B' := by
    intro q hq
    exact List.filter_eq_self.2 (fun x hx => hq x (B x hx).1 (B x hx).2.1 (B x hx).2.2)
  simp only [List.filter_append, List.find?_append]
  rw [(fA _ (fun x hx => by simp [hx])).1, (fA _ (fun x hx => by simp [hx])).1, (fA _ (fun x hx => by simp [hx])).2,
    (fA _ (fun x hx => by simp [hx])).2, gB _ (fun x hx _ _ => by simp [hx]), gB _ (fun x h h' h'' => by simp [h, h', h'']),
    (fB _ (fun x h h' => by simp [h])).2, (fB _ (fun x h h' => by simp [h'])).2]
  simp only [List.nil_append, Option.none_or]
  have C : ∀ x ∈ va, isOption x = false ∧ isMulti x = true ∧ x.src.last = false := h2
  have D : ∀ x ∈ la, isOption x = false ∧ x.src.last = true := h3
  cases va with
  | none =>
    cases la with
    | none => simp
    | some b =>
      have := D b rfl
      simp [this]
  | some a =>
    have hC := C a rfl
    cases la with
    | none => simp [hC]
    | some b =>
      have := D b rfl
      simp [this, hC]

theorem positional_nodup (h : CoreWF cx (coreOf e)) :
    ((singles e ++ (varArg e).toList ++ (lastArg e).toList).map (·.2)).Nodup := by
  rw [← positional_split h]
  refine List.Nodup.sublist (List.Sublist.map _ List.filter_sublist) ?_
  rw [List.zipIdx_map_snd]
  exact List.nodup_range'

theorem positional_mem (h : CoreWF cx (coreOf e)) {i : Nat} {f : FieldInfo V} :
    ((coreOf e).fields[i]? = some f ∧ isOption f = false) ↔ (f, i) ∈ singles e ++ (varArg e).toList ++ (lastArg e).toList := by
  rw [← positional_split h, List.mem_filter, List.mem_zipIdx_iff_getElem?]
  simp

/-- The positional arguments in the usage line. -/
def usagePos (e : ArgsDef V) : List (FieldInfo V × Nat) := usageSingles e ++ usageMany e ++ usageLast e

theorem usagePos_sublist (e : ArgsDef V) : (usagePos e).Sublist (singles e ++ (varArg e).toList ++ (lastArg e).toList) :=
  (List.filter_sublist.append List.filter_sublist).append List.filter_sublist

theorem singles_kind {x : FieldInfo V × Nat} (h : x ∈ singles e) : isMulti x.1 = false := by
  unfold singles at h
  have := (List.mem_filter.1 h).2
  simp only [Bool.and_eq_true, Bool.not_eq_true'] at this
  exact this.1.2

theorem varArg_kind {x : FieldInfo V × Nat} (h : varArg e = some x) : isMulti x.1 = true := by
  unfold varArg at h
  have := List.find?_some h
  simp only [Bool.and_eq_true, Bool.not_eq_true'] at this
  exact this.1.2

theorem usagePos_mem (h : CoreWF cx (coreOf e)) {i : Nat} {f : FieldInfo V} :
    (f, i) ∈ usagePos e ↔ (coreOf e).fields[i]? = some f ∧ isOption f = false ∧ Listed f := by
  have hm := positional_mem h (i := i) (f := f)
  constructor
  · intro hx
    have h1 := hm.2 ((usagePos_sublist e).mem hx)
    refine ⟨h1.1, h1.2, ?_⟩
    unfold usagePos usageSingles usageMany usageLast at hx
    simp only [List.mem_append, List.mem_filter, Option.mem_toList, Bool.and_eq_true, Bool.not_eq_true'] at hx
    rcases hx with (⟨_, hx⟩ | ⟨hv, hx⟩) | ⟨hv, hx⟩
    · exact ⟨hx.2, .inl hx.1⟩
    · exact ⟨hx, .inr ⟨h1.2, varArg_kind hv⟩⟩
    · exact ⟨hx, .inr ⟨h1.2, (h.fields i f h1.1).lastMulti (lastArg_field hv).1⟩⟩
  · rintro ⟨h1, h2, h3, h4⟩
    have := hm.1 ⟨h1, h2⟩
    unfold usagePos usageSingles usageMany usageLast
    simp only [List.mem_append, List.mem_filter, Option.mem_toList, Bool.and_eq_true, Bool.not_eq_true'] at this ⊢
    rcases this with (hx | hx) | hx
    · refine .inl (.inl ⟨hx, ?_, h3⟩)
      rcases h4 with h4 | ⟨_, h4⟩
      · exact h4
      · rw [singles_kind hx] at h4; cases h4
    · exact .inl (.inr ⟨hx, h3⟩)
    · exact .inr ⟨hx, h3⟩

/-! ## Occurrences -/

/-- The occurrences of one argument among those of distinct arguments. -/
theorem occs_items {items : List (Addr × List (Option Bytes))} (hn : (items.map (·.1)).Nodup) (a : Addr) :
    (∀ os, (a, os) ∈ items → occs (items.flatMap (fun x => x.2.map (fun o => (x.1, o)))) a = os)
    ∧ (a ∉ items.map (·.1) → occs (items.flatMap (fun x => x.2.map (fun o => (x.1, o)))) a = []) := by
  have one : ∀ (b : Addr) (os : List (Option Bytes)), occs (os.map (fun o => (b, o))) a = if b = a then os else [] := by
    intro b os
    unfold occs
    by_cases hb : b = a
    · subst hb
      rw [if_pos rfl, List.filter_eq_self.2 (fun x hx => by obtain ⟨o, _, rfl⟩ := List.mem_map.1 hx; simp), List.map_map]
      exact List.map_id os
    · rw [if_neg hb, List.filter_eq_nil_iff.2 (fun x hx => by obtain ⟨o, _, rfl⟩ := List.mem_map.1 hx; simpa using hb)]
      rfl
  induction items with
  | nil => exact ⟨fun os h => absurd h List.not_mem_nil, fun _ => rfl⟩
  | cons x items ih =>
    obtain ⟨b, os'⟩ := x
    rw [List.map_cons, List.nodup_cons] at hn
    obtain ⟨i1, i2⟩ := ih hn.2
    rw [List.flatMap_cons, occs_append, one]
    constructor
    · intro os h
      rcases List.mem_cons.1 h with h | h
      · cases h
        rw [if_pos rfl, i2 hn.1, List.append_nil]
      · have : b ≠ a := by
          rintro rfl
          exact hn.1 (List.mem_map.2 ⟨_, h, rfl⟩)
        rw [if_neg this, i1 os h, List.nil_append]
    · intro h
      rw [List.map_cons, List.mem_cons, not_or] at h
      rw [if_neg (fun hb => h.1 hb.symm), i2 h.2, List.nil_append]

theorem fieldsAt_nodup (level : Nat) (e : ArgsDef V) : ((fieldsAt level e).map (·.1)).Nodup := by
  rw [fieldsAt_eq, List.nodup_iff_pairwise_ne, List.pairwise_map]
  exact (fieldsFrom_sorted level 0 (structs e)).imp (fun {x y} h he => by
    rw [he] at h
    exact Addr.precedes_asymm h h)

theorem usageOptions_mem {a : Addr} {f : FieldInfo V} :
    (a, f) ∈ usageOptions level e ↔ (a, f) ∈ fieldsAt level e ∧ isOption f = true ∧ Listed f := by
  unfold usageOptions Listed
  rw [List.mem_filter]
  simp only [Bool.and_eq_true, Bool.not_eq_true', and_assoc]
  constructor
  · rintro ⟨h1, h2, h3, h4⟩; exact ⟨h1, h2, h4, .inl h3⟩
  · rintro ⟨h1, h2, h4, h3 | ⟨h3, _⟩⟩
    · exact ⟨h1, h2, h3, h4⟩
    · rw [h2] at h3; cases h3

theorem core_fieldsAt {i : Nat} {f : FieldInfo V} (h : (coreOf e).fields[i]? = some f) : ((⟨level, 0, i⟩ : Addr), f) ∈ fieldsAt level e := by
  rw [fieldsAt_mem_iff]
  exact ⟨rfl, coreOf e, by rw [structs_eq]; rfl, h⟩

theorem fieldsAt_det {a : Addr} {f g : FieldInfo V} (h : (a, f) ∈ fieldsAt level e) (h' : (a, g) ∈ fieldsAt level e) : f = g := by
  rw [fieldsAt_mem_iff] at h h'
  obtain ⟨_, c, h1, h2⟩ := h
  obtain ⟨_, c', h1', h2'⟩ := h'
  rw [h1] at h1'
  cases h1'
  rw [h2] at h2'
  cases h2'
  rfl

mutual
theorem flat_options : (fl : Flats V) → WFFlats cx fl → ∀ c ∈ flatStructs fl, ∀ f ∈ c.fields, isOption f = true
  | .nil, _, c, hc => by rw [flatStructs] at hc; simp at hc
  | .cons _ d rest, h, c, hc => by
    rw [WFFlats] at h
    rw [flatStructs] at hc
    rcases List.mem_append.1 hc with hc | hc
    · exact args_options d h.1 h.2.1 c hc
    · exact flat_options rest h.2.2.2 c hc
theorem args_options : (d : ArgsDef V) → WFArgs cx d → (coreOf d).positional = [] → ∀ c ∈ structs d, ∀ f ∈ c.fields, isOption f = true
  | .mk core flats sub, h, hp, c, hc => by
    rw [WFArgs] at h
    rw [structs] at hc
    rcases List.mem_cons.1 hc with rfl | hc
    · intro f hf
      rw [coreOf, rest_filter h.1] at hp
      have := List.filter_eq_nil_iff.1 hp f hf
      simpa using this
    · exact flat_options flats h.2.1 c hc
end

theorem positional_core (wf : WFArgs cx e) {a : Addr} {f : FieldInfo V} (h : (a, f) ∈ fieldsAt level e) (ho : isOption f = false) :
    a = ⟨level, 0, a.field⟩ ∧ (coreOf e).fields[a.field]? = some f := by
  rw [fieldsAt_mem_iff] at h
  obtain ⟨h1, c, h2, h3⟩ := h
  obtain ⟨l, s, i⟩ := a
  dsimp only at h1 h2 h3 ⊢
  subst h1
  rw [structs_eq] at h2
  cases s with
  | zero => cases h2; exact ⟨rfl, h3⟩
  | succ s =>
    rw [List.getElem?_cons_succ] at h2
    have hf : WFFlats cx (flatsOf e) := by cases e; exact wf.2.1
    have := flat_options _ hf c (List.mem_of_getElem? h2) f (List.mem_of_getElem? h3)
    rw [ho] at this; cases this

theorem usageItems_eq (level : Nat) (e : ArgsDef V) (val : Addr → List Bytes) : usageItems level e val =
    (usageOptions level e).map (fun x => (x.1, typedOccs x.2 (val x.1))) ++ (usagePos e).map (fun x => (⟨level, 0, x.2⟩, (val ⟨level, 0, x.2⟩).map some)) := rfl

theorem items_nodup (wf : WFArgs cx e) : ((usageItems level e val).map (·.1)).Nodup := by
  have hc : CoreWF cx (coreOf e) := by cases e; exact wf.1
  rw [usageItems_eq, List.map_append, List.map_map, List.map_map, List.nodup_append]
  refine ⟨?_, ?_, ?_⟩
  · exact (fieldsAt_nodup level e).sublist (List.Sublist.map _ List.filter_sublist)
  · have := (positional_nodup hc).sublist ((usagePos_sublist e).map (·.2))
    rw [List.nodup_iff_pairwise_ne, List.pairwise_map] at this ⊢
    exact this.imp (fun {x y} h he => h (congrArg Addr.field he))
  · intro a ha b hb hab
    subst hab
    obtain ⟨⟨a', f⟩, h1, rfl⟩ := List.mem_map.1 ha
    obtain ⟨⟨g, j⟩, h2, h3⟩ := List.mem_map.1 hb
    simp only [Function.comp] at h3
    subst h3
    rw [usageOptions_mem] at h1
    rw [usagePos_mem hc] at h2
    have := fieldsAt_det h1.1 (core_fieldsAt h2.1)
    subst this
    rw [h1.2.1] at h2
    cases h2.2.1

/-- What the typed command line gives to an argument. -/
theorem usage_occs (wf : WFArgs cx e) {a : Addr} {f : FieldInfo V} (h : (a, f) ∈ fieldsAt level e) :
    (Listed f → occs (usageEvents level e val) a = typedOccs f (val a)) ∧ (¬ Listed f → occs (usageEvents level e val) a = []) := by
  have hc : CoreWF cx (coreOf e) := by cases e; exact wf.1
  have key := occs_items (items_nodup (level := level) (val := val) wf) a
  constructor
  · intro hl
    refine key.1 _ ?_
    rw [usageItems_eq, List.mem_append]
    cases ho : isOption f with
    | true => exact .inl (List.mem_map.2 ⟨(a, f), usageOptions_mem.2 ⟨h, ho, hl⟩, rfl⟩)
    | false =>
      right
      obtain ⟨h1, h2⟩ := positional_core wf h ho
      refine List.mem_map.2 ⟨(f, a.field), (usagePos_mem hc).2 ⟨h2, ho, hl⟩, ?_⟩
      rw [← h1]
      simp [typedOccs, ho]
  · intro hl
    refine key.2 ?_
    intro hm
    obtain ⟨x, hx, rfl⟩ := List.mem_map.1 hm
    rw [usageItems_eq, List.mem_append] at hx
    rcases hx with hx | hx
    · obtain ⟨⟨b, g⟩, h1, rfl⟩ := List.mem_map.1 hx
      rw [usageOptions_mem] at h1
      exact hl (fieldsAt_det h1.1 h ▸ h1.2.2)
    · obtain ⟨⟨g, j⟩, h1, rfl⟩ := List.mem_map.1 hx
      rw [usagePos_mem hc] at h1
      exact hl (fieldsAt_det (core_fieldsAt h1.1) h ▸ h1.2.2)

/-! ## Reading -/

theorem usageName_declares {f : FieldInfo V} {n : Name} (h : usageName cx f = some n) : declares cx f n = true := by
  unfold usageName at h
  rcases hl : f.src.long with _ | (_ | s)
  · rw [hl] at h
    rcases hs : f.src.short with _ | (_ | c)
    · rw [hs] at h; cases h
    · rw [hs] at h
      simp only [Option.map_eq_some_iff] at h
      obtain ⟨c, hc, rfl⟩ := h
      cases hi : f.ident with
      | nil => rw [hi] at hc; cases hc
      | cons c' r =>
        rw [hi] at hc
        cases hc
        simp [declares, isOption, shortNames, hs, hi]
    · rw [hs] at h
      cases h
      simp [declares, isOption, shortNames, hs]
  · rw [hl] at h
    cases h
    simp [declares, isOption, longNames, hl]
  · rw [hl] at h
    cases h
    simp [declares, isOption, longNames, hl]

theorem usage_resolves {i : CmdId} {st : List (Entry V)} (hT : Typable cx st.length e val) {a : Addr} {f : FieldInfo V}
    (h : (a, f) ∈ usageOptions st.length e) : ∃ n, usageName cx f = some n ∧ Resolves cx ((i, e) :: st) n a f := by
  obtain ⟨n, hn, hu⟩ := hT.unique _ h
  have hf := (fieldsAt_cons_iff (i := i)).1 (usageOptions_mem.1 h).1
  refine ⟨n, hn, resolves_iff.2 ⟨hf.2, .inl (by rw [hf.1]; rfl), usageName_declares hn, ?_⟩⟩
  intro b g hb _ hd
  by_cases hl : b.level = st.length
  · exact .inl (hu (b, g) ((fieldsAt_cons_iff (i := i)).2 ⟨hl, hb⟩) hd).symm
  · right
    have h1 := fieldAt_lt hb
    have h2 := hf.1
    rw [List.length_cons] at h1
    unfold Addr.precedes
    omega

/-- One option with a value of its own argument. -/
theorem sep_step {st : List (Entry V)} (hwf : StackWF cx st) {n : Name} {a : Addr} {f : FieldInfo V} (hr : Resolves cx st n a f)
    (ht : takesValue f = true) (hq : f.src.requireEquals = false) {v : Bytes} (hs : Standalone f v) (k : Nat) (post : Toks) :
    Step cx ⟨st, k, .opts⟩ (optToken n none :: v :: post) [(a, some v)] ⟨st, k, .opts⟩ post := by
  cases n with
  | long n =>
    obtain ⟨hne, hneq⟩ := hwf.long hr
    exact .longSep hr hneq hne ht hq hs
  | short c =>
    obtain ⟨hc1, _⟩ := hwf.short hr
    have hd : optToken (.short c) none = dash :: encChar c := by
      show enc ('-' :: [c]) = _
      rw [enc_cons, enc_cons, enc_nil, List.append_nil]
      rfl
    rw [hd]
    refine .clusterSep ?_ (.sep hr ht hq rfl hs)
    have := encChar_head_ne_dash hc1 []
    rwa [List.append_nil] at this

theorem typed_steps {st : List (Entry V)} (hwf : StackWF cx st) {n : Name} {a : Addr} {f : FieldInfo V} (hn : usageName cx f = some n)
    (ho : isOption f = true) (hr : Resolves cx st n a f) {vs : List Bytes} (hs : f.src.requireEquals = false → ∀ v ∈ vs, Standalone f v)
    (k : Nat) (post : Toks) :
    Steps cx ⟨st, k, .opts⟩ (typedOption cx f vs ++ post) ((typedOccs f vs).map (fun o => (a, o))) ⟨st, k, .opts⟩ post := by
  unfold typedOption typedOccs
  rw [hn, ho]
  dsimp only
  cases ht : takesValue f with
  | false =>
    simp only [Bool.false_eq_true, if_false, Bool.not_true, Bool.or_self, List.map_cons, List.map_nil, List.cons_append, List.nil_append]
    exact .step (option_step hwf (w := (n, none)) ⟨f, hr, takes_none.2 ht⟩ k post) .refl
  | true =>
    simp only [if_true, Bool.true_or]
    induction vs with
    | nil => exact .refl
    | cons v vs ih =>
      have ih := ih (fun hq w hw => hs hq w (by simp [hw]))
      rw [List.flatMap_cons, List.map_cons, List.map_cons, List.append_assoc]
      cases hq : f.src.requireEquals with
      | true =>
        simp only [hq, if_true, List.cons_append, List.nil_append] at ih ⊢
        refine .step (option_step hwf (w := (n, some v)) ⟨f, hr, ?_⟩ k _) ih
        cases n with
        | long n => intro hk; simp [takesValue, hk] at ht
        | short c => exact takes_short.2 ht
      | false =>
        simp only [hq, Bool.false_eq_true, if_false, List.cons_append, List.nil_append] at ih ⊢
        exact .step (sep_step hwf hr ht hq (hs hq v (by simp)) k _) ih

theorem usage_options_steps {i : CmdId} {st : List (Entry V)} (hwf : StackWF cx ((i, e) :: st)) (hT : Typable cx st.length e val)
    (k : Nat) (post : Toks) :
    Steps cx ⟨(i, e) :: st, k, .opts⟩ (typedOptions cx st.length e val ++ post)
      ((usageOptions st.length e).flatMap (fun x => (typedOccs x.2 (val x.1)).map (fun o => (x.1, o)))) ⟨(i, e) :: st, k, .opts⟩ post := by
  have hall : ∀ x ∈ usageOptions st.length e, ∃ n, usageName cx x.2 = some n ∧ isOption x.2 = true ∧ Resolves cx ((i, e) :: st) n x.1 x.2
      ∧ (x.2.src.requireEquals = false → ∀ v ∈ val x.1, Standalone x.2 v) := by
    rintro ⟨a, f⟩ hx
    obtain ⟨n, h1, h2⟩ := usage_resolves (i := i) hT hx
    exact ⟨n, h1, (usageOptions_mem.1 hx).2.1, h2, hT.option _ hx⟩
  unfold typedOptions
  generalize usageOptions st.length e = L at hall
  induction L with
  | nil => exact .refl
  | cons x L ih =>
    obtain ⟨n, h1, h2, h3, h4⟩ := hall x (by simp)
    rw [List.flatMap_cons, List.flatMap_cons, List.append_assoc]
    exact steps_trans (typed_steps hwf h1 h2 h3 h4 k _) (ih (fun y hy => hall y (by simp [hy])))

/-- Positional values for the targets `P`.  Everything after the first value of a trailing list is for it. -/
theorem plain_steps {i : CmdId} {st : List (Entry V)} (hs : ∀ x ∈ singles e, x ∈ usageSingles e → x.1.src.trailingVarArg = false) :
    ∀ (P : List (Bytes × (FieldInfo V × Nat))) (k : Nat) (post : Toks),
      (∀ (j : Nat) v x, P[j]? = some (v, x) → posTarget e (k + j) = some x ∧ (x ∈ singles e → x ∈ usageSingles e)
        ∧ Plain v ∧ ∀ w ∈ subVariants e, enc w.name ≠ v) →
      ∃ k' m', Steps cx ⟨(i, e) :: st, k, .opts⟩ (P.map (·.1) ++ post) (P.map (fun x => (⟨st.length, 0, x.2.2⟩, some x.1))) ⟨(i, e) :: st, k', m'⟩ post
        ∧ (m' = .opts ∨ ∃ x ∈ P, varArg e = some x.2 ∧ x.2.1.src.trailingVarArg = true)
  | [], k, post, _ => ⟨k, .opts, .refl, .inl rfl⟩
  | (v, f, idx) :: P, k, post, h => by
    obtain ⟨hf, hus, hp, hns⟩ := h 0 v (f, idx) rfl
    rw [Nat.add_zero] at hf
    by_cases ht : f.src.trailingVarArg = true
    · have hnone : (singles e)[k]? = none := by
        cases hk : (singles e)[k]? with
        | none => rfl
        | some y =>
          have : y = (f, idx) := by simpa [posTarget, hk] using hf
          subst this
          have hm := List.mem_of_getElem? hk
          have := hs _ hm (hus hm)
          rw [ht] at this
          cases this
      have hva : varArg e = some (f, idx) := by simpa [posTarget, hnone] using hf
      have hall : ∀ x ∈ P, x.2 = (f, idx) := by
        intro x hx
        obtain ⟨j, hj⟩ := List.getElem?_of_mem hx
        have hg := (h (j + 1) x.1 x.2 hj).1
        have : (singles e)[k + (j + 1)]? = none := by
          rw [List.getElem?_eq_none_iff] at hnone ⊢
          omega
        rw [posTarget, this] at hg
        dsimp only at hg
        rw [hva] at hg
        exact (Option.some.inj hg).symm
      have hmap : P.map (fun x => ((⟨st.length, 0, x.2.2⟩ : Addr), some x.1)) = (P.map (·.1)).map (fun v => (⟨st.length, 0, idx⟩, some v)) := by
        rw [List.map_map]
        exact List.map_congr_left (fun x hx => by simp [hall x hx])
      refine ⟨k + 1, .trailing idx, ?_, .inr ⟨(v, f, idx), by simp, hva, ht⟩⟩
      rw [List.map_cons, List.map_cons, hmap, List.cons_append]
      have h1 : Step cx ⟨(i, e) :: st, k, .opts⟩ (v :: (P.map (·.1) ++ post)) [(⟨st.length, 0, idx⟩, some v)]
          ⟨(i, e) :: st, k + 1, .trailing idx⟩ (P.map (·.1) ++ post) := by
        have := Step.positional (cx := cx) (i := i) (st := st) (toks := P.map (·.1) ++ post) hp hns hf
        rwa [modeAfter, if_pos ht] at this
      exact .step h1 (steps_append (reads_steps (trailing_reads _)) post)
    · obtain ⟨k', m', hr, hm⟩ := plain_steps hs P (k + 1) post (fun j v x hj => by
        have := h (j + 1) v x hj
        rwa [show k + (j + 1) = k + 1 + j by omega] at this)
      refine ⟨k', m', ?_, hm.imp id (fun ⟨x, hx, h1⟩ => ⟨x, by simp [hx], h1⟩)⟩
      rw [List.map_cons, List.map_cons, List.cons_append]
      have h1 : Step cx ⟨(i, e) :: st, k, .opts⟩ (v :: (P.map (·.1) ++ post)) [(⟨st.length, 0, idx⟩, some v)]
          ⟨(i, e) :: st, k + 1, .opts⟩ (P.map (·.1) ++ post) := by
        have := Step.positional (cx := cx) (i := i) (st := st) (toks := P.map (·.1) ++ post) hp hns hf
        rwa [modeAfter, if_neg ht] at this
      exact .step h1 hr

/-- The positional values with their targets. -/
def usagePairs (level : Nat) (e : ArgsDef V) (val : Addr → List Bytes) : List (Bytes × (FieldInfo V × Nat)) :=
  (usageSingles e ++ usageMany e).flatMap (fun x => (val ⟨level, 0, x.2⟩).map (fun v => (v, x)))

theorem pairs_fst (level : Nat) (e : ArgsDef V) (val : Addr → List Bytes) : (usagePairs level e val).map (·.1) = typedArgs level e val := by
  unfold usagePairs typedArgs
  rw [List.map_flatMap]
  congr 1
  funext x
  rw [List.map_map]
  exact List.map_id _

theorem pairs_events (level : Nat) (e : ArgsDef V) (val : Addr → List Bytes) :
    (usagePairs level e val).map (fun x => ((⟨level, 0, x.2.2⟩ : Addr), some x.1))
      = (usageSingles e ++ usageMany e).flatMap (fun x => ((val ⟨level, 0, x.2⟩).map some).map (fun o => ((⟨level, 0, x.2⟩ : Addr), o))) := by
  unfold usagePairs
  rw [List.map_flatMap]
  congr 1
  funext x
  rw [List.map_map, List.map_map]
  rfl

theorem singles_pairs (level : Nat) (val : Addr → List Bytes) : ∀ (L : List (FieldInfo V × Nat)), (∀ x ∈ L, (val ⟨level, 0, x.2⟩).length = 1) →
    (L.flatMap (fun x => (val ⟨level, 0, x.2⟩).map (fun v => (v, x)))).map (·.2) = L
  | [], _ => rfl
  | x :: L, h => by
    have h1 := h x (by simp)
    rw [List.flatMap_cons, List.map_append, singles_pairs level val L (fun y hy => h y (by simp [hy]))]
    match hv : val ⟨level, 0, x.2⟩ with
    | [] => rw [hv] at h1; cases h1
    | [v] => rfl
    | v :: w :: r => rw [hv] at h1; simp at h1

theorem pairs_target (hT : Typable cx level e val) (j : Nat) (v : Bytes) (x : FieldInfo V × Nat)
    (h : (usagePairs level e val)[j]? = some (v, x)) : posTarget e (0 + j) = some x ∧ (x ∈ singles e → x ∈ usageSingles e)
      ∧ Plain v ∧ ∀ w ∈ subVariants e, enc w.name ≠ v := by
  have hmem := List.mem_of_getElem? h
  unfold usagePairs at hmem
  obtain ⟨y, hy, hv⟩ := List.mem_flatMap.1 hmem
  obtain ⟨v', hv', he⟩ := List.mem_map.1 hv
  cases he
  refine ⟨?_, ?_, hT.plain x hy v hv'⟩
  · rw [Nat.zero_add]
    have hsp := singles_pairs level val (usageSingles e) hT.single
    unfold usagePairs at h
    rw [List.flatMap_append] at h
    generalize hA : (usageSingles e).flatMap (fun x => (val ⟨level, 0, x.2⟩).map (fun v => (v, x))) = A at hsp h
    have hlen : A.length = (usageSingles e).length := by rw [← hsp, List.length_map]
    obtain ⟨R, hR⟩ := hT.order
    by_cases hj : j < A.length
    · rw [List.getElem?_append_left hj] at h
      have : (usageSingles e)[j]? = some x := by rw [← hsp, List.getElem?_map, h]; rfl
      have : (singles e)[j]? = some x := by
        rw [← hR, List.getElem?_append_left (by omega)]
        exact this
      rw [posTarget, this]
    · rw [List.getElem?_append_right (by omega)] at h
      obtain ⟨y, hy, hv⟩ := List.mem_flatMap.1 (List.mem_of_getElem? h)
      obtain ⟨v', hv', he⟩ := List.mem_map.1 hv
      cases he
      have hm := hT.many x hy (List.ne_nil_of_mem hv')
      have : (singles e)[j]? = none := by
        rw [List.getElem?_eq_none_iff, ← hm]
        omega
      rw [posTarget, this]
      unfold usageMany at hy
      exact Option.mem_toList.1 (List.mem_filter.1 hy).1
  · intro hs
    rcases List.mem_append.1 hy with hy | hy
    · exact hy
    · unfold usageMany at hy
      have := varArg_kind (Option.mem_toList.1 (List.mem_filter.1 hy).1)
      rw [singles_kind hs] at this
      cases this

/-- What is typed according to the usage line is read as meant. -/
theorem usage_reads {i : CmdId} {st : List (Entry V)} (hwf : StackWF cx ((i, e) :: st)) (hT : Typable cx st.length e val) :
    ∃ k' m', Reads cx ⟨(i, e) :: st, 0, .opts⟩ (usageArgs cx st.length e val) (usageEvents st.length e val) ⟨(i, e) :: st, k', m'⟩ := by
  have h1 := usage_options_steps hwf hT 0 (typedArgs st.length e val ++ typedLast st.length e val)
  obtain ⟨k', m', h2, h3⟩ := plain_steps (cx := cx) (i := i) (st := st) (e := e) (fun x _ hx => hT.trailing x hx)
    (usagePairs st.length e val) 0 (typedLast st.length e val) (pairs_target hT)
  rw [pairs_fst, pairs_events] at h2
  have h12 := steps_trans h1 h2
  have hlast : ∃ m'', Reads cx ⟨(i, e) :: st, k', m'⟩ (typedLast st.length e val)
      ((usageLast e).flatMap (fun x => ((val ⟨st.length, 0, x.2⟩).map some).map (fun o => ((⟨st.length, 0, x.2⟩ : Addr), o)))) ⟨(i, e) :: st, k', m''⟩ := by
    unfold typedLast
    by_cases hnil : ∀ y ∈ usageLast e, val ⟨st.length, 0, y.2⟩ = []
    · refine ⟨m', ?_⟩
      rw [List.flatMap_eq_nil_iff.2 (fun x hx => by simp [hnil x hx]), List.flatMap_eq_nil_iff.2 (fun x hx => by simp [hnil x hx])]
      exact .done
    · have hm : m' = .opts := by
        rcases h3 with h3 | ⟨x, hx, hv, ht⟩
        · exact h3
        · exfalso
          refine hnil (hT.last x.2 ?_ ht ?_)
          · unfold usagePairs at hx
            obtain ⟨y, hy, hz⟩ := List.mem_flatMap.1 hx
            obtain ⟨v', hv', rfl⟩ := List.mem_map.1 hz
            rcases List.mem_append.1 hy with hy | hy
            · have := singles_kind (List.mem_filter.1 hy).1
              rw [varArg_kind hv] at this; cases this
            · exact hy
          · unfold usagePairs at hx
            obtain ⟨y, hy, hz⟩ := List.mem_flatMap.1 hx
            obtain ⟨v', hv', rfl⟩ := List.mem_map.1 hz
            exact List.ne_nil_of_mem hv'
      subst hm
      unfold usageLast at hnil ⊢
      cases hl : lastArg e with
      | none => rw [hl] at hnil; simp at hnil
      | some x =>
        rw [hl] at hnil
        simp only [Option.toList_some] at hnil ⊢
        cases hh : x.1.src.hide with
        | true => simp [hh] at hnil
        | false =>
          simp [hh] at hnil
          refine ⟨.dashed, ?_⟩
          simp only [hh, Bool.not_false, List.filter_cons_of_pos, List.filter_nil, List.flatMap_cons, List.flatMap_nil, List.append_nil, hnil, if_false, List.map_map]
          exact .dashdash (last_reads hl _)
  obtain ⟨m'', h4⟩ := hlast
  refine ⟨k', m'', ?_⟩
  have := steps_reads h12 h4
  unfold usageArgs
  rw [List.append_assoc]
  unfold usageEvents usageItems
  rw [List.flatMap_append, List.flatMap_map, List.flatMap_map, List.flatMap_append]
  rw [List.append_assoc] at this
  exact this

end Palc
