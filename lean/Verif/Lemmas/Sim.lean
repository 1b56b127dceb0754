import Verif.Lemmas.PlaceSim
import Verif.Lemmas.Linear
/-! The machine simulates the grammar: states of the machine are described by contexts and events. -/

namespace Palc

open Spec

variable {V : Type}

/-! ## Addresses -/

theorem fieldAt_level {st : List (Entry V)} {a : Addr} {f : FieldInfo V} (h : fieldAt st a = some f) :
    a.level < st.length := by
  induction st with
  | nil => simp [fieldAt] at h
  | cons e outer ih =>
    obtain ⟨i, d⟩ := e
    simp only [fieldAt] at h
    split at h
    · rename_i hl; simp [hl]
    · have := ih h; simp; omega

theorem fieldAt_levelAt {ls : List (Level V)} {a : Addr} {f : FieldInfo V} :
    fieldAt (stackOf ls) a = some f ↔
      ∃ l c, levelAt ls a.level = some l ∧ (structs l.d)[a.struct]? = some c ∧ c.fields[a.field]? = some f := by
  induction ls with
  | nil => simp [stackOf, fieldAt, levelAt]
  | cons l outer ih =>
    simp only [stackOf, List.map_cons, Level.entry, fieldAt, levelAt, List.length_map]
    split
    · constructor
      · intro h
        split at h
        · rename_i c hc; exact ⟨l, c, rfl, hc, h⟩
        · simp at h
      · rintro ⟨l', c, e, hc, hf⟩
        cases e
        rw [hc]; exact hf
    · exact ih

theorem getPlace_setPlace {ls : List (Level V)} {a b : Addr} {pl q : Place V} (h : getPlace ls a = some q) :
    getPlace (setPlace ls a pl) b = if b = a then some pl else getPlace ls b := by
  induction ls with
  | nil => simp [getPlace, levelAt] at h
  | cons l outer ih =>
    by_cases hl : a.level = outer.length
    · have h' : l.get a.struct a.field = some q := by
        simpa [getPlace, levelAt, hl] using h
      simp only [setPlace, hl, if_true]
      by_cases hb : b.level = outer.length
      · simp only [getPlace, levelAt, hb, if_true]
        unfold Level.get at h' ⊢
        rw [places_set, List.getElem?_modify]
        by_cases hs : b.struct = a.struct
        · rw [hs]
          cases hp : l.places[a.struct]? with
          | none => rw [hp] at h'; simp at h'
          | some pls =>
            rw [hp] at h'
            simp only [if_true, Option.map_eq_map, Option.map_some]
            rw [List.getElem?_set]
            have hlt := (List.getElem?_eq_some_iff.1 h').1
            by_cases hf : b.field = a.field
            · have : b = a := by cases a; cases b; simp_all
              simp [this, hlt]
            · have : b ≠ a := by rintro rfl; exact hf rfl
              simp [this, Ne.symm hf]
        · have : b ≠ a := by rintro rfl; exact hs rfl
          simp only [Ne.symm hs, if_false, this, id_map']
      · have : b ≠ a := by rintro rfl; exact hb hl
        simp [getPlace, levelAt, hb, this]
    · have h' : getPlace outer a = some q := by
        simpa [getPlace, levelAt, hl] using h
      simp only [setPlace, hl, if_false]
      by_cases hb : b.level = outer.length
      · have : b ≠ a := by rintro rfl; exact hl hb
        have hlen : (setPlace outer a pl).length = outer.length := by
          have := congrArg List.length (sig_setPlace outer a pl)
          simpa [sig] using this
        simp [getPlace, levelAt, hb, this, hlen]
      · have hlen : (setPlace outer a pl).length = outer.length := by
          have := congrArg List.length (sig_setPlace outer a pl)
          simpa [sig] using this
        have := ih h'
        simpa [getPlace, levelAt, hb, hlen] using this

/-! ## Names -/

/-- Encoded option name as it appears in the argument. -/
def nameBytes : Name → Bytes
  | .long s => enc ('-' :: '-' :: s)
  | .short c => encChar c

theorem nameBytes_eq (n : Name) : nameBytes n = enc (encodeName n) := by
  cases n with
  | long s => rfl
  | short c => simp [nameBytes, encodeName, enc]

theorem encodeName_inj {m n : Name} (h : encodeName m = encodeName n) : m = n := by
  cases m <;> cases n <;> simp [encodeName] at h ⊢ <;> exact h

theorem hasName_declares {cx : Cx V} {f : FieldInfo V} (h : FieldPre cx f) (n : Name) :
    hasName (nameBytes n) f = declares cx f n := by
  rw [Bool.eq_iff_iff]
  unfold hasName
  rw [h.names, nameBytes_eq]
  cases ho : isOption f with
  | false => cases n <;> simp [declares, ho]
  | true =>
    simp only [if_true, List.any_eq_true, List.mem_append, List.mem_map, decide_eq_true_eq]
    constructor
    · rintro ⟨x, hx, he⟩
      have he := enc_injective he
      subst he
      rcases hx with ⟨s, hs, e⟩ | ⟨c, hc, e⟩
      · have := encodeName_inj e
        subst this
        simp [declares, ho, hs]
      · have := encodeName_inj e
        subst this
        simp [declares, ho, hc]
    · intro hd
      refine ⟨_, ?_, rfl⟩
      cases n with
      | long s =>
        simp [declares, ho] at hd
        exact .inl ⟨s, hd, rfl⟩
      | short c =>
        simp [declares, ho] at hd
        exact .inr ⟨c, hd, rfl⟩

/-- A table entry is the encoding of a declared name. -/
theorem hasName_bytes {cx : Cx V} {f : FieldInfo V} (h : FieldPre cx f) {b : Bytes} (hb : hasName b f = true) :
    ∃ n, b = nameBytes n ∧ declares cx f n = true := by
  have hb' := hb
  unfold hasName at hb
  rw [h.names] at hb
  cases ho : isOption f with
  | false => simp [ho] at hb
  | true =>
    simp only [ho, if_true, List.any_eq_true, List.mem_append, List.mem_map, decide_eq_true_eq] at hb
    obtain ⟨x, hx, he⟩ := hb
    rcases hx with ⟨s, hs, e⟩ | ⟨c, hc, e⟩
    · refine ⟨.long s, ?_, by simp [declares, ho, hs]⟩
      rw [nameBytes_eq, e, he]
    · refine ⟨.short c, ?_, by simp [declares, ho, hc]⟩
      rw [nameBytes_eq, e, he]

theorem globals_fieldAt {st : List (Entry V)} {a : Addr} {f : FieldInfo V} (h : (a, f) ∈ globals st) :
    fieldAt st a = some f := by
  induction st with
  | nil => simp [globals] at h
  | cons e outer ih =>
    obtain ⟨i, d⟩ := e
    simp only [globals, List.mem_append, List.mem_filter] at h
    rcases h with h | h
    · have h1 := h.1
      rw [fieldsAt_eq] at h1
      obtain ⟨e1, c, e2, e3⟩ := fieldsFrom_mem h1
      simp only [Nat.sub_zero] at e2
      simp [fieldAt, e1, e2, e3]
    · have := globals_level h
      have hne : a.level ≠ outer.length := by omega
      simp only [fieldAt, hne, if_false]
      exact ih h

theorem visible_fieldAt {st : List (Entry V)} {a : Addr} {f : FieldInfo V} (h : (a, f) ∈ visible st) :
    fieldAt st a = some f := by
  cases st with
  | nil => simp [visible] at h
  | cons e outer =>
    obtain ⟨i, d⟩ := e
    simp only [visible, List.mem_append] at h
    rcases h with h | h
    · rw [fieldsAt_eq] at h
      obtain ⟨e1, c, e2, e3⟩ := fieldsFrom_mem h
      simp only [Nat.sub_zero] at e2
      simp [fieldAt, e1, e2, e3]
    · have := globals_level h
      have hne : a.level ≠ outer.length := by omega
      simp only [fieldAt, hne, if_false]
      exact globals_fieldAt h

theorem fieldAt_wf {cx : Cx V} {ls : List (Level V)} (h : ∀ l ∈ ls, l.Ok cx) {a : Addr} {f : FieldInfo V}
    (hf : fieldAt (stackOf ls) a = some f) : FieldWF cx f a.field := by
  obtain ⟨l, c, h1, h2, h3⟩ := fieldAt_levelAt.1 hf
  exact (WFArgs.structs l.d (h l (levelAt_mem h1)).wf c (List.mem_of_getElem? h2)).fields _ f h3

theorem find_congr {α : Type} {l : List α} {p q : α → Bool} (h : ∀ x ∈ l, p x = q x) : l.find? p = l.find? q := by
  induction l with
  | nil => rfl
  | cons x xs ih =>
    simp only [List.find?_cons, h x (by simp)]
    rw [ih (fun y hy => h y (by simp [hy]))]

theorem mFind_name {cx : Cx V} {ls : List (Level V)} (h : ∀ l ∈ ls, l.Ok cx) (n : Name) :
    mFind ls (nameBytes n) = (visible (stackOf ls)).find? (fun x => declares cx x.2 n) := by
  unfold mFind
  apply find_congr
  rintro ⟨a, f⟩ hx
  exact hasName_declares (fieldAt_wf h (visible_fieldAt hx)).toFieldPre n

theorem mFind_bytes {cx : Cx V} {ls : List (Level V)} (h : ∀ l ∈ ls, l.Ok cx) {b : Bytes} {a : Addr} {f : FieldInfo V}
    (hf : mFind ls b = some (a, f)) : ∃ n, b = nameBytes n ∧ Resolves cx (stackOf ls) n a f := by
  have hm := hf
  unfold mFind at hm
  have h1 := List.mem_of_find?_eq_some hm
  have h2 := List.find?_some hm
  obtain ⟨n, rfl, _⟩ := hasName_bytes (fieldAt_wf h (visible_fieldAt h1)).toFieldPre h2
  refine ⟨n, rfl, ?_⟩
  rw [mFind_name h] at hf
  exact hf

theorem resolves_declares {cx : Cx V} {st : List (Entry V)} {n : Name} {a : Addr} {f : FieldInfo V}
    (h : Resolves cx st n a f) : declares cx f n = true := by
  unfold Resolves at h
  exact List.find?_some (p := fun x : Addr × FieldInfo V => declares cx x.2 n) h

theorem resolves_fieldAt {cx : Cx V} {st : List (Entry V)} {n : Name} {a : Addr} {f : FieldInfo V}
    (h : Resolves cx st n a f) : fieldAt st a = some f := visible_fieldAt (List.mem_of_find?_eq_some h)

theorem declares_option {cx : Cx V} {f : FieldInfo V} {n : Name} (h : declares cx f n = true) : isOption f = true := by
  cases n <;> simp [declares] at h <;> exact h.1

theorem resolves_or_unknown (cx : Cx V) (st : List (Entry V)) (n : Name) :
    (∃ a f, Resolves cx st n a f) ∨ Unknown cx st n := by
  unfold Resolves Unknown
  cases h : (visible st).find? (fun x => declares cx x.2 n) with
  | some x => exact .inl ⟨x.1, x.2, rfl⟩
  | none =>
    right
    intro x hx
    have := List.find?_eq_none.1 h x hx
    simpa using this

theorem unknown_find {cx : Cx V} {st : List (Entry V)} {n : Name} (h : Unknown cx st n) :
    (visible st).find? (fun x => declares cx x.2 n) = none := by
  rw [List.find?_eq_none]
  intro x hx
  simp [h x hx]

/-! ## Positional fields -/

theorem zipIdx_filter_none {α : Type} {l : List α} {k : Nat} {p : α × Nat → Bool}
    (h : ∀ x ∈ l, ∀ i, p (x, i) = false) : (l.zipIdx k).filter p = [] := by
  rw [List.filter_eq_nil_iff]
  rintro ⟨x, i⟩ hx
  have := List.fst_mem_of_mem_zipIdx hx
  simp [h x this i]

theorem zipIdx_filter_all {α : Type} {l : List α} {k : Nat} {p : α × Nat → Bool}
    (h : ∀ x ∈ l, ∀ i, p (x, i) = true) : (l.zipIdx k).filter p = l.zipIdx k := by
  rw [List.filter_eq_self]
  rintro ⟨x, i⟩ hx
  have := List.fst_mem_of_mem_zipIdx hx
  exact h x this i

theorem zipIdx_find_none {α : Type} {l : List α} {k : Nat} {p : α × Nat → Bool}
    (h : ∀ x ∈ l, ∀ i, p (x, i) = false) : (l.zipIdx k).find? p = none := by
  rw [List.find?_eq_none]
  rintro ⟨x, i⟩ hx
  have := List.fst_mem_of_mem_zipIdx hx
  simp [h x this i]

structure Layout (c : Core V) (ps : List (FieldInfo V)) (va la : Option (FieldInfo V)) : Prop where
  eq : c.positional = ps ++ va.toList ++ la.toList
  singlesEq : c.fields.zipIdx.filter (fun x => !isOption x.1 && !isMulti x.1 && !x.1.src.last) = ps.zipIdx c.namedCnt
  varEq : c.fields.zipIdx.find? (fun x => !isOption x.1 && isMulti x.1 && !x.1.src.last)
    = va.map (fun f => (f, c.namedCnt + ps.length))
  lastEq : c.fields.zipIdx.find? (fun x => !isOption x.1 && x.1.src.last)
    = la.map (fun f => (f, c.namedCnt + ps.length + va.toList.length))
  ps : ∀ f ∈ ps, isOption f = false ∧ isMulti f = false ∧ f.src.last = false
  va : ∀ f ∈ va, isOption f = false ∧ isMulti f = true ∧ f.src.last = false
  la : ∀ f ∈ la, isOption f = false ∧ f.src.last = true ∧ isMulti f = true

theorem layout_of {cx : Cx V} {c : Core V} (wf : CoreWF cx c) : ∃ ps va la, Layout c ps va la := by
  obtain ⟨ps, va, la, hl, h1, h2, h3⟩ := wf.layout
  have hsplit : c.fields = c.named ++ (ps ++ va.toList ++ la.toList) := by
    rw [← hl]; exact (List.take_append_drop ..).symm
  have hnl : c.named.length = c.namedCnt := by
    unfold Core.named; rw [List.length_take]; have := wf.cnt; omega
  have hn : ∀ f ∈ c.named, isOption f = true := wf.named
  have hz : c.fields.zipIdx = c.named.zipIdx ++ (ps.zipIdx c.namedCnt
      ++ va.toList.zipIdx (c.namedCnt + ps.length)
      ++ la.toList.zipIdx (c.namedCnt + ps.length + va.toList.length)) := by
    rw [hsplit, List.zipIdx_append, List.zipIdx_append, List.zipIdx_append, hnl]
    simp [Nat.add_assoc]
  have h3' : ∀ f ∈ la, isMulti f = true := by
    intro f hf
    have hm : f ∈ c.fields := by rw [hsplit]; simp [Option.mem_toList] at hf ⊢; exact .inr (.inr (.inr hf))
    obtain ⟨i, hi⟩ := List.getElem?_of_mem hm
    exact (wf.fields i f hi).lastMulti (h3 f hf).2
  refine ⟨ps, va, la, ?_⟩
  constructor
  · exact hl
  · rw [hz]
    simp only [List.filter_append]
    rw [zipIdx_filter_none (by intro x hx i; simp [hn x hx]), zipIdx_filter_all (by intro x hx i; simp [h1 x hx]),
      zipIdx_filter_none (by intro x hx i; simp [h2 x (Option.mem_toList.1 hx)]),
      zipIdx_filter_none (by intro x hx i; simp [h3 x (Option.mem_toList.1 hx)])]
    simp
  · rw [hz]
    simp only [List.find?_append]
    rw [zipIdx_find_none (by intro x hx i; simp [hn x hx]), zipIdx_find_none (by intro x hx i; simp [h1 x hx]),
      zipIdx_find_none (l := la.toList) (by intro x hx i; simp [h3 x (Option.mem_toList.1 hx)])]
    cases va with
    | none => rfl
    | some f => simp [h2 f rfl]
  · rw [hz]
    simp only [List.find?_append]
    rw [zipIdx_find_none (by intro x hx i; simp [hn x hx]), zipIdx_find_none (by intro x hx i; simp [h1 x hx]),
      zipIdx_find_none (l := va.toList) (by intro x hx i; simp [h2 x (Option.mem_toList.1 hx)])]
    cases la with
    | none => rfl
    | some f => simp [h3 f rfl]
  · exact h1
  · exact h2
  · intro f hf; exact ⟨(h3 f hf).1, (h3 f hf).2, h3' f hf⟩

/-- The position counter for `k` arguments read. -/
def PosOk (l : Level V) (k : Nat) : Mode → Prop
  | .opts => l.pos = min k (singles l.d).length
  | .dashed => match lastArg l.d with
    | some _ => l.pos = (coreOf l.d).positional.length - 1
    | none => l.pos = min k (singles l.d).length
  | .trailing j => ∃ f, (coreOf l.d).fields[j]? = some f ∧ isOption f = false

/-- The field receiving the next positional argument. -/
def target (d : ArgsDef V) (k : Nat) : Mode → Option (FieldInfo V × Nat)
  | .opts => posTarget d k
  | .dashed => match lastArg d with
    | some x => some x
    | none => posTarget d k
  | .trailing _ => none

/-- Mode after an argument went to it. -/
def nextMode (x : FieldInfo V × Nat) (mode : Mode) : Mode :=
  if x.1.src.trailingVarArg && !x.1.src.last then .trailing x.2 else mode

theorem target_pos {cx : Cx V} {l : Level V} (hl : l.Ok cx) {k : Nat} {mode : Mode} (hm : mode = .opts ∨ mode = .dashed)
    (hp : PosOk l k mode) :
    match target l.d k mode with
    | some (f, j) => (coreOf l.d).positional[l.pos]? = some f ∧ j = (coreOf l.d).namedCnt + l.pos
        ∧ (decide (mode = .dashed) || !f.src.last) = true
        ∧ ∀ l' : Level V, l'.d = l.d → l'.pos = (if isMulti f then l.pos else l.pos + 1) →
            PosOk l' (if f.src.last then k else k + 1) (nextMode (f, j) mode)
    | none => ∀ f, (coreOf l.d).positional[l.pos]? = some f → (decide (mode = .dashed) || !f.src.last) = false := by
  have hwf := core_wf hl
  obtain ⟨ps, va, la, L⟩ := layout_of hwf
  have hs : singles l.d = ps.zipIdx (coreOf l.d).namedCnt := L.singlesEq
  have hslen : (singles l.d).length = ps.length := by rw [hs]; simp
  have hv : varArg l.d = va.map (fun f => (f, (coreOf l.d).namedCnt + ps.length)) := L.varEq
  have hla : lastArg l.d = la.map (fun f => (f, (coreOf l.d).namedCnt + ps.length + va.toList.length)) := L.lastEq
  have hposTarget : ∀ k, match posTarget l.d k with
      | some (f, j) => (coreOf l.d).positional[min k ps.length]? = some f
          ∧ j = (coreOf l.d).namedCnt + min k ps.length ∧ f.src.last = false ∧ isOption f = false
          ∧ (if isMulti f then min k ps.length else min k ps.length + 1) = min (k + 1) ps.length
      | none => ∀ f, (coreOf l.d).positional[min k ps.length]? = some f → f.src.last = true ∧ la = some f := by
    intro k
    unfold posTarget
    rw [hs, List.getElem?_zipIdx, L.eq]
    by_cases hk : k < ps.length
    · have e : min k ps.length = k := by omega
      have hmem : ps[k] ∈ ps := List.getElem_mem hk
      simp only [hk, List.getElem?_eq_getElem, Option.map_some, e]
      rw [List.append_assoc, List.getElem?_append_left hk]
      obtain ⟨q1, q2, q3⟩ := L.ps _ hmem
      refine ⟨by simp [hk], trivial, q3, q1, ?_⟩
      simp only [q2, Bool.false_eq_true, if_false]
      omega
    · have e : min k ps.length = ps.length := by omega
      rw [List.getElem?_eq_none (by omega)]
      simp only [Option.map_none, e]
      rw [hv]
      cases hva : va with
      | none =>
        simp only [Option.map_none]
        intro f hf
        rw [show ps ++ (none : Option (FieldInfo V)).toList = ps by simp] at hf
        rw [List.getElem?_append_right (by omega)] at hf
        cases hla' : la with
        | none => simp [hla'] at hf
        | some g =>
          simp [hla'] at hf
          subst hf
          exact ⟨(L.la g (by simp [hla'])).2.1, rfl⟩
      | some g =>
        obtain ⟨q1, q2, q3⟩ := L.va g (by simp [hva])
        simp only [Option.map_some]
        refine ⟨by simp, trivial, q3, q1, ?_⟩
        simp only [q2, if_true]
        omega
  have hfield : ∀ (f : FieldInfo V) (p : Nat), (coreOf l.d).positional[p]? = some f →
      (coreOf l.d).fields[(coreOf l.d).namedCnt + p]? = some f ∧ isOption f = false :=
    fun f p hf => by
      have := positional_field (l := { l with pos := 0 }) (cx := cx)
        { wf := hl.wf, len := hl.len, fits := hl.fits, pos := by simp } (k := p) hf
      exact ⟨this.1, this.2.2.1⟩
  rcases hm with rfl | rfl
  · simp only [PosOk, hslen] at hp
    have := hposTarget k
    simp only [target]
    revert this
    cases posTarget l.d k with
    | none =>
      intro h f hf
      rw [hp] at hf
      simp [h f hf]
    | some x =>
      obtain ⟨f, j⟩ := x
      rintro ⟨h1, h2, h3, h4, h5⟩
      simp only
      rw [hp]
      refine ⟨h1, h2, by simp [h3], ?_⟩
      intro l' hd hpos
      simp only [nextMode, h3, Bool.not_false, Bool.and_true, Bool.false_eq_true, if_false]
      split
      · refine ⟨f, ?_, h4⟩
        rw [hd, h2]; exact (hfield f _ h1).1
      · simp only [PosOk]
        rw [hd, hslen, hpos, ← h5]
  · have := hposTarget k
    simp only [target]
    unfold PosOk at hp
    cases hlst : lastArg l.d with
    | none =>
      rw [hlst] at hp
      simp only [hslen] at hp
      have hnl : la = none := by
        rw [hla] at hlst
        simpa using hlst
      revert this
      cases posTarget l.d k with
      | none =>
        intro h f hf
        rw [hp] at hf
        have := (h f hf).2
        rw [hnl] at this
        simp at this
      | some x =>
        obtain ⟨f, j⟩ := x
        rintro ⟨h1, h2, h3, h4, h5⟩
        simp only
        rw [hp]
        refine ⟨h1, h2, by simp, ?_⟩
        intro l' hd hpos
        simp only [nextMode, h3, Bool.not_false, Bool.and_true, Bool.false_eq_true, if_false]
        split
        · refine ⟨f, ?_, h4⟩
          rw [hd, h2]; exact (hfield f _ h1).1
        · simp only [PosOk]
          rw [hd, hlst, hslen, hpos, ← h5]
    | some x =>
      obtain ⟨f, j⟩ := x
      rw [hlst] at hp
      simp only at hp
      rw [hla] at hlst
      simp only [Option.map_eq_some_iff, Prod.mk.injEq] at hlst
      obtain ⟨g, hg, rfl, rfl⟩ := hlst
      obtain ⟨q1, q2, q3⟩ := L.la g (by simp [hg])
      simp only
      have hlen : (coreOf l.d).positional.length = ps.length + va.toList.length + 1 := by
        rw [L.eq, hg]; simp [Nat.add_assoc]
      rw [hlen] at hp
      have hp' : l.pos = (ps ++ va.toList).length := by rw [hp]; simp
      refine ⟨?_, by rw [hp]; omega, by simp, ?_⟩
      · rw [L.eq, hg, hp']
        simp
      · intro l' hd hpos
        simp only [nextMode, q2, Bool.not_true, Bool.and_false, Bool.false_eq_true, if_false, q3, if_true] at hpos ⊢
        simp only [PosOk]
        rw [hd, hla, hg]
        simp only [Option.map_some]
        rw [hpos, hlen, hp]

/-- A positional argument: where it goes. -/
theorem mPos_target {cx : Cx V} {l : Level V} (hl : l.Ok cx) {k : Nat} {mode : Mode} (hm : mode = .opts ∨ mode = .dashed)
    (hp : PosOk l k mode) (outer : List (Level V)) (arg : Bytes) :
    match target l.d k mode with
    | some (f, j) => (coreOf l.d).fields[j]? = some f ∧ isOption f = false ∧ FieldWF cx f j
        ∧ ∃ pos', PosOk { l with pos := pos' } (if f.src.last then k else k + 1) (nextMode (f, j) mode)
        ∧ mPos (l :: outer) mode arg = match l.get 0 j with
          | none => panicR
          | some pl =>
            match pl.parseFrom (some arg) with
            | .error e => errR e
            | .ok pl' => .ok ({ l.set 0 j pl' with pos := pos' } :: outer, nextMode (f, j) mode)
    | none => mPos (l :: outer) mode arg =
        errR (Error.withInput (if hasSub l.d then .unknownSubcommand else .extraPositionalArgument) arg) := by
  have := target_pos hl hm hp
  revert this
  cases target l.d k mode with
  | none =>
    intro h
    simp only [mPos]
    cases hf : (coreOf l.d).positional[l.pos]? with
    | none => cases hasSub l.d <;> rfl
    | some f =>
      simp only [h f hf, Bool.false_eq_true, if_false]
      cases hasSub l.d <;> rfl
  | some x =>
    obtain ⟨f, j⟩ := x
    rintro ⟨h1, h2, h3, h4⟩
    simp only
    obtain ⟨g1, g2, g3, _⟩ := positional_field hl h1
    rw [← h2] at g1 g2
    refine ⟨g1, g3, g2, _, h4 { l with pos := if isMulti f then l.pos else l.pos + 1 } rfl rfl, ?_⟩
    simp only [mPos, h1, h3, if_true, ← h2]
    rfl

/-! ## The simulation -/

structure Sim (cx : Cx V) (ls : List (Level V)) (κ : Ctx V) (log : List Event) : Prop where
  ok : ∀ l ∈ ls, l.Ok cx
  ne : ls ≠ []
  stack : stackOf ls = κ.stack
  pos : ∀ l outer, ls = l :: outer → PosOk l κ.npos κ.mode
  place : ∀ a f, fieldAt κ.stack a = some f →
    ∃ v, given f (occs log a) = some v ∧ getPlace ls a = some (toPlace f v)
  fresh : ∀ e ∈ log, e.1.level < ls.length

theorem occs_append (xs ys : List Event) (a : Addr) : occs (xs ++ ys) a = occs xs a ++ occs ys a := by
  simp [occs]

theorem occs_single (a b : Addr) (o : Option Bytes) : occs [(a, o)] b = if b = a then [o] else [] := by
  unfold occs
  by_cases h : a = b
  · simp [h]
  · simp [h, Ne.symm h]

theorem occs_nil (a : Addr) : occs [] a = [] := rfl

theorem Sim.fieldWF {cx : Cx V} {ls : List (Level V)} {κ : Ctx V} {log : List Event} (S : Sim cx ls κ log) {a : Addr}
    {f : FieldInfo V} (hf : fieldAt κ.stack a = some f) : FieldWF cx f a.field :=
  fieldAt_wf S.ok (by rw [S.stack]; exact hf)

theorem setPlace_length (ls : List (Level V)) (a : Addr) (pl : Place V) : (setPlace ls a pl).length = ls.length := by
  have := congrArg List.length (sig_setPlace ls a pl)
  simpa [sig] using this

theorem sig_names {P : ArgsDef V → Prop} {ls ls' : List (Level V)} (h : sig ls' = sig ls) (hp : ∀ l ∈ ls, P l.d) :
    ∀ l ∈ ls', P l.d := by
  intro l hl
  have : (l.ident, l.name, l.d) ∈ sig ls' := List.mem_map.2 ⟨l, hl, rfl⟩
  rw [h] at this
  obtain ⟨l0, h0, e⟩ := List.mem_map.1 this
  have := hp l0 h0
  rw [show l0.d = l.d from by simp only [Prod.mk.injEq] at e; exact e.2.2] at this
  exact this

theorem sig_setPlace_pos {l : Level V} {outer : List (Level V)} {a : Addr} {pl : Place V} {l' : Level V}
    {outer' : List (Level V)} (h : setPlace (l :: outer) a pl = l' :: outer') : l'.pos = l.pos ∧ l'.d = l.d := by
  unfold setPlace at h
  split at h
  · cases h; simp
  · cases h; simp

/-- Recording one occurrence. -/
theorem Sim.record {cx : Cx V} {ls : List (Level V)} {κ : Ctx V} {log : List Event} (S : Sim cx ls κ log) {a : Addr}
    {f : FieldInfo V} (hf : fieldAt κ.stack a = some f) {o : Option Bytes} {v : Value V}
    (hv : given f (occs log a ++ [o]) = some v) (hfit : Fits f (toPlace f v)) :
    Sim cx (setPlace ls a (toPlace f v)) κ (log ++ [(a, o)]) := by
  obtain ⟨v0, hv0, hpl⟩ := S.place a f hf
  refine { ok := ?_, ne := ?_, stack := ?_, pos := ?_, place := ?_, fresh := ?_ }
  · apply setPlace_ok S.ok
    intro l c g h1 h2 h3
    have := fieldAt_levelAt.2 ⟨l, c, h1, h2, h3⟩
    rw [S.stack, hf] at this
    cases this
    exact hfit
  · intro h
    have := congrArg List.length h
    rw [setPlace_length] at this
    exact S.ne (by simpa using this)
  · rw [stackOf_setPlace]; exact S.stack
  · intro l' outer' h
    cases ls with
    | nil => exact absurd rfl S.ne
    | cons l outer =>
      have h0 := S.pos l outer rfl
      obtain ⟨e1, e2⟩ := sig_setPlace_pos h
      unfold PosOk at h0 ⊢
      rw [e1, e2]
      exact h0
  · intro b g hg
    rw [occs_append, occs_single, getPlace_setPlace hpl]
    by_cases hb : b = a
    · subst hb
      rw [hf] at hg; cases hg
      simp only [if_true]
      exact ⟨v, hv, rfl⟩
    · simp only [hb, if_false, List.append_nil]
      exact S.place b g hg
  · intro e he
    rw [setPlace_length]
    rcases List.mem_append.1 he with he | he
    · exact S.fresh e he
    · rw [List.mem_singleton] at he
      subst he
      have := fieldAt_level hf
      rw [← S.stack] at this
      simpa [stackOf] using this

theorem Sim.fits {cx : Cx V} {ls : List (Level V)} {κ : Ctx V} {log : List Event} (S : Sim cx ls κ log) {a : Addr}
    {f : FieldInfo V} (hf : fieldAt κ.stack a = some f) {pl : Place V} (hp : getPlace ls a = some pl) : Fits f pl := by
  rw [← S.stack] at hf
  obtain ⟨l, c, h1, h2, h3⟩ := fieldAt_levelAt.1 hf
  unfold getPlace at hp
  rw [h1] at hp
  simp only [Level.get] at hp
  cases hq : l.places[a.struct]? with
  | none => rw [hq] at hp; simp at hp
  | some q =>
    rw [hq] at hp
    exact ((S.ok l (levelAt_mem h1)).fits _ c q h2 hq).2 _ f _ h3 hp

/-- The result of an option occurrence. -/
def namedOut (ls : List (Level V)) (a : Addr) (f : FieldInfo V) (took : Bool) :
    Except Error (Place V) → R (List (Level V) × Flow)
  | .ok pl => .ok (setPlace ls a pl, if takesValue f then .brk took else .cont)
  | .error e => errR (e.withArgDesc (some f.description))

/-- One occurrence with value `o`, either recorded or unacceptable. -/
theorem Sim.occur {cx : Cx V} {ls : List (Level V)} {κ : Ctx V} {log : List Event} (S : Sim cx ls κ log) {a : Addr}
    {f : FieldInfo V} (hf : fieldAt κ.stack a = some f) (o : Option Bytes) (ho : takesValue f = true → o ≠ none) :
    ∃ v, given f (occs log a) = some v ∧ getPlace ls a = some (toPlace f v) ∧
    ((∃ v', given f (occs log a ++ [o]) = some v' ∧ (toPlace f v).parseFrom (o.map (normalise f)) = .ok (toPlace f v')
      ∧ Sim cx (setPlace ls a (toPlace f v')) κ (log ++ [(a, o)]))
    ∨ (given f (occs log a ++ [o]) = none ∧ ∃ e, (toPlace f v).parseFrom (o.map (normalise f)) = .error e)) := by
  obtain ⟨v, hv, hpl⟩ := S.place a f hf
  refine ⟨v, hv, hpl, ?_⟩
  rcases given_step hv o ho with ⟨v', h1, h2⟩ | ⟨h1, e, h2⟩
  · exact .inl ⟨v', h1, h2, S.record hf h1 (fits_parseFrom (S.fits hf hpl) h2)⟩
  · exact .inr ⟨h1, e, h2⟩

theorem mNamed_sim {cx : Cx V} {ls : List (Level V)} {κ : Ctx V} {log : List Event} (S : Sim cx ls κ log) {n : Name}
    {a : Addr} {f : FieldInfo V} (hr : Resolves cx κ.stack n a f) (isShort : Bool) (inl : InlineValue)
    (next : Option Bytes) {o : Option Bytes} {took : Bool} (hsel : selectValue f.attrs inl next = .ok (o, took))
    (v : Value V) (hpl : getPlace ls a = some (toPlace f v)) :
    mNamed ls isShort (nameBytes n) inl next
      = namedOut ls a f took ((toPlace f v).parseFrom (o.map (normalise f))) := by
  have hfw := S.fieldWF (resolves_fieldAt hr)
  unfold mNamed
  rw [mFind_name S.ok, S.stack, show (visible κ.stack).find? (fun x => declares cx x.2 n) = some (a, f) from hr]
  simp only [hpl, assign, hsel, storeValue_eq hfw.toFieldPre]
  cases (toPlace f v).parseFrom (o.map (normalise f)) <;> rfl

theorem mNamed_unknown {cx : Cx V} {ls : List (Level V)} {κ : Ctx V} {log : List Event} (S : Sim cx ls κ log) {n : Name}
    (hu : Unknown cx κ.stack n) (isShort : Bool) (inl : InlineValue) (next : Option Bytes) :
    mNamed ls isShort (nameBytes n) inl next = errR (unknownErr ls isShort (nameBytes n)) := by
  unfold mNamed
  rw [mFind_name S.ok, S.stack, unknown_find hu]

theorem mNamed_select_error {cx : Cx V} {ls : List (Level V)} {κ : Ctx V} {log : List Event} (S : Sim cx ls κ log)
    {n : Name} {a : Addr} {f : FieldInfo V} (hr : Resolves cx κ.stack n a f) (isShort : Bool) (inl : InlineValue)
    (next : Option Bytes) {e : Error} (hsel : selectValue f.attrs inl next = .error e) :
    mNamed ls isShort (nameBytes n) inl next = errR (e.withArgDesc (some f.description)) := by
  obtain ⟨v, _, hpl⟩ := S.place a f (resolves_fieldAt hr)
  unfold mNamed
  rw [mFind_name S.ok, S.stack, show (visible κ.stack).find? (fun x => declares cx x.2 n) = some (a, f) from hr]
  simp only [hpl, assign, hsel]

end Palc
