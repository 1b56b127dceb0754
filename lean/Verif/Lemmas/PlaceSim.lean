import Verif.Lemmas.Machine
/-! Places hold the content of the occurrences seen so far. -/

namespace Palc

open Spec

variable {V : Type}

/-- The place of a field with the given content. -/
def toPlace (f : FieldInfo V) : Value V → Place V
  | .absent => f.initializer
  | .flag b => .flag (some b)
  | .one v => .set (some v) f.parser
  | .optional v => .setOpt (some v) f.parser
  | .many vs =>
    match f.valueDelimiter with
    | some d => .vecDelim (some vs) d f.parser
    | none => .vec (some vs) f.parser

theorem parsed_ok {f : FieldInfo V} {b : Bytes} {v : V} : parsed f b = some v ↔ f.parser.parse b = .ok v := by
  unfold parsed
  cases f.parser.parse b <;> simp

theorem parsed_err {f : FieldInfo V} {b : Bytes} : parsed f b = none ↔ ∃ e, f.parser.parse b = .error e := by
  unfold parsed
  cases f.parser.parse b <;> simp

theorem parsedAll_append (f : FieldInfo V) (xs ys : List Bytes) :
    parsedAll f (xs ++ ys) = match parsedAll f xs, parsedAll f ys with
      | some vs, some ws => some (vs ++ ws)
      | _, _ => none := by
  induction xs with
  | nil => cases h : parsedAll f ys <;> simp [parsedAll, h]
  | cons x xs ih =>
    simp only [List.cons_append, parsedAll, ih]
    cases parsed f x with
    | none => rfl
    | some v => cases parsedAll f xs <;> cases parsedAll f ys <;> rfl

theorem pushAll_parsedAll (f : FieldInfo V) (vs : List V) (bs : List Bytes) :
    match parsedAll f bs with
    | some ws => Place.pushAll f.parser vs bs = .ok (vs ++ ws)
    | none => ∃ e, Place.pushAll f.parser vs bs = .error e := by
  induction bs generalizing vs with
  | nil => simp [parsedAll, Place.pushAll]
  | cons b bs ih =>
    simp only [parsedAll, Place.pushAll]
    cases hp : f.parser.parse b with
    | error e => simp [parsed_err.2 ⟨e, hp⟩]
    | ok v =>
      rw [parsed_ok.2 hp]
      have := ih (vs ++ [v])
      cases hq : parsedAll f bs with
      | none => rw [hq] at this; simpa using this
      | some ws => rw [hq] at this; simpa using this

theorem allValues_append (os : List (Option Bytes)) (b : Bytes) :
    allValues (os ++ [some b]) = (allValues os).map (· ++ [b]) := by
  induction os with
  | nil => rfl
  | cons o os ih =>
    cases o with
    | none => rfl
    | some x => simp only [List.cons_append, allValues, ih]; cases allValues os <;> rfl

/-- Contents of multi-valued fields. -/
theorem content_multi {f : FieldInfo V} (hm : isMulti f = true) (os : List (Option Bytes)) (hne : os ≠ []) :
    content f os = match allValues os with
      | some bs => (parsedAll f (bs.flatMap (pieces f))).map .many
      | none => none := by
  cases os with
  | nil => exact absurd rfl hne
  | cons o os =>
    unfold content isMulti at *
    cases hk : f.kind <;> simp [hk] at hm ⊢
    all_goals
      cases allValues (o :: os) <;> rfl

theorem toPlace_multi {f : FieldInfo V} (_hm : isMulti f = true) (vs : List V) (b : Bytes) :
    (toPlace f (.many vs)).parseFrom (some b) = match Place.pushAll f.parser vs (pieces f b) with
      | .ok xs => .ok (toPlace f (.many xs))
      | .error e => .error e := by
  unfold toPlace pieces
  cases f.valueDelimiter with
  | some d => rfl
  | none =>
    simp only [Place.parseFrom, Place.pushAll, Option.getD_some]
    cases f.parser.parse b <;> rfl

theorem initializer_multi {f : FieldInfo V} (hm : isMulti f = true) (b : Bytes) :
    f.initializer.parseFrom (some b) = (toPlace f (.many [])).parseFrom (some b) := by
  unfold FieldInfo.initializer toPlace
  unfold isMulti at hm
  cases hk : f.kind <;> simp [hk] at hm ⊢
  all_goals
    cases f.valueDelimiter <;> rfl

/-- Contents of a longer list of occurrences. -/
theorem content_step {f : FieldInfo V} {os : List (Option Bytes)} {v : Value V} (hv : content f os = some v)
    (o : Option Bytes) (ho : takesValue f = true → o ≠ none) :
    (∃ v', content f (os ++ [o]) = some v' ∧ (toPlace f v).parseFrom o = .ok (toPlace f v'))
    ∨ (content f (os ++ [o]) = none ∧ ∃ e, (toPlace f v).parseFrom o = .error e) := by
  by_cases hm : isMulti f = true
  · have hne : o ≠ none := ho (by
      unfold isMulti at hm; unfold takesValue
      cases hk : f.kind <;> simp [hk] at hm ⊢)
    obtain ⟨b, rfl⟩ := Option.ne_none_iff_exists'.1 hne
    rw [content_multi hm _ (by simp), allValues_append]
    have key : ∀ (bs : List Bytes) (vs : List V), allValues os = some bs → parsedAll f (bs.flatMap (pieces f)) = some vs →
        (toPlace f v).parseFrom (some b) = (toPlace f (.many vs)).parseFrom (some b) →
        (∃ v', (match (allValues os).map (· ++ [b]) with
          | some bs => (parsedAll f (bs.flatMap (pieces f))).map Value.many
          | none => none) = some v' ∧ (toPlace f v).parseFrom (some b) = .ok (toPlace f v'))
        ∨ ((match (allValues os).map (· ++ [b]) with
          | some bs => (parsedAll f (bs.flatMap (pieces f))).map Value.many
          | none => none) = none ∧ ∃ e, (toPlace f v).parseFrom (some b) = .error e) := by
      intro bs vs h1 h2 h3
      rw [h3, toPlace_multi hm, h1]
      simp only [Option.map_some, List.flatMap_append, parsedAll_append, h2, List.flatMap_cons, List.flatMap_nil,
        List.append_nil]
      have := pushAll_parsedAll f vs (pieces f b)
      cases hp : parsedAll f (pieces f b) with
      | none =>
        rw [hp] at this
        obtain ⟨e, he⟩ := this
        right; exact ⟨rfl, e, by rw [he]⟩
      | some ws =>
        rw [hp] at this
        simp only at this
        left; exact ⟨_, rfl, by rw [this]⟩
    cases os with
    | nil =>
      simp only [content, Option.some.injEq] at hv
      subst hv
      exact key [] [] rfl rfl (initializer_multi hm b)
    | cons x xs =>
      rw [content_multi hm _ (by simp)] at hv
      cases ha : allValues (x :: xs) with
      | none => rw [ha] at hv; simp at hv
      | some bs =>
        rw [ha] at hv
        simp only [Option.map_eq_some_iff] at hv
        obtain ⟨vs, h1, rfl⟩ := hv
        rw [ha] at key
        exact key bs vs rfl h1 rfl
  · cases os with
    | nil =>
      simp only [content, Option.some.injEq] at hv
      subst hv
      simp only [List.nil_append, toPlace, FieldInfo.initializer, content]
      unfold isMulti at hm
      unfold takesValue at ho
      cases hk : f.kind <;> simp only [hk] at hm ho ⊢
      · cases o with
        | none => left; exact ⟨_, rfl, rfl⟩
        | some b => right; exact ⟨rfl, _, rfl⟩
      · obtain ⟨b, rfl⟩ := Option.ne_none_iff_exists'.1 (ho trivial)
        simp only [Place.parseFrom, Option.getD_some, Option.isSome_none, Bool.false_eq_true, if_false]
        cases hp : f.parser.parse b with
        | ok v => left; exact ⟨.one v, by simp [parsed_ok.2 hp], rfl⟩
        | error e => right; exact ⟨by simp [parsed_err.2 ⟨e, hp⟩], e, rfl⟩
      · obtain ⟨b, rfl⟩ := Option.ne_none_iff_exists'.1 (ho trivial)
        simp only [Place.parseFrom, Option.getD_some, Option.isSome_none, Bool.false_eq_true, if_false]
        cases hp : f.parser.parse b with
        | ok v => left; exact ⟨.one v, by simp [parsed_ok.2 hp], rfl⟩
        | error e => right; exact ⟨by simp [parsed_err.2 ⟨e, hp⟩], e, rfl⟩
      · cases o with
        | none => left; exact ⟨_, rfl, rfl⟩
        | some b =>
          simp only [Place.parseFrom, Option.isSome_none, Bool.false_eq_true, if_false]
          cases hp : f.parser.parse b with
          | ok v => left; exact ⟨.optional (some v), by simp [parsed_ok.2 hp], rfl⟩
          | error e => right; exact ⟨by simp [parsed_err.2 ⟨e, hp⟩], e, rfl⟩
      · exact absurd trivial hm
      · exact absurd trivial hm
    | cons x xs =>
      right
      refine ⟨?_, ?_⟩
      · simp only [List.cons_append, content]
        unfold isMulti at hm
        cases hk : f.kind <;> simp only [hk] at hm ⊢
        · simp
        · split
          · rename_i h; simp at h
          · rfl
        · split
          · rename_i h; simp at h
          · rfl
        · split
          · rename_i h; simp at h
          · rename_i h; simp at h
          · rfl
        · exact absurd trivial hm
        · exact absurd trivial hm
      · unfold content isMulti at *
        cases hk : f.kind <;> simp only [hk] at hm hv
        · split at hv
          · cases hv
            cases o with
            | none => exact ⟨_, rfl⟩
            | some b => exact ⟨_, rfl⟩
          · simp at hv
        · split at hv
          · rw [Option.map_eq_some_iff] at hv
            obtain ⟨w, _, rfl⟩ := hv
            exact ⟨_, rfl⟩
          · simp at hv
        · split at hv
          · rw [Option.map_eq_some_iff] at hv
            obtain ⟨w, _, rfl⟩ := hv
            exact ⟨_, rfl⟩
          · simp at hv
        · split at hv
          · cases hv
            exact ⟨_, rfl⟩
          · rw [Option.map_eq_some_iff] at hv
            obtain ⟨w, _, rfl⟩ := hv
            exact ⟨_, rfl⟩
          · simp at hv
        · exact absurd trivial hm
        · exact absurd trivial hm

/-- One more occurrence. -/
theorem given_step {f : FieldInfo V} {os : List (Option Bytes)} {v : Value V} (hv : given f os = some v)
    (o : Option Bytes) (ho : takesValue f = true → o ≠ none) :
    (∃ v', given f (os ++ [o]) = some v' ∧ (toPlace f v).parseFrom (o.map (normalise f)) = .ok (toPlace f v'))
    ∨ (given f (os ++ [o]) = none ∧ ∃ e, (toPlace f v).parseFrom (o.map (normalise f)) = .error e) := by
  have := content_step (f := f) (v := v) hv (o.map (normalise f)) (by
    intro h; have := ho h
    cases o <;> simp at this ⊢)
  unfold given
  rw [List.map_append]
  exact this

/-- Acceptable occurrences stay acceptable when the last ones are dropped. -/
theorem content_prefix (f : FieldInfo V) (os os' : List (Option Bytes)) (h : content f (os ++ os') ≠ none) :
    content f os ≠ none := by
  cases os with
  | nil => simp [content]
  | cons o os =>
    by_cases hm : isMulti f = true
    · rw [content_multi hm _ (by simp)] at h ⊢
      have hA : ∀ (xs ys : List (Option Bytes)) (bs : List Bytes), allValues (xs ++ ys) = some bs →
          ∃ b1 b2, allValues xs = some b1 ∧ bs = b1 ++ b2 := by
        intro xs ys
        induction xs with
        | nil => intro bs hb; exact ⟨[], bs, rfl, rfl⟩
        | cons x xs ih =>
          intro bs hb
          cases x with
          | none => simp [allValues] at hb
          | some x =>
            simp only [List.cons_append, allValues, Option.map_eq_some_iff] at hb ⊢
            obtain ⟨cs, h1, rfl⟩ := hb
            obtain ⟨b1, b2, h2, rfl⟩ := ih cs h1
            exact ⟨x :: b1, b2, ⟨b1, h2, rfl⟩, rfl⟩
      cases ha : allValues (o :: os ++ os') with
      | none => rw [ha] at h; simp at h
      | some bs =>
        rw [ha] at h
        obtain ⟨b1, b2, h1, rfl⟩ := hA _ _ _ ha
        rw [h1]
        simp only [List.flatMap_append, parsedAll_append, ne_eq, Option.map_eq_none_iff] at h ⊢
        intro hn
        rw [hn] at h
        simp at h
    · unfold content isMulti at *
      cases os' with
      | nil => simpa using h
      | cons p ps =>
        exfalso
        apply h
        simp only [List.cons_append]
        cases hk : f.kind <;> simp only [hk] at hm ⊢
        · simp
        · split
          · rename_i h; simp at h
          · rfl
        · split
          · rename_i h; simp at h
          · rfl
        · split
          · rename_i h; simp at h
          · rename_i h; simp at h
          · rfl
        · exact absurd trivial hm
        · exact absurd trivial hm

theorem given_prefix {f : FieldInfo V} {os os' : List (Option Bytes)} (h : given f (os ++ os') ≠ none) :
    given f os ≠ none := by
  unfold given at *
  rw [List.map_append] at h
  exact content_prefix f _ _ h

theorem given_nil (f : FieldInfo V) : given f [] = some .absent := rfl

theorem normalise_pos {cx : Cx V} {f : FieldInfo V} (h : FieldPre cx f) (ho : isOption f = false) (b : Bytes) :
    normalise f b = b := by
  unfold normalise
  rw [(h.posAttrs ho).2.2.1]
  rfl

theorem storeValue_eq {cx : Cx V} {f : FieldInfo V} (h : FieldPre cx f) (pl : Place V) (o : Option Bytes) :
    storeValue f.attrs pl o = pl.parseFrom (o.map (normalise f)) := by
  unfold storeValue normalise
  rw [h.lo]
  cases o with
  | none => rfl
  | some b => cases f.src.ignoreCase <;> rfl

end Palc
