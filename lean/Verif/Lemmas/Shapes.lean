import Verif.SpecErr
import Verif.Lemmas.Sim
/-! Shapes of arguments, selection of values, clusters one character at a time. -/

namespace Palc

open Spec

variable {V : Type}

/-! ## Bytes -/

theorem splitOnceEq_app {x v : Bytes} (h : eqSign ∉ x) : splitOnceEq (x ++ eqSign :: v) = some (x, v) := by
  induction x with
  | nil => simp [splitOnceEq]
  | cons b x ih =>
    simp only [List.mem_cons, not_or] at h
    simp [splitOnceEq, Ne.symm h.1, ih h.2]

/-- Every argument is a name without '=' followed by nothing or by '=' and a value. -/
theorem split_eq (arg : Bytes) : ∃ name tail, arg = name ++ tail ∧ eqSign ∉ name
    ∧ (tail = [] ∨ ∃ v, tail = eqSign :: v) := by
  induction arg with
  | nil => exact ⟨[], [], rfl, by simp, .inl rfl⟩
  | cons b bs ih =>
    by_cases hb : b = eqSign
    · exact ⟨[], b :: bs, rfl, by simp, .inr ⟨bs, by rw [hb]⟩⟩
    · obtain ⟨name, tail, h1, h2, h3⟩ := ih
      exact ⟨b :: name, tail, by rw [h1]; rfl, by simp [h2, Ne.symm hb], h3⟩

theorem enc_dashdash (s : Str) : enc ('-' :: '-' :: s) = dash :: dash :: enc s := by
  rw [enc_cons, enc_cons, encChar_dash]; rfl

theorem blit_dashdash : blit "--" = [dash, dash] := by decide
theorem blit_dash : blit "-" = [dash] := by decide
theorem blit_h : blit "h" = encChar 'h' := by decide
theorem blit_help : blit "--help" = enc ('-' :: '-' :: lit "help") := by decide

theorem startsWith_dashdash (arg : Bytes) : startsWith arg [dash, dash] = true ↔ ∃ r, arg = dash :: dash :: r := by
  unfold startsWith
  cases arg with
  | nil => simp [stripPrefix]
  | cons a as =>
    cases as with
    | nil => by_cases h : dash = a <;> simp [stripPrefix, h]
    | cons b bs =>
      by_cases h : dash = a
      · subst h
        by_cases h2 : dash = b
        · subst h2; simp [stripPrefix]
        · simp [stripPrefix, h2, Ne.symm h2]
      · simp [stripPrefix, h, Ne.symm h]

theorem shape_dashdash : argShape [dash, dash] = .dashDash := by
  unfold argShape; rw [blit_dashdash]; simp

theorem shape_long {r : Bytes} (h : r ≠ []) : argShape (dash :: dash :: r) = .long := by
  unfold argShape
  rw [blit_dashdash, if_neg (by simpa using h), if_pos ((startsWith_dashdash _).2 ⟨r, rfl⟩)]

theorem shape_bundle {b : Bytes} (hne : b ≠ []) (h : b.head? ≠ some dash) : argShape (dash :: b) = .bundle b := by
  unfold argShape
  cases b with
  | nil => exact absurd rfl hne
  | cons c bs =>
    have hc : c ≠ dash := by simpa using h
    rw [blit_dashdash, blit_dash, if_neg (by simp [hc]), if_neg (by
      rw [startsWith_dashdash]; rintro ⟨r, hr⟩; simp at hr; exact hc hr.1)]
    simp [stripPrefix]

theorem shape_plain {tok : Bytes} (h : Plain tok) : argShape tok = .plain := by
  unfold argShape
  rw [blit_dashdash, blit_dash]
  rcases h with h | h
  · cases tok with
    | nil => simp [startsWith, stripPrefix]
    | cons a as =>
      have : dash ≠ a := by simpa using Ne.symm (by simpa using h : a ≠ dash)
      simp [startsWith, stripPrefix, this, Ne.symm this]
  · subst h
    simp [startsWith, stripPrefix]

/-- The possible shapes. -/
theorem shape_cases (arg : Bytes) : arg = [dash, dash] ∨ (∃ r, r ≠ [] ∧ arg = dash :: dash :: r)
    ∨ (∃ b, b ≠ [] ∧ b.head? ≠ some dash ∧ arg = dash :: b) ∨ Plain arg := by
  cases arg with
  | nil => right; right; right; left; simp
  | cons a as =>
    by_cases ha : a = dash
    · subst ha
      cases as with
      | nil => right; right; right; right; rfl
      | cons b bs =>
        by_cases hb : b = dash
        · subst hb
          cases bs with
          | nil => left; rfl
          | cons c cs => right; left; exact ⟨c :: cs, by simp, rfl⟩
        · right; right; left; exact ⟨b :: bs, by simp, by simpa using hb, rfl⟩
    · right; right; right; left; simpa using ha

theorem shortInline_nil : shortInline [] = .none := by
  simp [shortInline, stripPrefix]

theorem shortInline_eq (v : Bytes) : shortInline (eqSign :: v) = .eq v := by
  simp [shortInline, stripPrefix]

theorem shortInline_other {r : Bytes} (hne : r ≠ []) (h : r.head? ≠ some eqSign) : shortInline r = .ambiguous r := by
  cases r with
  | nil => exact absurd rfl hne
  | cons a as =>
    have : eqSign ≠ a := fun he => h (by simp [he])
    simp [shortInline, stripPrefix, this]

/-! ## Values -/

theorem acceptSeparate_iff {cx : Cx V} {f : FieldInfo V} (h : FieldPre cx f) (v : Bytes) :
    acceptSeparate f.attrs v = true ↔ Standalone f v := by
  unfold acceptSeparate Standalone Plain
  rw [h.ha, h.hn]
  have hs : startsWith v [dash] = true ↔ v.head? = some dash := by
    unfold startsWith
    cases v with
    | nil => simp [stripPrefix]
    | cons a as =>
      by_cases e : dash = a
      · simp [stripPrefix, e]
      · simp [stripPrefix, e, Ne.symm e]
  have hd : (v.drop 1).all isDigit = true ↔ ∀ b ∈ v.tail, 48 ≤ b.toNat ∧ b.toNat ≤ 57 := by
    rw [List.all_eq_true]
    simp [isDigit]
  by_cases hv : v = [dash]
  · simp [hv]
  · by_cases hh : v.head? = some dash
    · rw [hs.2 hh]
      cases hany : f.src.allowHyphenValues with
      | true => simp
      | false =>
        cases hnum : f.src.allowNegativeNumbers with
        | false => simp [hv, hh]
        | true =>
          simp only [hv, decide_false, Bool.not_true, Bool.or_false, Bool.false_eq_true, if_false, if_true, hd, hh,
            ne_eq, not_true_eq_false, true_and, false_or]
    · have hs' : startsWith v [dash] = false := by
        rw [Bool.eq_false_iff]; intro h'; exact hh (hs.1 h')
      simp [hs', hh]

theorem select_eq (attrs : ArgAttrs) (v : Bytes) (next : Option Bytes) :
    selectValue attrs (.eq v) next = .ok (some v, false) := rfl

theorem select_bare {cx : Cx V} {f : FieldInfo V} (h : FieldPre cx f) (ht : takesValue f = false) (next : Option Bytes) :
    selectValue f.attrs .none next = .ok (none, false) := by
  simp [selectValue, h.rv, ht]

theorem select_sep {cx : Cx V} {f : FieldInfo V} (h : FieldPre cx f) (ht : takesValue f = true)
    (hq : f.src.requireEquals = false) {v : Bytes} (hs : Standalone f v) :
    selectValue f.attrs .none (some v) = .ok (some v, true) := by
  simp [selectValue, h.rv, ht, h.re, hq, (acceptSeparate_iff h v).2 hs]

theorem select_missingEq {cx : Cx V} {f : FieldInfo V} (h : FieldPre cx f) (ht : takesValue f = true)
    (hq : f.src.requireEquals = true) (next : Option Bytes) :
    selectValue f.attrs .none next = .error (Error.new .missingEq) := by
  simp [selectValue, h.rv, ht, h.re, hq]

theorem select_missingValue {cx : Cx V} {f : FieldInfo V} (h : FieldPre cx f) (ht : takesValue f = true)
    (hq : f.src.requireEquals = false) {next : Option Bytes} (hs : ∀ v, next = some v → ¬ Standalone f v) :
    selectValue f.attrs .none next = .error (Error.new .missingValue) := by
  cases next with
  | none => simp [selectValue, h.rv, ht, h.re, hq]
  | some v =>
    have : acceptSeparate f.attrs v = false := by
      rw [Bool.eq_false_iff]; intro h'; exact hs v rfl ((acceptSeparate_iff h v).1 h')
    simp [selectValue, h.rv, ht, h.re, hq, this]

theorem select_attached {cx : Cx V} {f : FieldInfo V} (h : FieldPre cx f) (ht : takesValue f = true)
    (hq : f.src.requireEquals = false) (v : Bytes) (next : Option Bytes) :
    selectValue f.attrs (.ambiguous v) next = .ok (some v, false) := by
  simp [selectValue, h.rv, ht, h.re, hq]

theorem select_more {cx : Cx V} {f : FieldInfo V} (h : FieldPre cx f) (ht : takesValue f = false)
    (hq : f.src.requireEquals = false) (v : Bytes) (next : Option Bytes) :
    selectValue f.attrs (.ambiguous v) next = .ok (none, false) := by
  simp [selectValue, h.rv, ht, h.re, hq]

theorem select_ambiguousEq {cx : Cx V} {f : FieldInfo V} (h : FieldPre cx f)
    (hq : f.src.requireEquals = true) (v : Bytes) (next : Option Bytes) :
    selectValue f.attrs (.ambiguous v) next = .error (Error.new .missingEq) := by
  simp [selectValue, h.re, hq]

/-! ## Unacceptable values -/

theorem pushAll_error {f : FieldInfo V} {vs : List V} {bs : List Bytes} {e : Error}
    (h : Place.pushAll f.parser vs bs = .error e) :
    ∃ xs x ys, bs = xs ++ x :: ys ∧ (∀ y ∈ xs, parsed f y ≠ none) ∧ f.parser.parse x = .error e := by
  induction bs generalizing vs with
  | nil => simp [Place.pushAll] at h
  | cons b bs ih =>
    simp only [Place.pushAll] at h
    split at h
    · rename_i v hv
      obtain ⟨xs, x, ys, rfl, h2, h3⟩ := ih h
      refine ⟨b :: xs, x, ys, rfl, ?_, h3⟩
      intro y hy
      rcases List.mem_cons.1 hy with rfl | hy
      · simp [parsed, hv]
      · exact h2 y hy
    · rename_i e' he
      cases h
      exact ⟨[], b, bs, rfl, by simp, he⟩

theorem bad_content {f : FieldInfo V} {os : List (Option Bytes)} {v : Value V} (hv : content f os = some v)
    {o : Option Bytes} (ho : takesValue f = true → o ≠ none) {e : Error} (he : (toPlace f v).parseFrom o = .error e) :
    BadValue f os o e := by
  by_cases hm : isMulti f = true
  · have hne : o ≠ none := ho (by
      unfold isMulti at hm; unfold takesValue
      cases hk : f.kind <;> simp [hk] at hm ⊢)
    obtain ⟨b, rfl⟩ := Option.ne_none_iff_exists'.1 hne
    have key : ∀ vs, (toPlace f (.many vs)).parseFrom (some b) = .error e → BadValue f os (some b) e := by
      intro vs h
      rw [toPlace_multi hm] at h
      split at h
      · simp at h
      · rename_i e' he'
        cases h
        obtain ⟨xs, x, ys, h1, h2, h3⟩ := pushAll_error he'
        exact .piece hm h1 h2 h3
    cases os with
    | nil =>
      simp only [content, Option.some.injEq] at hv
      subst hv
      rw [toPlace, initializer_multi hm] at he
      exact key _ he
    | cons x xs =>
      rw [content_multi hm _ (by simp)] at hv
      cases ha : allValues (x :: xs) with
      | none => rw [ha] at hv; simp at hv
      | some bs =>
        rw [ha] at hv
        simp only [Option.map_eq_some_iff] at hv
        obtain ⟨vs, h1, rfl⟩ := hv
        exact key _ he
  · have hm' : isMulti f = false := by simpa using hm
    cases os with
    | nil =>
      simp only [content, Option.some.injEq] at hv
      subst hv
      simp only [toPlace, FieldInfo.initializer] at he
      unfold takesValue at ho
      unfold isMulti at hm
      cases hk : f.kind <;> simp only [hk] at he ho hm
      · cases o with
        | none => simp [Place.parseFrom] at he
        | some b => simp only [Place.parseFrom] at he; cases he; exact .flagValue hk
      · obtain ⟨b, rfl⟩ := Option.ne_none_iff_exists'.1 (ho trivial)
        simp only [Place.parseFrom, Option.getD_some, Option.isSome_none, Bool.false_eq_true, if_false] at he
        split at he
        · simp at he
        · rename_i hp; cases he; exact .invalid hm' (by simp [hk]) rfl hp
      · obtain ⟨b, rfl⟩ := Option.ne_none_iff_exists'.1 (ho trivial)
        simp only [Place.parseFrom, Option.getD_some, Option.isSome_none, Bool.false_eq_true, if_false] at he
        split at he
        · simp at he
        · rename_i hp; cases he; exact .invalid hm' (by simp [hk]) rfl hp
      · cases o with
        | none => simp [Place.parseFrom] at he
        | some b =>
          simp only [Place.parseFrom, Option.isSome_none, Bool.false_eq_true, if_false] at he
          split at he
          · simp at he
          · rename_i hp; cases he; exact .invalid hm' (by simp [hk]) rfl hp
      · exact absurd trivial hm
      · exact absurd trivial hm
    | cons x xs =>
      unfold content at hv
      unfold isMulti at hm
      cases hk : f.kind <;> simp only [hk] at hv hm
      · split at hv
        · cases hv
          cases o with
          | none => simp only [toPlace, Place.parseFrom] at he; cases he; exact .duplicate hm' (fun _ => rfl) (by simp)
          | some b => simp only [toPlace, Place.parseFrom] at he; cases he; exact .flagValue hk
        · simp at hv
      · split at hv
        · rw [Option.map_eq_some_iff] at hv
          obtain ⟨w, _, rfl⟩ := hv
          simp only [toPlace, Place.parseFrom] at he; cases he
          exact .duplicate hm' (by simp [hk]) (by simp)
        · simp at hv
      · split at hv
        · rw [Option.map_eq_some_iff] at hv
          obtain ⟨w, _, rfl⟩ := hv
          simp only [toPlace, Place.parseFrom] at he; cases he
          exact .duplicate hm' (by simp [hk]) (by simp)
        · simp at hv
      · have : ∃ w, v = .optional w := by
          split at hv
          · cases hv; exact ⟨_, rfl⟩
          · rw [Option.map_eq_some_iff] at hv
            obtain ⟨w, _, rfl⟩ := hv
            exact ⟨_, rfl⟩
          · simp at hv
        obtain ⟨w, rfl⟩ := this
        simp only [toPlace, Place.parseFrom] at he; cases he
        exact .duplicate hm' (by simp [hk]) (by simp)
      · exact absurd trivial hm
      · exact absurd trivial hm

theorem Spec.BadValue.congr {f : FieldInfo V} {os os' : List (Option Bytes)} (h : os = [] ↔ os' = []) {o : Option Bytes}
    {e : Error} (hb : BadValue f os o e) : BadValue f os' o e := by
  cases hb with
  | flagValue hk => exact .flagValue hk
  | duplicate hm ho hne => exact .duplicate hm ho (fun h' => hne (h.2 h'))
  | invalid hm hk hos hv => exact .invalid hm hk (h.1 hos) hv
  | piece hm hp hxs hv => exact .piece hm hp hxs hv

theorem bad_given {f : FieldInfo V} {os : List (Option Bytes)} {v : Value V} (hv : given f os = some v)
    {o : Option Bytes} (ho : takesValue f = true → o ≠ none) {e : Error}
    (he : (toPlace f v).parseFrom (o.map (normalise f)) = .error e) : BadValue f os (o.map (normalise f)) e := by
  refine BadValue.congr ?_ (bad_content hv (by intro h; have := ho h; cases o <;> simp at this ⊢) he)
  simp

/-! ## Clusters -/

theorem mBundle_nil (ls : List (Level V)) (next : Option Bytes) : mBundle ls [] next = .ok (ls, .cont) := rfl

theorem mBundle_char (ls : List (Level V)) (c : Char) (rest : Bytes) (next : Option Bytes) :
    mBundle ls (encChar c ++ rest) next = match mNamed ls true (encChar c) (shortInline rest) next with
      | .error e => .error e
      | .ok (ls, .brk took) => .ok (ls, .brk took)
      | .ok (ls, .cont) => mBundle ls rest next := by
  unfold mBundle
  rw [utf8Chunk_encChar]
  simp only [mChars, utf8Chunk_join]
  rfl

theorem mBundle_invalid (ls : List (Level V)) {b : Bytes} (hne : b ≠ []) (hb : ∀ c r, b ≠ encChar c ++ r)
    (next : Option Bytes) : mBundle ls b next = errR (unexpected (dash :: b)) := by
  have hj := utf8Chunk_join b
  unfold mBundle
  cases hc : utf8Chunk b with
  | mk cs tail =>
    rw [hc] at hj
    cases cs with
    | cons c cs =>
      simp only [enc_cons, List.append_assoc] at hj
      exact absurd hj.symm (hb c _)
    | nil =>
      simp only [enc_nil, List.nil_append] at hj
      subst hj
      simp only [mChars, hne, if_false]
      rfl

end Palc
