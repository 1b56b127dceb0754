import Verif.Lemmas.Run
/-! Validation and construction of the output. -/

namespace Palc

open Spec

variable {V : Type}

/-! ## Fields -/

theorem isSet_toPlace {f : FieldInfo V} {os : List (Option Bytes)} {v : Value V} (h : given f os = some v) :
    (toPlace f v).isSet = !os.isEmpty := by
  cases os with
  | nil =>
    cases h
    simp only [toPlace, FieldInfo.initializer]
    cases f.kind <;> first | rfl | (cases f.valueDelimiter <;> rfl)
  | cons o os =>
    unfold given content at h
    simp only [List.map_cons] at h
    have : v ≠ .absent := by
      cases hk : f.kind <;> simp only [hk] at h <;> split at h <;>
        first
        | (rw [Option.map_eq_some_iff] at h; obtain ⟨w, _, rfl⟩ := h; simp)
        | (cases h; simp)
        | simp at h
    cases v with
    | absent => exact absurd rfl this
    | flag => rfl
    | one => rfl
    | optional => rfl
    | many vs => simp only [toPlace]; cases f.valueDelimiter <;> rfl

theorem content_toField {f : FieldInfo V} {os : List (Option Bytes)} {v : Value V} (h : content f os = some v)
    (hne : os ≠ []) : ∃ o, toField f v = some o ∧ f.extract (toPlace f v) = .ok o := by
  unfold content at h
  cases os with
  | nil => exact absurd rfl hne
  | cons o os =>
    simp only at h
    cases hk : f.kind <;> simp only [hk] at h
    · split at h
      · cases h; exact ⟨_, by simp [toField, hk]; rfl, by simp [toPlace, FieldInfo.extract, hk]⟩
      · simp at h
    · split at h
      · rw [Option.map_eq_some_iff] at h; obtain ⟨w, _, rfl⟩ := h
        exact ⟨_, by simp [toField, hk]; rfl, by simp [toPlace, FieldInfo.extract, hk]⟩
      · simp at h
    · split at h
      · rw [Option.map_eq_some_iff] at h; obtain ⟨w, _, rfl⟩ := h
        exact ⟨_, by simp [toField, hk]; rfl, by simp [toPlace, FieldInfo.extract, hk]⟩
      · simp at h
    · split at h
      · cases h; exact ⟨_, by simp [toField, hk]; rfl, by simp [toPlace, FieldInfo.extract, hk]⟩
      · rw [Option.map_eq_some_iff] at h; obtain ⟨w, _, rfl⟩ := h
        exact ⟨_, by simp [toField, hk]; rfl, by simp [toPlace, FieldInfo.extract, hk]⟩
      · simp at h
    · split at h
      · rw [Option.map_eq_some_iff] at h; obtain ⟨w, _, rfl⟩ := h
        refine ⟨_, by simp [toField, hk]; rfl, ?_⟩
        simp only [toPlace]
        cases f.valueDelimiter <;> simp [FieldInfo.extract, hk]
      · simp at h
    · split at h
      · rw [Option.map_eq_some_iff] at h; obtain ⟨w, _, rfl⟩ := h
        refine ⟨_, by simp [toField, hk]; rfl, ?_⟩
        simp only [toPlace]
        cases f.valueDelimiter <;> simp [FieldInfo.extract, hk]
      · simp at h

theorem extract_given {f : FieldInfo V} {os : List (Option Bytes)} {v : Value V} (h : given f os = some v)
    (hne : os ≠ []) : ∃ o, fieldOut f os = some o ∧ f.extract (toPlace f v) = .ok o := by
  obtain ⟨o, h1, h2⟩ := content_toField h (by simpa using hne)
  refine ⟨o, ?_, h2⟩
  cases os with
  | nil => exact absurd rfl hne
  | cons x xs => simp only [fieldOut, h]; exact h1

/-- A field that was not given. -/
theorem onUnset_absent {cx : Cx V} {f : FieldInfo V} (hf : FieldPre cx f) (info : ArgsInfo)
    (hd : info.getDescription f.attrs.getIndex = some f.description) :
    match unsetFail f with
    | some x => onUnset info f f.initializer = .error x
    | none => ∃ pl o, onUnset info f f.initializer = .ok pl ∧ fieldOut f [] = some o ∧ f.extract pl = .ok o
        ∧ (f.kind = .value → pl.isSet = true) := by
  have hset : f.initializer.isSet = false := isSet_toPlace (given_nil f)
  unfold unsetFail
  cases hdv : f.defaultValue with
  | none =>
    cases hr : isRequired f with
    | true =>
      simp only [if_true]
      unfold onUnset
      simp only [hset, Bool.false_eq_true, if_false, hdv, hf.required, hr, if_true, withArgIdx, hd]
      rfl
    | false =>
      have hfo : fieldOut f [] = toField f .absent := by simp [fieldOut, defaultContent, hdv]
      have hk : f.kind ≠ .value := by
        intro h; simp [isRequired, h, hdv] at hr
      simp only [Bool.false_eq_true, if_false]
      have hu : onUnset info f f.initializer = .ok f.initializer := by
        unfold onUnset
        simp [hset, hdv, hf.required, hr]
      rw [hfo]
      have : ∃ o, toField f .absent = some o ∧ f.extract f.initializer = .ok o := by
        simp only [toField, FieldInfo.initializer, FieldInfo.extract]
        cases h : f.kind <;> simp only [h] at hk
        · exact ⟨_, rfl, rfl⟩
        · exact absurd rfl hk
        · exact ⟨_, rfl, rfl⟩
        · exact ⟨_, rfl, rfl⟩
        · cases f.valueDelimiter <;> exact ⟨_, rfl, rfl⟩
        · cases f.valueDelimiter <;> exact ⟨_, rfl, rfl⟩
      obtain ⟨o, h1, h2⟩ := this
      rw [h1]
      simp only [Option.isNone_some, Bool.false_eq_true, if_false]
      exact ⟨_, o, hu, rfl, h2, fun h => absurd h hk⟩
  | some dv =>
    have hr : isRequired f = false := by simp [isRequired, hdv]
    simp only [hr, Bool.false_eq_true, if_false]
    cases dv with
    | parseStr s =>
      have hfo : fieldOut f [] = (content f [some (enc s)]).bind (toField f) := by simp [fieldOut, defaultContent, hdv]
      have hu : onUnset info f f.initializer = match f.initializer.parseFrom (some (enc s)) with
          | .ok pl' => .ok pl'
          | .error _ => panicR := by
        unfold onUnset
        simp [hset, hdv, Place.setDefaultParse]
        rfl
      have := content_step (f := f) (os := []) (v := .absent) rfl (some (enc s)) (by simp)
      rw [List.nil_append] at this
      rcases this with ⟨v', h1, h2⟩ | ⟨h1, e, h2⟩
      · obtain ⟨o, q1, q2⟩ := content_toField h1 (by simp)
        rw [hfo, h1, Option.bind_some, q1]
        simp only [Option.isNone_some, Bool.false_eq_true, if_false]
        change f.initializer.parseFrom _ = _ at h2
        rw [hu, h2]
        refine ⟨_, o, rfl, rfl, q2, ?_⟩
        intro hk
        have : v' ≠ .absent := by
          rintro rfl
          simp [toField, hk] at q1
        cases v' with
        | absent => exact absurd rfl this
        | flag => rfl
        | one => rfl
        | optional => rfl
        | many vs => simp only [toPlace]; cases f.valueDelimiter <;> rfl
      · rw [hfo, h1]
        simp only [Option.bind_none, Option.isNone_none, if_true]
        change f.initializer.parseFrom _ = _ at h2
        rw [hu, h2]
        rfl
    | valueExpr v shown =>
      have hty := hf.defaultTy v shown hdv
      have hu : onUnset info f f.initializer = f.initializer.setDefault v := by
        unfold onUnset
        simp [hset, hdv]
      rw [hu]
      unfold defaultTypeOk at hty
      have : ∃ pl o, f.initializer.setDefault v = .ok pl ∧ fieldOut f [] = some o ∧ f.extract pl = .ok o
          ∧ pl.isSet = true := by
        simp only [fieldOut, defaultContent, hdv, FieldInfo.initializer, FieldInfo.extract]
        cases hk : f.kind <;> cases v <;> simp only [hk] at hty <;> first
          | contradiction
          | (simp at hty; done)
          | exact ⟨_, _, rfl, by simp [toField, hk], rfl, rfl⟩
          | (cases f.valueDelimiter <;> exact ⟨_, _, rfl, by simp [toField, hk], rfl, rfl⟩)
      obtain ⟨pl, o, h1, h2, h3, h4⟩ := this
      rw [h2]
      simp only [Option.isNone_some, Bool.false_eq_true, if_false]
      exact ⟨pl, o, h1, rfl, h3, fun _ => h4⟩

/-! ## Structs -/

/-- The places `pls` hold the occurrences `os` of the fields `fs`, numbered from `i0`. -/
def Filled (os : Nat → List (Option Bytes)) : Nat → List (FieldInfo V) → List (Place V) → Prop
  | _, [], pls => pls = []
  | i, f :: fs, pls => ∃ v pls', given f (os i) = some v ∧ pls = toPlace f v :: pls' ∧ Filled os (i + 1) fs pls'

theorem Filled.get {os : Nat → List (Option Bytes)} {i0 : Nat} {fs : List (FieldInfo V)} {pls : List (Place V)}
    (h : Filled os i0 fs pls) {n : Nat} {f : FieldInfo V} (hf : fs[n]? = some f) :
    ∃ v, given f (os (i0 + n)) = some v ∧ pls[n]? = some (toPlace f v) := by
  induction fs generalizing i0 pls n with
  | nil => simp at hf
  | cons g fs ih =>
    obtain ⟨v, pls', h1, rfl, h2⟩ := h
    cases n with
    | zero => simp at hf; subst hf; exact ⟨v, h1, rfl⟩
    | succ n =>
      simp only [List.getElem?_cons_succ] at hf
      obtain ⟨w, q1, q2⟩ := ih h2 hf
      exact ⟨w, by rw [show i0 + (n + 1) = i0 + 1 + n by omega]; exact q1, by simpa using q2⟩

theorem Filled.of_get {os : Nat → List (Option Bytes)} {i0 : Nat} {fs : List (FieldInfo V)} {pls : List (Place V)}
    (hlen : pls.length = fs.length) (h : ∀ (n : Nat) (f : FieldInfo V), fs[n]? = some f →
      ∃ v, given f (os (i0 + n)) = some v ∧ pls[n]? = some (toPlace f v)) : Filled os i0 fs pls := by
  induction fs generalizing i0 pls with
  | nil => simpa [Filled] using hlen
  | cons g fs ih =>
    cases pls with
    | nil => simp at hlen
    | cons p pls =>
      obtain ⟨v, q1, q2⟩ := h 0 g rfl
      simp only [List.getElem?_cons_zero, Option.some.injEq] at q2
      refine ⟨v, pls, q1, by rw [q2], ih (by simpa using hlen) ?_⟩
      intro n f hf
      obtain ⟨w, q1, q2⟩ := h (n + 1) f (by simpa using hf)
      exact ⟨w, by rw [show i0 + 1 + n = i0 + (n + 1) by omega]; exact q1, by simpa using q2⟩

/-- Which fields were given. -/
def present (os : Nat → List (Option Bytes)) (i : Nat) : Bool := !(os i).isEmpty

theorem find_unique {α : Type} {l : List α} {k n : Nat} {p : α → Bool} {q : Nat → Bool} {x : α} (hx : l[n]? = some x)
    (hp : p x = true) (hu : ∀ (m : Nat) (y : α), l[m]? = some y → p y = true → m = n) :
    (l.zipIdx k).find? (fun y => p y.1 && q y.2) = if q (k + n) then some (x, k + n) else none := by
  induction l generalizing k n with
  | nil => simp at hx
  | cons a l ih =>
    rw [List.zipIdx_cons, List.find?_cons]
    cases n with
    | zero =>
      simp only [List.getElem?_cons_zero, Option.some.injEq] at hx
      subst hx
      simp only [hp, Bool.true_and, Nat.add_zero]
      cases hq : q k with
      | true => rfl
      | false =>
        simp only [Bool.false_eq_true, if_false]
        rw [List.find?_eq_none]
        rintro ⟨y, m⟩ hy
        obtain ⟨m', hm⟩ := List.getElem?_of_mem (List.fst_mem_of_mem_zipIdx hy)
        cases hpy : p y with
        | false => simp
        | true =>
          have := hu (m' + 1) y (by simpa using hm) hpy
          omega
    | succ n =>
      simp only [List.getElem?_cons_succ] at hx
      have ha : p a = false := by
        cases hpa : p a with
        | false => rfl
        | true =>
          have := hu 0 a rfl hpa
          omega
      simp only [ha, Bool.false_and]
      rw [ih hx (fun m y hm hpy => by
        have := hu (m + 1) y (by simpa using hm) hpy
        omega)]
      rw [show k + 1 + n = k + (n + 1) by omega]

theorem ident_unique {cx : Cx V} {c : Core V} (wf : CoreWF cx c) {n m : Nat} {f g : FieldInfo V}
    (hf : c.fields[n]? = some f) (hg : c.fields[m]? = some g) (he : g.ident = f.ident) : m = n := by
  have := wf.idents
  have h1 : (c.fields.map (·.ident))[n]? = some f.ident := by simp [hf]
  have h2 : (c.fields.map (·.ident))[m]? = some f.ident := by simp [hg, he]
  have hn := (List.getElem?_eq_some_iff.1 h1).1
  have hm := (List.getElem?_eq_some_iff.1 h2).1
  exact (List.getElem_inj (h₀ := hm) (h₁ := hn) this).1 (by
    rw [(List.getElem?_eq_some_iff.1 h1).2, (List.getElem?_eq_some_iff.1 h2).2])

theorem vars_isSet {fs : List (FieldInfo V)} {pls : List (Place V)} {os : Nat → List (Option Bytes)} {i0 : Nat}
    (h : Filled os i0 fs pls) {n : Nat} {f : FieldInfo V} (hf : fs[n]? = some f)
    (hu : ∀ (m : Nat) (g : FieldInfo V), fs[m]? = some g → g.ident = f.ident → m = n) :
    Vars.isSet (fs.zip pls) f.ident = .ok (present os (i0 + n)) := by
  unfold Vars.isSet
  induction fs generalizing i0 pls n with
  | nil => simp at hf
  | cons g fs ih =>
    obtain ⟨v, pls', h1, rfl, h2⟩ := h
    rw [List.zip_cons_cons, List.find?_cons]
    cases n with
    | zero =>
      simp at hf
      subst hf
      simp only [decide_true]
      rw [isSet_toPlace h1]
      rfl
    | succ n =>
      have : g.ident ≠ f.ident := by
        intro he
        have := hu 0 g rfl he
        omega
      simp only [this, decide_false]
      rw [ih h2 (by simpa using hf) (fun m y hm he => by
        have := hu (m + 1) y (by simpa using hm) he
        omega)]
      rw [show i0 + 1 + n = i0 + (n + 1) by omega]

theorem firstRef_eq {cx : Cx V} {c : Core V} (wf : CoreWF cx c) {pls : List (Place V)} {os : Nat → List (Option Bytes)}
    (h : Filled os 0 c.fields pls) (want : Bool) (refs : List (Str × Nat))
    (hr : ∀ r ∈ refs, ∃ g : FieldInfo V, c.fields[r.2]? = some g ∧ g.ident = r.1) :
    firstRef (c.fields.zip pls) want refs = .ok ((refs.find? (fun r => present os r.2 == want)).map (·.2)) := by
  induction refs with
  | nil => rfl
  | cons r refs ih =>
    obtain ⟨x, n⟩ := r
    obtain ⟨g, h1, rfl⟩ := hr (x, n) (by simp)
    simp only at h1
    have := vars_isSet h h1 (fun m y hm he => ident_unique wf h1 hm he)
    rw [Nat.zero_add] at this
    simp only [firstRef, this, List.find?_cons]
    by_cases hw : present os n = want
    · simp [hw]
    · simp only [hw, if_false]
      rw [ih (fun r hr' => hr r (by simp [hr']))]
      have : (present os n == want) = false := by simpa using hw
      simp only [this]

theorem zip_refs {c : Core V} {ids : List Str} {ns : List Nat}
    (hk : ∀ (k : Nat) (x : Str) (n : Nat), ids[k]? = some x → ns[k]? = some n →
      ∃ g : FieldInfo V, c.fields[n]? = some g ∧ g.ident = x) :
    ∀ r ∈ ids.zip ns, ∃ g : FieldInfo V, c.fields[r.2]? = some g ∧ g.ident = r.1 := by
  rintro ⟨x, n⟩ hr
  obtain ⟨k, hk'⟩ := List.getElem?_of_mem hr
  rw [List.getElem?_zip_eq_some] at hk'
  exact hk k x n hk'.1 hk'.2

/-- Resolved references, both ways. -/
theorem refs_find {cx : Cx V} {c : Core V} (wf : CoreWF cx c) (q : Nat → Bool) (ids : List Str) (ns : List Nat)
    (hlen : ns.length = ids.length)
    (hk : ∀ (k : Nat) (x : Str) (n : Nat), ids[k]? = some x → ns[k]? = some n →
      ∃ g : FieldInfo V, c.fields[n]? = some g ∧ g.ident = x) :
    ids.findSome? (fun x => c.fields.zipIdx.find? (fun y => decide (y.1.ident = x) && q y.2))
      = ((ids.zip ns).find? (fun r => q r.2)).bind (fun r => c.fields[r.2]?.map (fun g => (g, r.2))) := by
  induction ids generalizing ns with
  | nil => simp
  | cons x ids ih =>
    cases ns with
    | nil => simp at hlen
    | cons n ns =>
      obtain ⟨g, h1, rfl⟩ := hk 0 x n rfl rfl
      rw [List.findSome?_cons, List.zip_cons_cons, List.find?_cons]
      have := find_unique (k := 0) (p := fun y : FieldInfo V => decide (y.ident = g.ident)) (q := q) h1 (by simp)
        (fun m y hm he => ident_unique wf h1 hm (by simpa using he))
      rw [Nat.zero_add] at this
      rw [this]
      cases hq : q n with
      | true => simp [h1]
      | false =>
        simp only [Bool.false_eq_true, if_false]
        exact ih ns (by simpa using hlen) (fun k x n h1 h2 => hk (k + 1) x n (by simpa using h1) (by simpa using h2))

theorem refs_any {cx : Cx V} {c : Core V} (wf : CoreWF cx c) (q : Nat → Bool) (ids : List Str) (ns : List Nat)
    (hlen : ns.length = ids.length)
    (hk : ∀ (k : Nat) (x : Str) (n : Nat), ids[k]? = some x → ns[k]? = some n →
      ∃ g : FieldInfo V, c.fields[n]? = some g ∧ g.ident = x) :
    ids.any (fun x => c.fields.zipIdx.any (fun y => decide (y.1.ident = x) && q y.2))
      = ((ids.zip ns).find? (fun r => q r.2)).isSome := by
  induction ids generalizing ns with
  | nil => simp
  | cons x ids ih =>
    cases ns with
    | nil => simp at hlen
    | cons n ns =>
      obtain ⟨g, h1, rfl⟩ := hk 0 x n rfl rfl
      rw [List.any_cons, List.zip_cons_cons, List.find?_cons]
      have := find_unique (k := 0) (p := fun y : FieldInfo V => decide (y.ident = g.ident)) (q := q) h1 (by simp)
        (fun m y hm he => ident_unique wf h1 hm (by simpa using he))
      rw [Nat.zero_add] at this
      have ha : c.fields.zipIdx.any (fun y => decide (y.1.ident = g.ident) && q y.2) = q n := by
        rw [Bool.eq_iff_iff, List.any_eq_true, ← List.find?_isSome, this]
        cases q n <;> simp
      rw [ha, ih ns (by simpa using hlen) (fun k x n h1 h2 => hk (k + 1) x n (by simpa using h1) (by simpa using h2))]
      cases hq : q n <;> simp

theorem count_gt_one {fs : List (FieldInfo V)} {pls : List (Place V)} {os : Nat → List (Option Bytes)} {i0 : Nat}
    (h : Filled os i0 fs pls) :
    ((fs.zip pls).filter (fun x => x.2.isSet)).length
      = ((List.range' i0 fs.length).filter (fun i => present os i)).length := by
  induction fs generalizing i0 pls with
  | nil => rfl
  | cons f fs ih =>
    obtain ⟨v, pls', h1, rfl, h2⟩ := h
    rw [List.zip_cons_cons, List.filter_cons, List.length_cons, List.range'_succ, List.filter_cons]
    simp only [isSet_toPlace h1]
    have : (!(os i0).isEmpty) = present os i0 := rfl
    rw [this]
    cases present os i0 with
    | true => simp [ih h2]
    | false => simp [ih h2]

theorem filter_others {n i : Nat} {q : Nat → Bool} (hi : i < n) (hq : q i = true) :
    decide (((List.range n).filter q).length > 1) = (List.range n).any (fun j => j != i && q j) := by
  rw [Bool.eq_iff_iff, decide_eq_true_eq, List.any_eq_true]
  have hnd : ((List.range n).filter q).Nodup := List.Pairwise.filter _ List.nodup_range
  have hmem : i ∈ (List.range n).filter q := by simp [hi, hq]
  constructor
  · intro hgt
    have hc : ∃ j ∈ (List.range n).filter q, j ≠ i := by
      apply Classical.byContradiction
      intro hno
      have hall : ∀ j ∈ (List.range n).filter q, j = i := by
        intro j hj
        apply Classical.byContradiction
        intro hji
        exact hno ⟨j, hj, hji⟩
      generalize (List.range n).filter q = l at *
      cases l with
      | nil => simp at hgt
      | cons a l =>
        cases l with
        | nil => simp at hgt
        | cons b l =>
          have h1 := hall a (by simp)
          have h2 := hall b (by simp)
          rw [h1, h2] at hnd
          simp at hnd
    obtain ⟨j, hj, hji⟩ := hc
    rw [List.mem_filter] at hj
    exact ⟨j, hj.1, by simp [hji, hj.2]⟩
  · rintro ⟨j, hj, hq'⟩
    simp only [bne_iff_ne, ne_eq, Bool.and_eq_true] at hq'
    have hj' : j ∈ (List.range n).filter q := by simp only [List.mem_filter]; exact ⟨hj, hq'.2⟩
    generalize (List.range n).filter q = l at *
    cases l with
    | nil => simp at hmem
    | cons a l =>
      cases l with
      | nil =>
        simp at hmem hj'
        exact absurd (hj'.trans hmem.symm) hq'.1
      | cons b l => simp

/-- Descriptions of a struct. -/
def DescOk (c : Core V) (info : ArgsInfo) : Prop :=
  ∀ (i : Nat) (f : FieldInfo V), c.fields[i]? = some f → info.getDescription i = some f.description

theorem onSetCheck_eq {cx : Cx V} {c : Core V} (wf : CoreWF cx c) {info : ArgsInfo} (hd : DescOk c info)
    {pls : List (Place V)} {os : Nat → List (Option Bytes)} (h : Filled os 0 c.fields pls) {sub : Bool} {total : Nat}
    (htot : (∃ f ∈ c.fields, f.exclusive = true) → total = ((List.range c.fields.length).filter (present os)).length + (if sub then 1 else 0))
    {i : Nat} {f : FieldInfo V} (hf : c.fields[i]? = some f) {v : Value V} (hv : given f (os i) = some v) :
    onSetCheck info (c.fields.zip pls) total f (toPlace f v)
      = match (if present os i then setError c (present os) sub i f else none) with
        | some e => errR e
        | none => .ok () := by
  have hfw := wf.fields i f hf
  have hmem := List.mem_of_getElem? hf
  have hset : (toPlace f v).isSet = present os i := isSet_toPlace hv
  unfold onSetCheck
  rw [hset]
  cases hp : present os i with
  | false => simp
  | true =>
    simp only [if_true]
    unfold setError
    have hex : (f.exclusive && decide (total > 1))
        = (f.src.exclusive && (sub || (List.range c.fields.length).any (fun j => j != i && present os j))) := by
      rw [hfw.excl]
      cases he : f.src.exclusive with
      | false => rfl
      | true =>
        simp only [Bool.true_and]
        rw [htot ⟨f, hmem, by rw [hfw.excl, he]⟩]
        have hlt := (List.getElem?_eq_some_iff.1 hf).1
        rw [← filter_others hlt hp]
        have hpos : 0 < ((List.range c.fields.length).filter (present os)).length := by
          apply List.length_pos_of_mem (a := i)
          simp [hlt, hp]
        cases sub with
        | true => simp only [if_true, Bool.true_or, decide_eq_true_eq]; omega
        | false => simp
    rw [hex]
    have hdi : info.getDescription f.attrs.getIndex = some f.description := by rw [hfw.idx]; exact hd i f hf
    cases hx : (f.src.exclusive && (sub || (List.range c.fields.length).any (fun j => j != i && present os j))) with
    | true =>
      simp only [if_true]
      rw [withArgIdx, hdi]
    | false =>
      simp only [Bool.false_eq_true, if_false]
      have hdeps : refHit (c.fields.zip pls) false f.dependencies f.dependenciesIdx
          = .ok ((f.src.requires.findSome? (fun x => c.fields.zipIdx.find? (fun y => decide (y.1.ident = x) && !present os y.2))).map (·.2)) := by
        rw [← hfw.deps]
        rcases wf.depsOk f hmem with ⟨h1, h2⟩ | ⟨ns, h1, h2, h3⟩
        · rw [h1, h2]; rfl
        · rw [h1, refHit, firstRef_eq wf h false _ (zip_refs h3), refs_find wf (fun j => !present os j) _ ns h2 h3]
          congr 1
          have : (fun r : Str × Nat => present os r.2 == false) = fun r => !present os r.2 := by
            funext r; cases present os r.2 <;> rfl
          rw [this]
          cases hfd : (f.dependencies.zip ns).find? (fun r => !present os r.2) with
          | none => rfl
          | some r =>
            obtain ⟨g, hg, _⟩ := zip_refs h3 r (List.mem_of_find?_eq_some hfd)
            simp [hg]
      rw [hdeps]
      cases hreq : f.src.requires.findSome? (fun x => c.fields.zipIdx.find? (fun y => decide (y.1.ident = x) && !present os y.2)) with
      | some g =>
        simp only [Option.map_some]
        obtain ⟨g, n⟩ := g
        rw [List.findSome?_eq_some_iff] at hreq
        obtain ⟨_, x, _, _, hfind, _⟩ := hreq
        have hg := List.mem_zipIdx_iff_getElem?.1 (List.mem_of_find?_eq_some hfind)
        simp only at hg
        rw [withArgIdx, hd n g hg]
      | none =>
        simp only [Option.map_none]
        have hconf : (refHit (c.fields.zip pls) true f.conflicts f.conflictsIdx).map Option.isSome
            = .ok (f.src.conflictsWith.any (fun x => c.fields.zipIdx.any (fun y => decide (y.1.ident = x) && present os y.2))) := by
          rw [← hfw.confs]
          rcases wf.confsOk f hmem with ⟨h1, h2⟩ | ⟨ns, h1, h2, h3⟩
          · rw [h1, h2]; rfl
          · rw [h1, refHit, firstRef_eq wf h true _ (zip_refs h3), refs_any wf (present os) _ ns h2 h3]
            have : (fun r : Str × Nat => present os r.2 == true) = fun r => present os r.2 := by
              funext r; cases present os r.2 <;> rfl
            rw [this]
            simp [Except.map]
        cases hh : refHit (c.fields.zip pls) true f.conflicts f.conflictsIdx with
        | error e => rw [hh] at hconf; simp [Except.map] at hconf
        | ok o =>
          rw [hh] at hconf
          simp only [Except.map, Except.ok.injEq] at hconf
          rw [← hconf]
          cases o with
          | none => simp
          | some n =>
            simp only [Option.isSome_some, if_true]
            rw [withArgIdx, hdi]

theorem onSetChecks_eq {cx : Cx V} {c : Core V} (wf : CoreWF cx c) {info : ArgsInfo} (hd : DescOk c info)
    {pls : List (Place V)} {os : Nat → List (Option Bytes)} (h : Filled os 0 c.fields pls) {sub : Bool} {total : Nat}
    (htot : (∃ f ∈ c.fields, f.exclusive = true) → total = ((List.range c.fields.length).filter (present os)).length + (if sub then 1 else 0))
    {i0 : Nat} {fs : List (FieldInfo V)} {ps : List (Place V)} (hs : Filled os i0 fs ps)
    (hfs : ∀ (n : Nat) (f : FieldInfo V), fs[n]? = some f → c.fields[i0 + n]? = some f) :
    onSetChecks info (c.fields.zip pls) total (fs.zip ps)
      = match (fs.zipIdx i0).findSome? (fun x => if present os x.2 then setError c (present os) sub x.2 x.1 else none) with
        | some e => errR e
        | none => .ok () := by
  induction fs generalizing i0 ps with
  | nil => rfl
  | cons f fs ih =>
    obtain ⟨v, ps', h1, rfl, h2⟩ := hs
    rw [List.zip_cons_cons, onSetChecks, List.zipIdx_cons, List.findSome?_cons]
    rw [onSetCheck_eq wf hd h htot (hfs 0 f rfl) h1]
    have := ih h2 (fun n g hg => by
      rw [show i0 + 1 + n = i0 + (n + 1) by omega]; exact hfs (n + 1) g (by simpa using hg))
    rw [Nat.add_zero]
    simp only
    cases (if present os i0 then setError c (present os) sub i0 f else none) with
    | some e => rfl
    | none => exact this

theorem onUnsets_eq {cx : Cx V} {c : Core V} (wf : CoreWF cx c) {info : ArgsInfo} (hd : DescOk c info)
    {os : Nat → List (Option Bytes)} {i0 : Nat} {fs : List (FieldInfo V)} {ps : List (Place V)} (hs : Filled os i0 fs ps)
    (hfs : ∀ (n : Nat) (f : FieldInfo V), fs[n]? = some f → c.fields[i0 + n]? = some f) :
    match (fs.zipIdx i0).findSome? (fun x => if present os x.2 then none else unsetFail x.1) with
    | some x => onUnsets info (fs.zip ps) = .error x
    | none => ∃ vars out, onUnsets info (fs.zip ps) = .ok vars ∧ outFields os i0 fs = some out ∧ extractAll vars = .ok out
        ∧ vars.any (fun x => x.1.kind = .value && !x.1.required && !x.2.isSet) = false := by
  induction fs generalizing i0 ps with
  | nil => exact ⟨[], [], rfl, rfl, rfl, rfl⟩
  | cons f fs ih =>
    obtain ⟨v, ps', h1, rfl, h2⟩ := hs
    have := ih h2 (fun n g hg => by
      rw [show i0 + 1 + n = i0 + (n + 1) by omega]; exact hfs (n + 1) g (by simpa using hg))
    have hf : c.fields[i0]? = some f := hfs 0 f rfl
    have hfw := wf.fields i0 f hf
    have hhead : match (if present os i0 then none else unsetFail f) with
        | some x => onUnset info f (toPlace f v) = .error x
        | none => ∃ pl o, onUnset info f (toPlace f v) = .ok pl ∧ fieldOut f (os i0) = some o ∧ f.extract pl = .ok o
          ∧ (f.kind = .value → pl.isSet = true) := by
      cases hp : present os i0 with
      | false =>
        have hno : os i0 = [] := by simpa [present] using hp
        rw [hno] at h1
        cases h1
        rw [hno]
        exact onUnset_absent hfw.toFieldPre info (by rw [hfw.idx]; exact hd i0 f hf)
      | true =>
        have hne : os i0 ≠ [] := by simpa [present] using hp
        obtain ⟨o, q1, q2⟩ := extract_given h1 hne
        have hset : (toPlace f v).isSet = true := by
          rw [isSet_toPlace h1]; simpa [present] using hp
        refine ⟨_, o, ?_, q1, q2, fun _ => hset⟩
        simp [onUnset, hset]
    rw [List.zipIdx_cons, List.findSome?_cons, List.zip_cons_cons, onUnsets]
    simp only
    cases hx : (if present os i0 then none else unsetFail f) with
    | some x =>
      rw [hx] at hhead
      simp only at hhead ⊢
      rw [hhead]
    | none =>
      rw [hx] at hhead
      simp only at hhead ⊢
      obtain ⟨pl, o, q1, q2, q3, q4⟩ := hhead
      rw [q1]
      cases hr : (fs.zipIdx (i0 + 1)).findSome? (fun x => if present os x.2 then none else unsetFail x.1) with
      | some x =>
        rw [hr] at this
        simp only at this ⊢
        rw [this]
      | none =>
        rw [hr] at this
        simp only at this ⊢
        obtain ⟨vars, out, w1, w2, w3, w4⟩ := this
        rw [w1]
        refine ⟨_, (f.ident, .field o) :: out, rfl, ?_, ?_, ?_⟩
        · simp [outFields, q2, w2]
        · simp [extractAll, q3, w3]
        · rw [List.any_cons, w4, Bool.or_false]
          simp only
          cases hset : pl.isSet with
          | true => simp
          | false =>
            have : f.kind ≠ .value := fun hk => by simp [q4 hk] at hset
            simp [this]

/-- Is the subcommand field of this kind required? -/
def subNeeded : SubField V → Bool
  | .some _ false _ => true
  | _ => false

theorem subNeeded_eq (d : ArgsDef V) : subNeeded (subOf d) = subRequired d := by
  unfold subNeeded subRequired
  cases subOf d with
  | none => rfl
  | some i o vs => cases o <;> rfl

/-- Validation and output of one struct. -/
theorem finish_eq {cx : Cx V} {c : Core V} (wf : CoreWF cx c) {info : ArgsInfo} (hd : DescOk c info)
    {pls : List (Place V)} {os : Nat → List (Option Bytes)} (h : Filled os 0 c.fields pls) (subF : SubField V)
    (flatOuts : List (Str × Out V)) (subOut : Option (Out V)) :
    match structFail c (present os) subOut.isSome (subNeeded subF) with
    | some x => finish c subF info pls flatOuts subOut = .error x
    | none => ∃ own sb, outFields os 0 c.fields = some own ∧ outSub subF subOut = some sb
        ∧ finish c subF info pls flatOuts subOut = .ok (.struct (own ++ flatOuts ++ sb)) := by
  have htotal : ∃ total, (if c.fields.any (·.exclusive) then totalArgs (c.fields.zip pls) subOut.isSome else .ok 0) = .ok total
      ∧ ((∃ f ∈ c.fields, f.exclusive = true) → total = ((List.range c.fields.length).filter (present os)).length
        + (if subOut.isSome then 1 else 0)) := by
    cases he : c.fields.any (·.exclusive) with
    | false =>
      refine ⟨0, rfl, ?_⟩
      rintro ⟨f, hf, hx⟩
      have : c.fields.any (·.exclusive) = true := List.any_eq_true.2 ⟨f, hf, hx⟩
      rw [he] at this
      simp at this
    | true =>
      simp only [if_true, totalArgs]
      have hc := count_gt_one h
      rw [← List.range_eq_range'] at hc
      rw [hc]
      have hle : ((List.range c.fields.length).filter (fun i => present os i)).length ≤ 254 := by
        refine Nat.le_trans (List.length_filter_le _ _) ?_
        rw [List.length_range]
        exact wf.len
      rw [if_pos]
      · exact ⟨_, rfl, fun _ => rfl⟩
      · split <;> omega
  obtain ⟨total, ht1, ht2⟩ := htotal
  have hset := onSetChecks_eq wf hd h (sub := subOut.isSome) ht2 h (fun n f hf => by rw [Nat.zero_add]; exact hf)
  have hun := onUnsets_eq wf hd h (fun n f hf => by rw [Nat.zero_add]; exact hf)
  unfold structFail finish
  simp only [ht1]
  rw [hset]
  cases h1 : c.fields.zipIdx.findSome? (fun x => if present os x.2 then setError c (present os) subOut.isSome x.2 x.1 else none) with
  | some e => rfl
  | none =>
    simp only [Option.map_none, Option.none_or]
    cases h2 : c.fields.zipIdx.findSome? (fun x => if present os x.2 then none else unsetFail x.1) with
    | some e =>
      rw [h2] at hun
      simp only at hun
      simp only [Option.some_or]
      rw [hun]
    | none =>
      rw [h2] at hun
      simp only at hun
      obtain ⟨vars, own, w1, w2, w3, w4⟩ := hun
      simp only [Option.none_or]
      rw [w1]
      simp only [w4, w3, w2]
      cases subF with
      | none => exact ⟨own, [], rfl, rfl, rfl⟩
      | some ident o vs =>
        cases o with
        | true => exact ⟨own, _, rfl, rfl, rfl⟩
        | false =>
          cases subOut with
          | none => rfl
          | some out => exact ⟨own, _, rfl, rfl, rfl⟩

end Palc
