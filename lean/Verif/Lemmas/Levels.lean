import Verif.WF
import Verif.Lemmas.Search
import Verif.Lemmas.Tables
/-! Entered commands as a list of levels, their frames, and the search for a named argument. -/

namespace Palc

open Spec

variable {V : Type}

mutual
/-- Infos of the structs making up a command, in the order of `structs`. -/
def structInfos : ArgsDef V → List ArgsInfo
  | .mk core flats sub => (ArgsDef.mk core flats sub).info :: flatStructInfos flats
def flatStructInfos : Flats V → List ArgsInfo
  | .nil => []
  | .cons _ d rest => structInfos d ++ flatStructInfos rest
end

/-- The flattened fields of a definition. -/
def flatsOf : ArgsDef V → Flats V
  | .mk _ flats _ => flats

/-- One entered command: the variant identifier and command name, the definition, the places of its own
struct and of the flattened ones, the position counter. -/
structure Level (V : Type) where
  ident : Str
  name : Str
  d : ArgsDef V
  main : List (Place V)
  flats : List (List (Place V))
  pos : Nat

namespace Level

def cur (l : Level V) : ArgsFrame V := { fields := l.main, info := l.d.info, nextPositional := l.pos }

def flatFrames (l : Level V) : List (ArgsFrame V) :=
  (flatStructInfos (flatsOf l.d)).zipWith (fun info pls => { fields := pls, info, nextPositional := 0 }) l.flats

def frames (l : Level V) : List (ArgsFrame V) := l.cur :: l.flatFrames

def places (l : Level V) : List (List (Place V)) := l.main :: l.flats

def get (l : Level V) (s i : Nat) : Option (Place V) :=
  match l.places[s]? with
  | some pls => pls[i]?
  | none => none

def set (l : Level V) (s i : Nat) (pl : Place V) : Level V :=
  match s with
  | 0 => { l with main := l.main.set i pl }
  | k + 1 => { l with flats := l.flats.modify k (·.set i pl) }

def entry (l : Level V) : Entry V := (⟨l.ident, l.name⟩, l.d)

end Level

/-- The chain of frames of some levels, innermost first. -/
def chainOf : List (Level V) → Chain V
  | [] => []
  | l :: outer => l.frames.map .args ++ .command l.name :: chainOf outer

/-- The parents of the innermost frame. -/
def parentsOf : List (Level V) → Chain V
  | [] => []
  | l :: outer => l.flatFrames.map .args ++ .command l.name :: chainOf outer

theorem chainOf_cons (l : Level V) (outer : List (Level V)) :
    chainOf (l :: outer) = .args l.cur :: parentsOf (l :: outer) := rfl

/-- The commands entered. -/
def stackOf (ls : List (Level V)) : List (Entry V) := ls.map Level.entry

/-- A place of the right kind for a field. -/
def Fits (f : FieldInfo V) : Place V → Prop
  | .flag _ => f.kind = .bool
  | .set _ p => (f.kind = .value ∨ f.kind = .option) ∧ p = f.parser
  | .setOpt _ p => f.kind = .optionOption ∧ p = f.parser
  | .vec _ p => (f.kind = .vec ∨ f.kind = .optionVec) ∧ f.valueDelimiter = none ∧ p = f.parser
  | .vecDelim _ d p => (f.kind = .vec ∨ f.kind = .optionVec) ∧ f.valueDelimiter = some d ∧ p = f.parser

/-- The places of a struct. -/
def FitsAll (fs : List (FieldInfo V)) (pls : List (Place V)) : Prop :=
  pls.length = fs.length ∧ ∀ (i : Nat) (f : FieldInfo V) (pl : Place V), fs[i]? = some f → pls[i]? = some pl → Fits f pl

/-- Number of positional fields that are not `last`. -/
def nonLast (d : ArgsDef V) : Nat := ((coreOf d).positional.filter (fun f => !f.src.last)).length

structure Level.Ok (cx : Cx V) (l : Level V) : Prop where
  wf : WFArgs cx l.d
  len : l.places.length = (structs l.d).length
  fits : ∀ (s : Nat) (c : Core V) (pls : List (Place V)), (structs l.d)[s]? = some c → l.places[s]? = some pls → FitsAll c.fields pls
  pos : l.pos ≤ (coreOf l.d).positional.length

theorem fits_initializer {cx : Cx V} {f : FieldInfo V} (_h : FieldPre cx f) : Fits f f.initializer := by
  unfold FieldInfo.initializer
  cases hk : f.kind <;> simp only [Fits, hk, and_self, or_true, true_or]
  all_goals
    cases hd : f.valueDelimiter <;> exact ⟨by simp, rfl, rfl⟩

theorem fits_parseFrom {f : FieldInfo V} {pl pl' : Place V} {v : Option Bytes} (h : Fits f pl)
    (hp : pl.parseFrom v = .ok pl') : Fits f pl' := by
  cases pl with
  | flag s =>
    cases v with
    | some b => simp [Place.parseFrom] at hp
    | none =>
      simp only [Place.parseFrom] at hp
      split at hp
      · simp at hp
      · cases hp; exact h
  | vec s p =>
    simp only [Place.parseFrom] at hp
    split at hp
    · cases hp; exact h
    · simp at hp
  | vecDelim s d p =>
    simp only [Place.parseFrom] at hp
    split at hp
    · cases hp; exact h
    · simp at hp
  | set s p =>
    simp only [Place.parseFrom] at hp
    split at hp
    · simp at hp
    · split at hp
      · cases hp; exact h
      · simp at hp
  | setOpt s p =>
    simp only [Place.parseFrom] at hp
    split at hp
    · simp at hp
    · split at hp
      · split at hp
        · cases hp; exact h
        · simp at hp
      · cases hp; exact h

/-- Does the field have this encoded name? -/
def hasName (name : Bytes) (f : FieldInfo V) : Bool := f.encNames.any (fun s => decide (enc s = name))

/-- The fields of structs numbered from `s0` on. -/
def fieldsFrom (level s0 : Nat) (cs : List (Core V)) : List (Addr × FieldInfo V) :=
  (cs.zipIdx s0).flatMap (fun (c, s) => c.fields.zipIdx.map (fun (f, i) => (⟨level, s, i⟩, f)))

theorem fieldsAt_eq (level : Nat) (d : ArgsDef V) : fieldsAt level d = fieldsFrom level 0 (structs d) := rfl

/-- What `search_named` looks for. -/
def wanted (glob : Bool) (name : Bytes) (x : Addr × FieldInfo V) : Bool :=
  (!glob || x.2.src.global) && hasName name x.2

theorem named_mem {c : Core V} {cx : Cx V} (wf : CoreWF cx c) (f : FieldInfo V) (hf : f ∈ c.fields)
    (hn : f.encNames ≠ []) : f ∈ c.named := by
  unfold Core.named
  have : f ∈ c.fields.take c.namedCnt ++ c.fields.drop c.namedCnt := by rw [List.take_append_drop]; exact hf
  rcases List.mem_append.1 this with h | h
  · exact h
  · exfalso
    obtain ⟨ps, va, la, hl, h1, h2, h3⟩ := wf.layout
    have ho : isOption f = false := by
      rw [hl] at h
      simp only [List.mem_append, Option.mem_toList] at h
      rcases h with (h | h) | h
      · exact (h1 f h).1
      · exact (h2 f h).1
      · exact (h3 f h).1
    obtain ⟨i, hi⟩ := List.getElem?_of_mem hf
    have := (wf.fields i f hi).names
    rw [ho] at this
    exact hn this

theorem nodup_flatMap_unique {α β : Type} {l : List α} {g : α → List β} (h : (l.flatMap g).Nodup)
    {i j : Nat} {x y : α} (hx : l[i]? = some x) (hy : l[j]? = some y) {b : β} (hb : b ∈ g x) (hb' : b ∈ g y) :
    i = j := by
  induction l generalizing i j with
  | nil => simp at hx
  | cons z zs ih =>
    rw [List.flatMap_cons, List.nodup_append] at h
    obtain ⟨_, h2, h3⟩ := h
    cases i with
    | zero =>
      cases j with
      | zero => rfl
      | succ j =>
        simp at hx hy
        subst hx
        exact absurd rfl (h3 b hb b (List.mem_flatMap.2 ⟨y, List.mem_of_getElem? hy, hb'⟩))
    | succ i =>
      cases j with
      | zero =>
        simp at hx hy
        subst hy
        exact absurd rfl (h3 b hb' b (List.mem_flatMap.2 ⟨x, List.mem_of_getElem? hx, hb⟩))
      | succ j =>
        simp at hx hy
        rw [ih h2 hx hy]

/-- Lookup of a name in the table of one struct. -/
theorem getNamed_spec {cx : Cx V} {c : Core V} (wf : CoreWF cx c) {info : ArgsInfo}
    (hi : info.namedAttrs = c.namedMap) (name : Bytes) :
    (∃ (i : Nat) (f : FieldInfo V), c.fields[i]? = some f ∧ hasName name f = true ∧ info.getNamed name = some f.attrs
      ∧ ∀ (j : Nat) (g : FieldInfo V), c.fields[j]? = some g → hasName name g = true → j = i)
    ∨ (info.getNamed name = none ∧ ∀ g ∈ c.fields, hasName name g = false) := by
  have hs := sortByKey_sorted (fun e : Str × ArgAttrs => enc e.1)
    (c.named.flatMap (fun f => f.encNames.map (fun s => (s, f.attrs))))
  have hmem : ∀ e, e ∈ c.namedMap ↔ ∃ f ∈ c.named, e.1 ∈ f.encNames ∧ e.2 = f.attrs := by
    intro e
    unfold Core.namedMap
    rw [(sortByKey_perm _ _).mem_iff, List.mem_flatMap]
    constructor
    · rintro ⟨f, hf, he⟩
      rw [List.mem_map] at he
      obtain ⟨s, hs, rfl⟩ := he
      exact ⟨f, hf, hs, rfl⟩
    · rintro ⟨f, hf, he, he2⟩
      refine ⟨f, hf, List.mem_map.2 ⟨e.1, he, ?_⟩⟩
      rw [← he2]
  have hlook : info.getNamed name = (match binarySearch (c.namedMap.map (fun e : Str × ArgAttrs => enc e.1)) name with
        | some i => c.namedMap[i]?
        | none => none).map (fun e : Str × ArgAttrs => e.2) := by
    unfold ArgsInfo.getNamed
    rw [hi]
    cases hb : binarySearch (c.namedMap.map (fun e : Str × ArgAttrs => enc e.1)) name <;> rfl
  have hsub : ∀ f ∈ c.named, f ∈ c.fields := fun f hf => List.mem_of_mem_take hf
  rcases table_lookup c.namedMap hs name with ⟨e, he, hek, hr⟩ | ⟨hno, hr⟩
  · left
    rw [hmem] at he
    obtain ⟨f, hf, h1, h2⟩ := he
    obtain ⟨i, hi'⟩ := List.getElem?_of_mem (hsub f hf)
    refine ⟨i, f, hi', ?_, ?_, ?_⟩
    · unfold hasName; rw [List.any_eq_true]; exact ⟨e.1, h1, by simpa using hek⟩
    · rw [hlook, ← h2]
      exact congrArg (Option.map (fun e : Str × ArgAttrs => e.2)) hr
    · intro j g hg hgn
      unfold hasName at hgn
      rw [List.any_eq_true] at hgn
      obtain ⟨s, hs1, hs2⟩ := hgn
      have : s = e.1 := enc_injective (by rw [hek]; simpa using hs2)
      subst this
      exact nodup_flatMap_unique wf.nodup hg hi' hs1 h1
  · right
    refine ⟨?_, ?_⟩
    · rw [hlook, hr]; rfl
    · intro g hg
      cases hn : hasName name g with
      | false => rfl
      | true =>
        exfalso
        unfold hasName at hn
        rw [List.any_eq_true] at hn
        obtain ⟨s, hs1, hs2⟩ := hn
        have hgn : g ∈ c.named := named_mem wf g hg (by rintro h0; rw [h0] at hs1; simp at hs1)
        exact hno (s, g.attrs) ((hmem _).2 ⟨g, hgn, hs1, rfl⟩) (by simpa using hs2)


/-- A frame of a struct. -/
structure FrameOk (c : Core V) (fr : ArgsFrame V) : Prop where
  names : fr.info.namedAttrs = c.namedMap
  descs : fr.info.descriptions = c.descs
  len : fr.fields.length = c.fields.length

theorem find_zipIdx_unique {level s : Nat} {fs : List (FieldInfo V)} {p : Addr × FieldInfo V → Bool} {i : Nat}
    {f : FieldInfo V} (hi : fs[i]? = some f) (hp : p (⟨level, s, i⟩, f) = true)
    (hu : ∀ (j : Nat) (g : FieldInfo V), fs[j]? = some g → p (⟨level, s, j⟩, g) = true → j = i) :
    (fs.zipIdx.map (fun (x : FieldInfo V × Nat) => ((⟨level, s, x.2⟩ : Addr), x.1))).find? p
      = some (⟨level, s, i⟩, f) := by
  cases h : (fs.zipIdx.map (fun (x : FieldInfo V × Nat) => ((⟨level, s, x.2⟩ : Addr), x.1))).find? p with
  | none =>
    rw [List.find?_eq_none] at h
    exfalso
    apply h (⟨level, s, i⟩, f) _ hp
    rw [List.mem_map]
    exact ⟨(f, i), List.mem_zipIdx_iff_getElem?.2 hi, rfl⟩
  | some x =>
    have h1 := List.find?_some h
    have h2 := List.mem_of_find?_eq_some h
    rw [List.mem_map] at h2
    obtain ⟨⟨g, j⟩, hg, rfl⟩ := h2
    rw [List.mem_zipIdx_iff_getElem?] at hg
    have := hu j g hg h1
    subst this
    rw [hi] at hg
    cases hg
    rfl

theorem find_zipIdx_none {level s : Nat} {fs : List (FieldInfo V)} {p : Addr × FieldInfo V → Bool}
    (hu : ∀ (j : Nat) (g : FieldInfo V), fs[j]? = some g → p (⟨level, s, j⟩, g) = false) :
    (fs.zipIdx.map (fun (x : FieldInfo V × Nat) => ((⟨level, s, x.2⟩ : Addr), x.1))).find? p = none := by
  rw [List.find?_eq_none]
  intro x hx
  rw [List.mem_map] at hx
  obtain ⟨⟨g, j⟩, hg, rfl⟩ := hx
  rw [List.mem_zipIdx_iff_getElem?] at hg
  simp [hu j g hg]

/-- Shift the depth of a search result. -/
def shiftHit (n : Nat) : R (Option (Hit V)) → R (Option (Hit V))
  | .ok (some h) => .ok (some { h with depth := h.depth + n })
  | .ok none => .ok none
  | .error e => .error e

theorem shiftHit_add (m n : Nat) (r : R (Option (Hit V))) : shiftHit m (shiftHit n r) = shiftHit (n + m) r := by
  cases r with
  | error e => rfl
  | ok o => cases o with
    | none => rfl
    | some h => simp [shiftHit, Nat.add_assoc]

theorem searchNamed_cons (f : ArgsFrame V) (parent : Chain V) (name : Bytes) (glob : Bool) :
    searchNamed (.args f :: parent) name glob =
      match f.info.getNamed name with
      | some attrs =>
        if !glob || attrs.contains ArgAttrs.GLOBAL then
          match f.fields[attrs.getIndex]? with
          | some place => .ok (some { depth := 0, place, info := f.info, attrs })
          | none => panicR
        else shiftHit 1 (searchNamed parent name glob)
      | none => shiftHit 1 (searchNamed parent name glob) := by
  rw [searchNamed]
  rfl

theorem searchNamed_command (n : Str) (parent : Chain V) (name : Bytes) (glob : Bool) :
    searchNamed (.command n :: parent) name glob = shiftHit 1 (searchNamed parent name true) := by
  rw [searchNamed]
  rfl

/-- Search through the frames of consecutive structs. -/
theorem search_block {cx : Cx V} (cs : List (Core V)) (frs : List (ArgsFrame V)) (s0 level : Nat)
    (hlen : frs.length = cs.length)
    (hok : ∀ (k : Nat) (c : Core V) (fr : ArgsFrame V), cs[k]? = some c → frs[k]? = some fr →
      CoreWF cx c ∧ FrameOk c fr)
    (rest : Chain V) (name : Bytes) (glob : Bool) :
    match (fieldsFrom level s0 cs).find? (wanted glob name) with
    | some (a, f) => ∃ fr pl, a.level = level ∧ s0 ≤ a.struct ∧ frs[a.struct - s0]? = some fr
        ∧ (∃ c, cs[a.struct - s0]? = some c ∧ c.fields[a.field]? = some f)
        ∧ f.attrs.getIndex = a.field ∧ fr.fields[a.field]? = some pl
        ∧ searchNamed (frs.map .args ++ rest) name glob
          = .ok (some { depth := a.struct - s0, place := pl, info := fr.info, attrs := f.attrs })
    | none => searchNamed (frs.map .args ++ rest) name glob
        = shiftHit cs.length (searchNamed rest name glob) := by
  induction cs generalizing frs s0 with
  | nil =>
    have : frs = [] := List.eq_nil_of_length_eq_zero hlen
    subst this
    simp only [fieldsFrom, List.zipIdx_nil, List.flatMap_nil, List.find?_nil, List.map_nil, List.nil_append,
      List.length_nil]
    cases searchNamed rest name glob with
    | error e => rfl
    | ok o => cases o <;> rfl
  | cons c cs ih =>
    cases frs with
    | nil => simp at hlen
    | cons fr frs =>
      have hlen' : frs.length = cs.length := by simpa using hlen
      obtain ⟨hwf, hfr⟩ := hok 0 c fr (by simp) (by simp)
      have ih := ih frs (s0 + 1) hlen' (fun k c fr h1 h2 => hok (k + 1) c fr (by simpa using h1) (by simpa using h2))
      have hF : fieldsFrom level s0 (c :: cs) = c.fields.zipIdx.map (fun (x : FieldInfo V × Nat) => ((⟨level, s0, x.2⟩ : Addr), x.1))
          ++ fieldsFrom level (s0 + 1) cs := by
        simp [fieldsFrom, List.zipIdx_cons]
      rw [hF, List.find?_append, List.map_cons, List.cons_append, searchNamed_cons]
      -- the frames after this one
      have tail : (match (fieldsFrom level (s0 + 1) cs).find? (wanted glob name) with
          | some (a, f) => ∃ fr' pl, a.level = level ∧ s0 ≤ a.struct ∧ (fr :: frs)[a.struct - s0]? = some fr'
              ∧ (∃ c', (c :: cs)[a.struct - s0]? = some c' ∧ c'.fields[a.field]? = some f)
              ∧ f.attrs.getIndex = a.field ∧ fr'.fields[a.field]? = some pl
              ∧ shiftHit 1 (searchNamed (frs.map .args ++ rest) name glob)
                = .ok (some { depth := a.struct - s0, place := pl, info := fr'.info, attrs := f.attrs })
          | none => shiftHit 1 (searchNamed (frs.map .args ++ rest) name glob)
              = shiftHit (cs.length + 1) (searchNamed rest name glob)) := by
        revert ih
        cases hfind : (fieldsFrom level (s0 + 1) cs).find? (wanted glob name) with
        | none =>
          intro ih
          simp only at ih ⊢
          rw [ih, shiftHit_add]
        | some x =>
          obtain ⟨a, f⟩ := x
          rintro ⟨fr', pl, h1, h2, h3, ⟨c', h4, h5⟩, h6, h7, h8⟩
          have e : a.struct - s0 = (a.struct - (s0 + 1)) + 1 := by omega
          refine ⟨fr', pl, h1, by omega, ?_, ⟨c', ?_, h5⟩, h6, h7, ?_⟩
          · rw [e]; simpa using h3
          · rw [e]; simpa using h4
          · rw [h8, e]; rfl
      rcases getNamed_spec hwf hfr.names name with ⟨i, f, hi, hn, hg, hu⟩ | ⟨hg, hno⟩
      · have hfw := hwf.fields i f hi
        rw [hg]
        simp only
        rw [hfw.gl]
        have hii : i < c.fields.length := (List.getElem?_eq_some_iff.1 hi).1
        by_cases hglob : (!glob || f.src.global) = true
        · rw [if_pos hglob, hfw.idx]
          have hu' : ∀ (j : Nat) (g : FieldInfo V), c.fields[j]? = some g →
              wanted glob name (⟨level, s0, j⟩, g) = true → j = i := by
            intro j g hj hw
            unfold wanted at hw
            rw [Bool.and_eq_true] at hw
            exact hu j g hj hw.2
          rw [find_zipIdx_unique hi (by unfold wanted; rw [Bool.and_eq_true]; exact ⟨hglob, hn⟩) hu']
          simp only [Option.some_or]
          have hpl : i < fr.fields.length := by rw [hfr.len]; exact hii
          refine ⟨fr, fr.fields[i], by simp, Nat.le_refl _, by simp, ⟨c, by simp, hi⟩, hfw.idx, by simp [hpl], ?_⟩
          rw [List.getElem?_eq_getElem hpl]
          simp
        · rw [if_neg hglob]
          have hnone : (c.fields.zipIdx.map (fun (x : FieldInfo V × Nat) => ((⟨level, s0, x.2⟩ : Addr), x.1))).find?
              (wanted glob name) = none := by
            apply find_zipIdx_none
            intro j g hj
            cases hw : wanted glob name (⟨level, s0, j⟩, g) with
            | false => rfl
            | true =>
              exfalso
              unfold wanted at hw
              rw [Bool.and_eq_true] at hw
              have := hu j g hj hw.2
              subst this
              rw [hi] at hj
              cases hj
              exact hglob hw.1
          rw [hnone, Option.none_or]
          exact tail
      · rw [hg]
        simp only
        have hnone : (c.fields.zipIdx.map (fun (x : FieldInfo V × Nat) => ((⟨level, s0, x.2⟩ : Addr), x.1))).find?
            (wanted glob name) = none := by
          apply find_zipIdx_none
          intro j g hj
          unfold wanted
          simp only [hno g (List.mem_of_getElem? hj), Bool.and_false]
        rw [hnone, Option.none_or]
        exact tail


mutual
theorem WFArgs.structs {cx : Cx V} : (d : ArgsDef V) → WFArgs cx d → ∀ c ∈ Spec.structs d, CoreWF cx c
  | .mk core flats sub, h, c, hc => by
    rw [WFArgs] at h
    rw [Spec.structs] at hc
    rcases List.mem_cons.1 hc with rfl | hc
    · exact h.1
    · exact WFFlats.structs flats h.2.1 c hc
theorem WFFlats.structs {cx : Cx V} : (fl : Flats V) → WFFlats cx fl → ∀ c ∈ flatStructs fl, CoreWF cx c
  | .nil, _, c, hc => by rw [flatStructs] at hc; simp at hc
  | .cons _ d rest, h, c, hc => by
    rw [WFFlats] at h
    rw [flatStructs] at hc
    rcases List.mem_append.1 hc with hc | hc
    · exact WFArgs.structs d h.1 c hc
    · exact WFFlats.structs rest h.2.2.2 c hc
end

/-- An info of a struct. -/
def InfoOk (c : Core V) (info : ArgsInfo) : Prop :=
  info.namedAttrs = c.namedMap ∧ info.descriptions = c.descs

mutual
theorem structInfos_ok : (d : ArgsDef V) → (structInfos d).length = (structs d).length ∧
    ∀ (k : Nat) (c : Core V) (info : ArgsInfo), (structs d)[k]? = some c → (structInfos d)[k]? = some info →
      InfoOk c info
  | .mk core flats sub => by
    obtain ⟨h1, h2⟩ := flatStructInfos_ok flats
    rw [structInfos, structs]
    refine ⟨by simp [h1], ?_⟩
    intro k c info hc hi
    cases k with
    | zero =>
      simp only [List.getElem?_cons_zero, Option.some.injEq] at hc hi
      subst hc hi
      rw [ArgsDef.info]
      exact ⟨rfl, rfl⟩
    | succ k => exact h2 k c info (by simpa using hc) (by simpa using hi)
theorem flatStructInfos_ok : (fl : Flats V) → (flatStructInfos fl).length = (flatStructs fl).length ∧
    ∀ (k : Nat) (c : Core V) (info : ArgsInfo), (flatStructs fl)[k]? = some c →
      (flatStructInfos fl)[k]? = some info → InfoOk c info
  | .nil => by
    rw [flatStructInfos, flatStructs]
    simp
  | .cons _ d rest => by
    obtain ⟨h1, h2⟩ := structInfos_ok d
    obtain ⟨h3, h4⟩ := flatStructInfos_ok rest
    rw [flatStructInfos, flatStructs]
    refine ⟨by simp [h1, h3], ?_⟩
    intro k c info hc hi
    by_cases hk : k < (structs d).length
    · rw [List.getElem?_append_left hk] at hc
      rw [List.getElem?_append_left (by omega)] at hi
      exact h2 k c info hc hi
    · rw [List.getElem?_append_right (by omega)] at hc
      rw [List.getElem?_append_right (by omega), h1] at hi
      exact h4 _ c info hc hi
end

theorem structs_eq (d : ArgsDef V) : structs d = coreOf d :: flatStructs (flatsOf d) := by
  obtain ⟨core, flats, sub⟩ := d
  rw [structs]; rfl

theorem structInfos_eq (d : ArgsDef V) : structInfos d = d.info :: flatStructInfos (flatsOf d) := by
  obtain ⟨core, flats, sub⟩ := d
  rw [structInfos]; rfl

theorem frames_eq (l : Level V) : l.frames = { fields := l.main, info := l.d.info, nextPositional := l.pos }
    :: (flatStructInfos (flatsOf l.d)).zipWith (fun info pls => { fields := pls, info, nextPositional := 0 }) l.flats := rfl

theorem Level.Ok.flats_len {cx : Cx V} {l : Level V} (h : l.Ok cx) :
    l.flats.length = (flatStructs (flatsOf l.d)).length := by
  have := h.len
  rw [structs_eq] at this
  simpa [Level.places] using this

theorem Level.Ok.frames_len {cx : Cx V} {l : Level V} (h : l.Ok cx) :
    l.frames.length = (structs l.d).length := by
  have h1 := (flatStructInfos_ok (flatsOf l.d)).1
  rw [structs_eq, frames_eq]
  simp [h1, h.flats_len]

/-- Frames, infos and places correspond. -/
theorem Level.frame_get {cx : Cx V} {l : Level V} (h : l.Ok cx) {k : Nat} {c : Core V} {fr : ArgsFrame V}
    (hc : (structs l.d)[k]? = some c) (hf : l.frames[k]? = some fr) :
    CoreWF cx c ∧ FrameOk c fr ∧ l.places[k]? = some fr.fields := by
  have hwf := WFArgs.structs l.d h.wf c (List.mem_of_getElem? hc)
  have hpl : l.places[k]? = some fr.fields := by
    rw [frames_eq] at hf
    cases k with
    | zero =>
      simp only [List.getElem?_cons_zero, Option.some.injEq] at hf
      rw [← hf]; rfl
    | succ k =>
      rw [List.getElem?_cons_succ, List.getElem?_zipWith_eq_some] at hf
      obtain ⟨x, y, hx, hy, rfl⟩ := hf
      simpa [Level.places] using hy
  have hinfo : (structInfos l.d)[k]? = some fr.info := by
    rw [frames_eq] at hf
    rw [structInfos_eq]
    cases k with
    | zero =>
      simp only [List.getElem?_cons_zero, Option.some.injEq] at hf
      rw [← hf]; rfl
    | succ k =>
      rw [List.getElem?_cons_succ, List.getElem?_zipWith_eq_some] at hf
      obtain ⟨x, y, hx, hy, rfl⟩ := hf
      simpa using hx
  have hi := (structInfos_ok l.d).2 k c fr.info hc hinfo
  exact ⟨hwf, ⟨hi.1, hi.2, (h.fits k c _ hc hpl).1⟩, hpl⟩

/-- The level of an address. -/
def levelAt : List (Level V) → Nat → Option (Level V)
  | [], _ => none
  | l :: outer, n => if n = outer.length then some l else levelAt outer n

/-- Read the place at an address. -/
def getPlace (ls : List (Level V)) (a : Addr) : Option (Place V) :=
  match levelAt ls a.level with
  | some l => l.get a.struct a.field
  | none => none

/-- Write the place at an address. -/
def setPlace : List (Level V) → Addr → Place V → List (Level V)
  | [], _, _ => []
  | l :: outer, a, pl =>
    if a.level = outer.length then l.set a.struct a.field pl :: outer else l :: setPlace outer a pl

/-- Position in the chain of the frame of an address. -/
def depthOf : List (Level V) → Addr → Nat
  | [], _ => 0
  | l :: outer, a =>
    if a.level = outer.length then a.struct else l.frames.length + 1 + depthOf outer a

theorem fieldsFrom_mem {level s0 : Nat} {cs : List (Core V)} {a : Addr} {f : FieldInfo V}
    (h : (a, f) ∈ fieldsFrom level s0 cs) :
    a.level = level ∧ ∃ c, cs[a.struct - s0]? = some c ∧ c.fields[a.field]? = some f := by
  unfold fieldsFrom at h
  rw [List.mem_flatMap] at h
  obtain ⟨⟨c, s⟩, hc, hx⟩ := h
  rw [List.mem_map] at hx
  obtain ⟨⟨g, i⟩, hg, he⟩ := hx
  rw [List.mem_zipIdx_iff_getElem?] at hg
  cases he
  refine ⟨rfl, c, ?_, hg⟩
  rw [List.mem_zipIdx_iff_le_and_getElem?_sub] at hc
  exact hc.2

theorem globals_level {st : List (Entry V)} {a : Addr} {f : FieldInfo V} (h : (a, f) ∈ globals st) :
    a.level < st.length := by
  induction st with
  | nil => simp [globals] at h
  | cons e outer ih =>
    obtain ⟨i, d⟩ := e
    simp only [globals, List.mem_append, List.mem_filter] at h
    rcases h with h | h
    · have := (fieldsFrom_mem h.1).1
      simp [this]
    · have := ih h
      simp; omega

theorem stackOf_length (ls : List (Level V)) : (stackOf ls).length = ls.length := by simp [stackOf]

/-- The result of a search: the field, and the place at its address. -/
structure HitOk (cx : Cx V) (ls : List (Level V)) (a : Addr) (f : FieldInfo V) (hit : Hit V) : Prop where
  field : ∃ l c, levelAt ls a.level = some l ∧ (structs l.d)[a.struct]? = some c ∧ c.fields[a.field]? = some f
    ∧ hit.info.descriptions = c.descs ∧ CoreWF cx c
  place : getPlace ls a = some hit.place
  attrs : hit.attrs = f.attrs
  depth : hit.depth = depthOf ls a
  idx : f.attrs.getIndex = a.field

theorem search_level {cx : Cx V} {l : Level V} (h : l.Ok cx) (outer : List (Level V)) (name : Bytes) (glob : Bool)
    (rest : Chain V) :
    match (fieldsAt outer.length l.d).find? (wanted glob name) with
    | some (a, f) => ∃ hit, searchNamed (l.frames.map .args ++ rest) name glob = .ok (some hit)
        ∧ HitOk cx (l :: outer) a f hit
    | none => searchNamed (l.frames.map .args ++ rest) name glob
        = shiftHit l.frames.length (searchNamed rest name glob) := by
  have hb := search_block (cx := cx) (structs l.d) l.frames 0 outer.length h.frames_len
    (fun k c fr h1 h2 => ⟨(Level.frame_get h h1 h2).1, (Level.frame_get h h1 h2).2.1⟩) rest name glob
  rw [← fieldsAt_eq] at hb
  revert hb
  cases hf : (fieldsAt outer.length l.d).find? (wanted glob name) with
  | none => intro hb; rw [h.frames_len]; exact hb
  | some x =>
    obtain ⟨a, f⟩ := x
    rintro ⟨fr, pl, h1, _, h3, ⟨c, h4, h5⟩, h6, h7, h8⟩
    simp only [Nat.sub_zero] at h3 h4 h8
    refine ⟨_, h8, ?_⟩
    obtain ⟨g1, g2, g3⟩ := Level.frame_get h h4 h3
    have hl : levelAt (l :: outer) a.level = some l := by simp [levelAt, h1]
    refine { field := ⟨l, c, hl, h4, h5, g2.descs, g1⟩, place := ?_, attrs := rfl, depth := ?_, idx := h6 }
    · unfold getPlace
      rw [hl]
      simp only [Level.get, g3]
      exact h7
    · simp [depthOf, h1]

theorem HitOk.push {cx : Cx V} {ls : List (Level V)} {a : Addr} {f : FieldInfo V} {hit : Hit V}
    (h : HitOk cx ls a f hit) (l : Level V) (ha : a.level < ls.length) :
    HitOk cx (l :: ls) a f { hit with depth := hit.depth + (l.frames.length + 1) } := by
  have hne : a.level ≠ ls.length := by omega
  obtain ⟨l', c, h1, h2⟩ := h.field
  refine { field := ⟨l', c, ?_, h2⟩, place := ?_, attrs := h.attrs, depth := ?_, idx := h.idx }
  · simp [levelAt, hne, h1]
  · have := h.place
    unfold getPlace at this ⊢
    simpa [levelAt, hne] using this
  · simp [depthOf, hne, h.depth, Nat.add_comm]

theorem search_globals {cx : Cx V} (ls : List (Level V)) (h : ∀ l ∈ ls, l.Ok cx) (name : Bytes) :
    match (globals (stackOf ls)).find? (fun x => hasName name x.2) with
    | some (a, f) => ∃ hit, searchNamed (chainOf ls) name true = .ok (some hit) ∧ HitOk cx ls a f hit
    | none => searchNamed (chainOf ls) name true = .ok none := by
  induction ls with
  | nil => simp [stackOf, globals, chainOf, searchNamed]
  | cons l outer ih =>
    have ih := ih (fun l hl => h l (List.mem_cons_of_mem _ hl))
    have hl := search_level (h l (List.mem_cons_self ..)) outer name true (.command l.name :: chainOf outer)
    have e : (globals (stackOf (l :: outer))).find? (fun x => hasName name x.2)
        = ((fieldsAt outer.length l.d).find? (wanted true name)).or
          ((globals (stackOf outer)).find? (fun x => hasName name x.2)) := by
      simp only [stackOf, List.map_cons, Level.entry, globals, List.find?_append, List.find?_filter]
      have : (List.map Level.entry outer).length = outer.length := by simp
      rw [List.length_map]
      congr 1
      congr 1
      funext x
      simp [wanted]
    rw [e, chainOf]
    revert hl
    cases hf : (fieldsAt outer.length l.d).find? (wanted true name) with
    | some x => intro hl; exact hl
    | none =>
      intro hl
      simp only at hl
      rw [hl, Option.none_or, searchNamed_command, shiftHit_add]
      revert ih
      cases hg : (globals (stackOf outer)).find? (fun x => hasName name x.2) with
      | none => intro ih; simp only at ih ⊢; rw [ih]; rfl
      | some x =>
        obtain ⟨a, f⟩ := x
        rintro ⟨hit, h1, h2⟩
        have ha := globals_level (List.mem_of_find?_eq_some hg)
        rw [stackOf_length] at ha
        refine ⟨_, ?_, h2.push l ha⟩
        rw [h1]
        simp only [shiftHit]
        rw [Nat.add_comm 1]

/-- `search_named` finds the first visible field with that name. -/
theorem search_chain {cx : Cx V} (ls : List (Level V)) (h : ∀ l ∈ ls, l.Ok cx) (name : Bytes) :
    match (visible (stackOf ls)).find? (fun x => hasName name x.2) with
    | some (a, f) => ∃ hit, searchNamed (chainOf ls) name false = .ok (some hit) ∧ HitOk cx ls a f hit
    | none => searchNamed (chainOf ls) name false = .ok none := by
  cases ls with
  | nil => simp [stackOf, visible, chainOf, searchNamed]
  | cons l outer =>
    have ih := search_globals outer (fun l hl => h l (List.mem_cons_of_mem _ hl)) name
    have hl := search_level (h l (List.mem_cons_self ..)) outer name false (.command l.name :: chainOf outer)
    have e : (visible (stackOf (l :: outer))).find? (fun x => hasName name x.2)
        = ((fieldsAt outer.length l.d).find? (wanted false name)).or
          ((globals (stackOf outer)).find? (fun x => hasName name x.2)) := by
      simp only [stackOf, List.map_cons, Level.entry, visible, List.find?_append]
      rw [List.length_map]
      congr 2
      <;> simp [wanted]
    rw [e, chainOf]
    revert hl
    cases hf : (fieldsAt outer.length l.d).find? (wanted false name) with
    | some x => intro hl; exact hl
    | none =>
      intro hl
      simp only at hl
      rw [hl, Option.none_or, searchNamed_command, shiftHit_add]
      revert ih
      cases hg : (globals (stackOf outer)).find? (fun x => hasName name x.2) with
      | none => intro ih; simp only at ih ⊢; rw [ih]; rfl
      | some x =>
        obtain ⟨a, f⟩ := x
        rintro ⟨hit, h1, h2⟩
        have ha := globals_level (List.mem_of_find?_eq_some hg)
        rw [stackOf_length] at ha
        refine ⟨_, ?_, h2.push l ha⟩
        rw [h1]
        simp only [shiftHit]
        rw [Nat.add_comm 1]

end Palc
