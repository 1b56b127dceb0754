import Verif.AnyStd
import Verif.Lemmas.Levels
import Verif.Lemmas.DeriveWF
/-! Any standard library that keeps its promises gives the same results. -/

namespace Palc

open Spec

variable {V : Type} {α β : Type} {cx : Cx V} {std : StdLib}

mutual
/-- The variants of every subcommand enum have different names. -/
def DistinctSubs : ArgsDef V → Prop
  | .mk _ flats sub => DistinctFlats flats ∧ DistinctSub sub
/-- The same for flattened structs. -/
def DistinctFlats : Flats V → Prop
  | .nil => True
  | .cons _ d rest => DistinctSubs d ∧ DistinctFlats rest
/-- The same for a subcommand field. -/
def DistinctSub : SubField V → Prop
  | .none => True
  | .some _ _ vs => vs.names.Nodup ∧ DistinctVariants vs
/-- The same for variants. -/
def DistinctVariants : Variants V → Prop
  | .nil => True
  | .cons v rest => DistinctVariant v ∧ DistinctVariants rest
/-- The same for a variant. -/
def DistinctVariant : Variant V → Prop
  | .unit _ _ _ => True
  | .args _ _ d => DistinctSubs d
end

/-! ## Lookup in a table of distinct names -/

/-- A table in order and without repeated names. -/
def TidyTable (t : List (Str × α)) : Prop :=
  (t.map (fun e => enc e.1)).Pairwise leBytes ∧ (t.map (fun e => enc e.1)).Nodup

theorem search_tidy (hm : std.Meets) {keys : List Bytes} (hs : keys.Pairwise leBytes) (hn : keys.Nodup) (k : Bytes) :
    std.search keys k = binarySearch keys k := by
  cases h : std.search keys k with
  | none =>
    cases hb : binarySearch keys k with
    | none => rfl
    | some i => exact absurd (List.mem_of_getElem? (binarySearch_some hb)) (hm.missing keys k hs h)
  | some i =>
    have hi := hm.found keys k i hs h
    have hsome := binarySearch_isSome hs (k := k) (List.mem_of_getElem? hi)
    cases hb : binarySearch keys k with
    | none => rw [hb] at hsome; cases hsome
    | some j =>
      have hj := binarySearch_some hb
      obtain ⟨hi1, hi2⟩ := List.getElem?_eq_some_iff.1 hi
      obtain ⟨hj1, hj2⟩ := List.getElem?_eq_some_iff.1 hj
      rw [(List.getElem_inj hn).1 (hi2.trans hj2.symm)]

/-- The infos of a frame. -/
def Tidy (info : ArgsInfo) : Prop :=
  TidyTable info.namedAttrs ∧ ∀ s, info.subcmdInfo = some s → TidyTable s.map

theorem getNamed_tidy (hm : std.Meets) {info : ArgsInfo} (h : Tidy info) (name : Bytes) : info.getNamedS std name = info.getNamed name := by
  unfold ArgsInfo.getNamedS ArgsInfo.getNamed
  rw [search_tidy hm h.1.1 h.1.2]
  rfl

theorem subSearch_tidy (hm : std.Meets) {s : SubcmdInfo} (h : TidyTable s.map) (cmd : Bytes) : s.searchS std cmd = s.search cmd := by
  unfold SubcmdInfo.searchS SubcmdInfo.search
  rw [search_tidy hm h.1 h.2]
  rfl

/-! ## The tables of the macros -/

theorem enc_nodup {l : List Str} (h : l.Nodup) : (l.map enc).Nodup := by
  rw [List.nodup_iff_pairwise_ne, List.pairwise_map]
  exact (List.nodup_iff_pairwise_ne.1 h).imp (fun {a b} hab he => hab (enc_injective he))

theorem zipIdx_fst (l : List Str) (n : Nat) : (l.zipIdx n).map (·.1) = l := by
  induction l generalizing n with
  | nil => rfl
  | cons a l ih => rw [List.zipIdx_cons, List.map_cons, ih]

theorem le_antisymm' {a b : Bytes} (h : leBytes a b) (h' : leBytes b a) : a = b := by
  unfold leBytes at h h'
  cases hc : cmpBytes a b with
  | eq => exact cmpBytes_eq.1 hc
  | gt => exact absurd hc h
  | lt => rw [← cmpBytes_gt] at hc; exact absurd hc h'

theorem subcmdMap_eq (hm : std.Meets) {names : List Str} (hn : names.Nodup) : subcmdMapS std names = subcmdMap names := by
  unfold subcmdMapS subcmdMap
  have hnd : (names.zipIdx.map (fun e => enc e.1)).Nodup := by
    have := enc_nodup hn
    rw [← zipIdx_fst names 0, List.map_map] at this
    exact this
  refine List.Perm.eq_of_pairwise (le := fun a b : Str × Nat => leBytes (enc a.1) (enc b.1)) ?_ (hm.sorted _)
    (sortByKey_sorted (fun e : Str × Nat => enc e.1) _) ((hm.perm _).trans (sortByKey_perm _ _).symm)
  intro a b ha hb hab hba
  have ha' := (hm.perm _).mem_iff.1 ha
  have hb' := (sortByKey_perm _ _).mem_iff.1 hb
  have he : enc a.1 = enc b.1 := le_antisymm' hab hba
  obtain ⟨i, hi⟩ := List.getElem?_of_mem ha'
  obtain ⟨j, hj⟩ := List.getElem?_of_mem hb'
  obtain ⟨hi1, hi2⟩ := List.getElem?_eq_some_iff.1 hi
  obtain ⟨hj1, hj2⟩ := List.getElem?_eq_some_iff.1 hj
  have hij : i = j := by
    refine (List.getElem_inj (h₀ := by rw [List.length_map]; exact hi1) (h₁ := by rw [List.length_map]; exact hj1) hnd).1 ?_
    rw [List.getElem_map, List.getElem_map, hi2, hj2, he]
  subst hij
  exact hi2.symm.trans hj2

theorem subcmdMap_tidy {names : List Str} (hn : names.Nodup) : TidyTable (subcmdMap names) := by
  unfold subcmdMap TidyTable
  refine ⟨by rw [List.pairwise_map]; exact sortByKey_sorted (fun e : Str × Nat => enc e.1) _, ?_⟩
  refine ((sortByKey_perm (fun e : Str × Nat => enc e.1) names.zipIdx).map _).nodup_iff.2 ?_
  have := enc_nodup hn
  rw [← zipIdx_fst names 0, List.map_map] at this
  exact this

theorem flatMap_sublist {γ δ : Type} {l l' : List γ} (h : l.Sublist l') (g : γ → List δ) : (l.flatMap g).Sublist (l'.flatMap g) := by
  induction h with
  | slnil => exact List.Sublist.refl _
  | cons a _ ih => rw [List.flatMap_cons]; exact ih.trans (List.sublist_append_right _ _)
  | cons_cons a _ ih => rw [List.flatMap_cons, List.flatMap_cons]; exact (List.Sublist.refl _).append ih

theorem namedMap_tidy {c : Core V} (wf : CoreWF cx c) : TidyTable c.namedMap := by
  unfold Core.namedMap TidyTable
  refine ⟨by rw [List.pairwise_map]; exact sortByKey_sorted (fun e : Str × ArgAttrs => enc e.1) _, ?_⟩
  refine ((sortByKey_perm (fun e : Str × ArgAttrs => enc e.1) _).map _).nodup_iff.2 ?_
  have h1 : ((c.named.flatMap (fun f => f.encNames.map (fun s => (s, f.attrs)))).map (fun e : Str × ArgAttrs => enc e.1))
      = (c.named.flatMap (·.encNames)).map enc := by
    rw [List.map_flatMap, List.map_flatMap]
    congr 1
    funext f
    rw [List.map_map]
    rfl
  rw [h1]
  refine enc_nodup (wf.nodup.sublist ?_)
  unfold Core.named
  exact flatMap_sublist (List.take_sublist _ _) _

mutual
theorem info_any (hm : std.Meets) : (d : ArgsDef V) → DistinctSubs d → d.infoS std = d.info
  | .mk core flats sub, h => by
    rw [ArgsDef.infoS, ArgsDef.info, infos_any hm flats h.1, subInfo_any hm sub h.2]
theorem infos_any (hm : std.Meets) : (fl : Flats V) → DistinctFlats fl → fl.infosS std = fl.infos
  | .nil, _ => by rw [Flats.infosS, Flats.infos]
  | .cons _ d rest, h => by rw [Flats.infosS, Flats.infos, info_any hm d h.1, infos_any hm rest h.2]
theorem subInfo_any (hm : std.Meets) : (s : SubField V) → DistinctSub s → s.infoS std = s.info
  | .none, _ => by rw [SubField.infoS, SubField.info]
  | .some _ _ vs, h => by rw [SubField.infoS, SubField.info, subcmdMap_eq hm h.1, helps_any hm vs h.2]
theorem helps_any (hm : std.Meets) : (vs : Variants V) → DistinctVariants vs → vs.helpsS std = vs.helps
  | .nil, _ => by rw [Variants.helpsS, Variants.helps]
  | .cons v rest, h => by rw [Variants.helpsS, Variants.helps, variantInfo_any hm v h.1, helps_any hm rest h.2]
theorem variantInfo_any (hm : std.Meets) : (v : Variant V) → DistinctVariant v → v.infoS std = v.info
  | .unit _ _ _, _ => by rw [Variant.infoS, Variant.info]
  | .args _ _ d, h => by rw [Variant.infoS, Variant.info, info_any hm d h]
end

theorem info_tidy {d : ArgsDef V} (wf : WFArgs cx d) (h : DistinctSubs d) : Tidy d.info := by
  obtain ⟨core, flats, sub⟩ := d
  rw [ArgsDef.info]
  refine ⟨namedMap_tidy wf.1, fun s hs => ?_⟩
  change sub.info = some s at hs
  cases sub with
  | none => rw [SubField.info] at hs; cases hs
  | some i o vs =>
    rw [SubField.info] at hs
    cases hs
    exact subcmdMap_tidy h.2.1

theorem unitInfo_tidy (m : Option CommandMeta) : Tidy (unitInfo m) :=
  ⟨⟨List.Pairwise.nil, List.Pairwise.nil⟩, fun s hs => by cases hs⟩

mutual
theorem flat_distinct : (d : ArgsDef V) → WFArgs cx d → subOf d = .none → DistinctSubs d
  | .mk _ flats sub, wf, hs => by
    cases show sub = .none from hs
    exact ⟨flats_distinct flats wf.2.1, trivial⟩
theorem flats_distinct : (fl : Flats V) → WFFlats cx fl → DistinctFlats fl
  | .nil, _ => trivial
  | .cons _ d rest, wf => ⟨flat_distinct d wf.1 wf.2.2.1, flats_distinct rest wf.2.2.2⟩
end

/-! ## Parsing in step -/

/-- All frames have tidy infos. -/
def TidyChain (ch : Chain V) : Prop := ∀ f, Frame.args f ∈ ch → Tidy f.info

/-- The same result, and something about it. -/
def Same (P : α → Prop) (r r' : R α) : Prop := r' = r ∧ ∀ a, r = .ok a → P a

theorem Same.both {P : α → Prop} {r r' : R α} (h : Same P r r') :
    (∃ a, r = .ok a ∧ r' = .ok a ∧ P a) ∨ ∃ e, r = .error e ∧ r' = .error e := by
  obtain ⟨rfl, h⟩ := h
  match r', h with
  | .ok a, h => exact .inl ⟨a, rfl, rfl, h a rfl⟩
  | .error e, _ => exact .inr ⟨e, rfl, rfl⟩

theorem Same.ok {P : α → Prop} {a : α} (h : P a) : Same P (.ok a) (.ok a) := ⟨rfl, fun b hb => by cases hb; exact h⟩
theorem Same.err {P : α → Prop} {e : Fail} : Same P (.error e) (.error e) := ⟨rfl, fun b hb => by cases hb⟩

theorem TidyChain.tail {fr : Frame V} {ch : Chain V} (h : TidyChain (fr :: ch)) : TidyChain ch :=
  fun f hf => h f (List.mem_cons_of_mem _ hf)
theorem TidyChain.head {f : ArgsFrame V} {ch : Chain V} (h : TidyChain (.args f :: ch)) : Tidy f.info := h f List.mem_cons_self
theorem TidyChain.cons {f : ArgsFrame V} {ch : Chain V} (h : Tidy f.info) (hc : TidyChain ch) : TidyChain (.args f :: ch) := by
  intro g hg
  rcases List.mem_cons.1 hg with he | hg
  · cases he; exact h
  · exact hc g hg
theorem TidyChain.command {n : Str} {ch : Chain V} (hc : TidyChain ch) : TidyChain (.command n :: ch) := by
  intro g hg
  rcases List.mem_cons.1 hg with he | hg
  · cases he
  · exact hc g hg

theorem searchNamed_any (hm : std.Meets) {ch : Chain V} (h : TidyChain ch) (name : Bytes) (glob : Bool) :
    searchNamedS std ch name glob = searchNamed ch name glob := by
  induction ch generalizing glob with
  | nil => rfl
  | cons fr ch ih =>
    cases fr with
    | args f => simp only [searchNamedS, searchNamed, getNamed_tidy hm h.head, ih h.tail]; rfl
    | command n => simp only [searchNamedS, searchNamed, ih h.tail]; rfl

theorem modify_tidy {ch : Chain V} (h : TidyChain ch) (k i : Nat) (pl : Place V) : TidyChain (ch.modify k (·.setField i pl)) := by
  induction ch generalizing k with
  | nil => intro f hf; cases k <;> cases hf
  | cons fr ch ih =>
    cases k with
    | zero =>
      rw [List.modify_zero_cons]
      cases fr with
      | args f => exact TidyChain.cons (f := { f with fields := f.fields.set i pl }) h.head h.tail
      | command n => exact TidyChain.command h.tail
    | succ k =>
      rw [List.modify_succ_cons]
      cases fr with
      | args f => exact TidyChain.cons h.head (ih h.tail k)
      | command n => exact TidyChain.command (ih h.tail k)

/-- What parsing an option returns. -/
def TidyOut (r : ArgsFrame V × Chain V × Flow) : Prop := Tidy r.1.info ∧ TidyChain r.2.1

theorem visitNamed_any (hm : std.Meets) {cur : ArgsFrame V} {parents : Chain V} (hc : Tidy cur.info) (hp : TidyChain parents)
    (isShort : Bool) (name : Bytes) (inl : InlineValue) (next : Option Bytes) :
    Same TidyOut (visitNamed cur parents isShort name inl next) (visitNamedS std cur parents isShort name inl next) := by
  unfold visitNamed visitNamedS
  rw [searchNamed_any hm (.cons hc hp)]
  cases searchNamed (.args cur :: parents) name false with
  | error e => exact .err
  | ok o =>
    cases o with
    | none =>
      dsimp only
      split
      · exact .err
      · exact .err
    | some hit =>
      dsimp only
      cases assign hit.attrs hit.place inl next with
      | error e => exact .err
      | ok r =>
        dsimp only
        cases hit.depth with
        | zero => exact .ok ⟨hc, hp⟩
        | succ k => exact .ok ⟨hc, modify_tidy hp _ _ _⟩

theorem bundleLoop_any (hm : std.Meets) (b : Bytes) (next : Option Bytes) (cs : Str) : ∀ {cur : ArgsFrame V} {parents : Chain V} (idx : Nat),
    Tidy cur.info → TidyChain parents →
    Same TidyOut (bundleLoop b next cur parents idx cs) (bundleLoopS std b next cur parents idx cs) := by
  induction cs with
  | nil => intro cur parents idx hc hp; exact .ok ⟨hc, hp⟩
  | cons c cs ih =>
    intro cur parents idx hc hp
    simp only [bundleLoop, bundleLoopS]
    cases osIndex b (idx + (encChar c).length) with
    | none => exact .err
    | some after =>
      dsimp only
      rcases (visitNamed_any hm hc hp true (encChar c) (shortInline after) next).both with ⟨⟨cur', parents', fl⟩, h1, h2, h3⟩ | ⟨e, h1, h2⟩
      · rw [h1, h2]
        cases fl with
        | brk t => exact .ok h3
        | cont => exact ih _ h3.1 h3.2
      · rw [h1, h2]; exact .err

theorem visitBundle_any (hm : std.Meets) {cur : ArgsFrame V} {parents : Chain V} (hc : Tidy cur.info) (hp : TidyChain parents)
    (b : Bytes) (next : Option Bytes) : Same TidyOut (visitBundle cur parents b next) (visitBundleS std cur parents b next) := by
  unfold visitBundle visitBundleS
  dsimp only
  rcases (bundleLoop_any hm b next (utf8Chunk b).1 0 hc hp).both with ⟨⟨cur', parents', fl⟩, h1, h2, h3⟩ | ⟨e, h1, h2⟩
  · rw [h1, h2]
    cases fl with
    | brk t => exact .ok h3
    | cont =>
      dsimp only
      split
      · cases osIndex b (enc (utf8Chunk b).1).length with
        | none => exact .err
        | some rest =>
          dsimp only
          rcases (visitNamed_any hm h3.1 h3.2 true rest .none next).both with ⟨x, g1, g2, _⟩ | ⟨e, g1, g2⟩
          · rw [g1, g2]; exact .err
          · rw [g1, g2]; exact .err
      · exact .ok h3
  · rw [h1, h2]; exact .err

theorem visitLong_any (hm : std.Meets) {cur : ArgsFrame V} {parents : Chain V} (hc : Tidy cur.info) (hp : TidyChain parents)
    (arg : Bytes) (next : Option Bytes) : Same TidyOut (visitLong cur parents arg next) (visitLongS std cur parents arg next) := by
  unfold visitLong visitLongS
  cases splitOnceEq arg with
  | none => exact visitNamed_any hm hc hp _ _ _ _
  | some x => exact visitNamed_any hm hc hp _ _ _ _

theorem visitPositional_info {cur cur' : ArgsFrame V} {isLast b : Bool} {arg : Bytes} {rest : Toks}
    (h : visitPositional cur isLast arg rest = .ok (cur', b)) : cur'.info = cur.info := by
  unfold visitPositional at h
  dsimp only at h
  repeat' split at h
  all_goals first
    | cases h; rfl
    | cases h

theorem dashLoop_info (toks : Toks) : ∀ {cur cur' : ArgsFrame V}, dashLoop cur toks = .ok cur' → cur'.info = cur.info := by
  induction toks with
  | nil => intro cur cur' h; cases h; rfl
  | cons t ts ih =>
    intro cur cur' h
    simp only [dashLoop] at h
    split at h
    · cases h
    · rename_i hv; cases h; exact visitPositional_info hv
    · rename_i hv; rw [ih h, visitPositional_info hv]

theorem enterDash_info {cur cur' : ArgsFrame V} (h : enterDash cur = .ok cur') : cur'.info = cur.info := by
  unfold enterDash at h
  repeat' split at h
  all_goals first
    | cases h; rfl
    | cases h

/-- What a parser of subcommands may assume and must keep. -/
def SubSame (s s' : Option (SubPlace V)) : Prop :=
  match s, s' with
  | none, none => True
  | some p, some p' => ∀ idx ch ts, TidyChain ch → Same (fun r => TidyChain r.2.1) (p idx ch ts) (p' idx ch ts)
  | _, _ => False

theorem runParser_any (hm : std.Meets) {sub sub' : Option (SubPlace V)} (hs : SubSame sub sub') (n : Nat) : ∀ (toks : Toks),
    toks.length ≤ n → ∀ {cur : ArgsFrame V} {parents : Chain V}, Tidy cur.info → TidyChain parents →
    Same (fun r => Tidy r.1.info ∧ TidyChain r.2.2.1) (runParser sub cur parents toks) (runParserS std sub' cur parents toks) := by
  induction n with
  | zero =>
    intro toks hn cur parents hc hp
    cases toks with
    | nil => simp only [runParser, runParserS]; exact .ok ⟨hc, hp⟩
    | cons t ts => simp at hn
  | succ n ih =>
    intro toks hn cur parents hc hp
    cases toks with
    | nil => simp only [runParser, runParserS]; exact .ok ⟨hc, hp⟩
    | cons arg rest =>
      simp only [List.length_cons, Nat.add_le_add_iff_right] at hn
      rw [runParser.eq_def, runParserS.eq_def]
      dsimp only
      cases hsh : argShape arg with
      | dashDash =>
        dsimp only
        cases he : enterDash cur with
        | error e => exact .err
        | ok c =>
          dsimp only
          cases hl : dashLoop c rest with
          | error e => exact .err
          | ok c' => exact .ok ⟨by rw [dashLoop_info _ hl, enterDash_info he]; exact hc, hp⟩
      | long =>
        dsimp only
        rcases (visitLong_any hm hc hp arg rest.head?).both with ⟨⟨cur', parents', fl⟩, h1, h2, h3⟩ | ⟨e, h1, h2⟩
        · rw [h1, h2]
          cases fl with
          | cont => exact ih rest hn h3.1 h3.2
          | brk t =>
            cases t with
            | false => exact ih rest hn h3.1 h3.2
            | true =>
              cases rest with
              | nil => exact .err
              | cons t ts => exact ih ts (by simp at hn; omega) h3.1 h3.2
        · rw [h1, h2]; exact .err
      | bundle b =>
        dsimp only
        rcases (visitBundle_any hm hc hp b rest.head?).both with ⟨⟨cur', parents', fl⟩, h1, h2, h3⟩ | ⟨e, h1, h2⟩
        · rw [h1, h2]
          cases fl with
          | cont => exact ih rest hn h3.1 h3.2
          | brk t =>
            cases t with
            | false => exact ih rest hn h3.1 h3.2
            | true =>
              cases rest with
              | nil => exact .err
              | cons t ts => exact ih ts (by simp at hn; omega) h3.1 h3.2
        · rw [h1, h2]; exact .err
      | plain =>
        dsimp only
        have hpos : Same (fun r => Tidy r.1.info ∧ TidyChain r.2.2.1) (match visitPositional cur false arg rest with
            | .error e => .error e
            | .ok (cur, true) => .ok (cur, none, parents, [])
            | .ok (cur, false) => runParser sub cur parents rest)
            (match visitPositional cur false arg rest with
            | .error e => .error e
            | .ok (cur, true) => .ok (cur, none, parents, [])
            | .ok (cur, false) => runParserS std sub' cur parents rest) := by
          cases hv : visitPositional cur false arg rest with
          | error e => exact .err
          | ok r =>
            obtain ⟨c, b⟩ := r
            have hc' : Tidy c.info := by rw [visitPositional_info hv]; exact hc
            cases b with
            | true => exact .ok ⟨hc', hp⟩
            | false => exact ih rest hn hc' hp
        cases sub with
        | none =>
          cases sub' with
          | none => exact hpos
          | some _ => exact hs.elim
        | some p =>
         cases sub' with
         | none => exact hs.elim
         | some p' =>
          cases hi : cur.info.subcmdInfo with
          | none => exact hpos
          | some si =>
            dsimp only
            rw [subSearch_tidy hm (hc.2 si hi)]
            cases hse : si.search arg with
            | none => exact hpos
            | some x =>
              obtain ⟨name, idx⟩ := x
              dsimp only
              rcases (hs idx (.command name :: .args cur :: parents) rest (.command (.cons hc hp))).both with
                ⟨⟨o, ch, ts⟩, h1, h2, h3⟩ | ⟨e, h1, h2⟩
              · rw [h1, h2]
                rcases ch with _ | ⟨_ | _, _ | ⟨_ | _, _⟩⟩
                all_goals first
                  | exact .err
                  | exact .ok ⟨h3.tail.head, h3.tail.tail⟩
              · rw [h1, h2]; exact .err

/-- Parsers with the two libraries. -/
def RunSame (run run' : RunParser V α) : Prop :=
  ∀ cur sub sub' ch ts, SubSame sub sub' → Tidy cur.info → TidyChain ch →
    Same (fun r => TidyChain r.2.2.1) (run cur sub ch ts) (run' cur sub' ch ts)

theorem rawRun_any (hm : std.Meets) : RunSame (V := V) rawRun (rawRunS std) := by
  intro cur sub sub' ch ts hs hc hp
  unfold rawRun rawRunS
  rcases (runParser_any hm hs _ ts (Nat.le_refl _) hc hp).both with ⟨⟨a, b, c, d⟩, h1, h2, h3⟩ | ⟨e, h1, h2⟩
  · rw [h1, h2]; exact .ok h3.2
  · rw [h1, h2]; exact .err

/-- What the closures of flattened structs call. -/
def InnerSame (f f' : Chain V → Toks → R (α × Chain V × Toks)) : Prop :=
  ∀ ch ts, TidyChain ch → Same (fun r => TidyChain r.2.1) (f ch ts) (f' ch ts)

theorem wrapFrame_any {f f' : Chain V → Toks → R (α × Chain V × Toks)} (h : InnerSame f f') :
    RunSame (wrapFrame f) (wrapFrame f') := by
  intro cur sub sub' ch ts _ hc hp
  unfold wrapFrame
  rcases (h (.args cur :: ch) ts (.cons hc hp)).both with ⟨⟨a, b, c⟩, h1, h2, h3⟩ | ⟨e, h1, h2⟩
  · rw [h1, h2]
    rcases b with _ | ⟨_ | _, _⟩
    all_goals first
      | exact .err
      | exact .ok h3.tail
  · rw [h1, h2]; exact .err

theorem runInner_any {run run' : RunParser V α} (h : RunSame run run') {fr : ArgsFrame V} (hf : Tidy fr.info)
    {sub sub' : Option (SubPlace V)} (hs : SubSame sub sub') : InnerSame (runInner run fr sub) (runInner run' fr sub') := by
  intro ch ts hp
  unfold runInner
  rcases (h fr sub sub' ch ts hs hf hp).both with ⟨⟨a, b, c, d, x⟩, h1, h2, h3⟩ | ⟨e, h1, h2⟩
  · rw [h1, h2]; exact .ok h3
  · rw [h1, h2]; exact .err

theorem pairOut_any {r r' : R (Out V × Chain V × Toks × α)} (h : Same (fun r => TidyChain r.2.1) r r') :
    Same (fun r => TidyChain r.2.1) (pairOut r) (pairOut r') := by
  rcases h.both with ⟨⟨a, b, c, d⟩, h1, h2, h3⟩ | ⟨e, h1, h2⟩
  · rw [h1, h2]; exact .ok h3
  · rw [h1, h2]; exact .err

mutual
theorem argsParse_any (hm : std.Meets) : (d : ArgsDef V) → WFArgs cx d → DistinctSubs d → {α : Type} → {run run' : RunParser V α} →
    RunSame run run' → (ch : Chain V) → (ts : Toks) → TidyChain ch →
    Same (fun r => TidyChain r.2.1) (argsParse d ch run ts) (argsParseS std d ch run' ts)
  | .mk core flats sub, wf, hd, _, run, run', h, ch, ts, hp => by
    rw [argsParse, argsParseS, info_any hm _ hd]
    rcases (flatsParse_any hm flats wf.2.1 hd.1 (runInner_any h
      (fr := { fields := core.fields.map (·.initializer), info := (ArgsDef.mk core flats sub).info, nextPositional := 0 })
      (info_tidy wf hd) (subPlace_any hm sub wf.2.2.1 hd.2)) ch ts hp).both with ⟨⟨⟨a, b, x⟩, c, d, y⟩, h1, h2, h3⟩ | ⟨e, h1, h2⟩
    · rw [h1, h2]
      dsimp only
      cases finish core sub (ArgsDef.mk core flats sub).info a.fields c b with
      | error e => exact .err
      | ok o => exact .ok h3
    · rw [h1, h2]; exact .err
theorem flatsParse_any (hm : std.Meets) : (fl : Flats V) → WFFlats cx fl → DistinctFlats fl → {β : Type} →
    {f f' : Chain V → Toks → R (β × Chain V × Toks)} → InnerSame f f' → (ch : Chain V) → (ts : Toks) → TidyChain ch →
    Same (fun r => TidyChain r.2.2.1) (flatsParse fl f ch ts) (flatsParseS std fl f' ch ts)
  | .nil, _, _, _, f, f', h, ch, ts, hp => by
    rw [flatsParse, flatsParseS]
    rcases (h ch ts hp).both with ⟨⟨a, b, c⟩, h1, h2, h3⟩ | ⟨e, h1, h2⟩
    · rw [h1, h2]; exact .ok h3
    · rw [h1, h2]; exact .err
  | .cons ident d rest, wf, hd, _, f, f', h, ch, ts, hp => by
    rw [flatsParse, flatsParseS]
    rcases (flatsParse_any hm rest wf.2.2.2 hd.2 (f := fun chain toks => pairOut (argsParse d chain (wrapFrame f) toks))
      (f' := fun chain toks => pairOut (argsParseS std d chain (wrapFrame f') toks))
      (fun ch ts hp => pairOut_any (argsParse_any hm d wf.1 hd.1 (wrapFrame_any h) ch ts hp)) ch ts hp).both with
      ⟨⟨⟨a, b⟩, c, x, y⟩, h1, h2, h3⟩ | ⟨e, h1, h2⟩
    · rw [h1, h2]; exact .ok h3
    · rw [h1, h2]; exact .err
theorem subPlace_any (hm : std.Meets) : (s : SubField V) → WFSub cx s → DistinctSub s → SubSame (subPlace s) (subPlaceS std s)
  | .none, _, _ => by rw [subPlace, subPlaceS]; trivial
  | .some _ _ vs, wf, hd => by
    rw [subPlace, subPlaceS]
    exact fun idx ch ts hp => variantsParse_any hm vs wf hd.2 idx ch ts hp
theorem variantsParse_any (hm : std.Meets) : (vs : Variants V) → WFVariants cx vs → DistinctVariants vs → (idx : Nat) →
    (ch : Chain V) → (ts : Toks) → TidyChain ch →
    Same (fun r => TidyChain r.2.1) (variantsParse vs idx ch ts) (variantsParseS std vs idx ch ts)
  | .nil, _, _, _, _, _, _ => by rw [variantsParse, variantsParseS]; exact .err
  | .cons v _, wf, hd, 0, ch, ts, hp => by rw [variantsParse, variantsParseS]; exact variantParse_any hm v wf.1 hd.1 ch ts hp
  | .cons _ rest, wf, hd, idx + 1, ch, ts, hp => by
    rw [variantsParse, variantsParseS]; exact variantsParse_any hm rest wf.2 hd.2 idx ch ts hp
theorem variantParse_any (hm : std.Meets) : (v : Variant V) → WFVariant cx v → DistinctVariant v → (ch : Chain V) → (ts : Toks) →
    TidyChain ch → Same (fun r => TidyChain r.2.1) (variantParse v ch ts) (variantParseS std v ch ts)
  | .unit ident _ cmeta, _, _, ch, ts, hp => by
    rw [variantParse, variantParseS]
    rcases (rawRun_any hm { fields := [], info := unitInfo cmeta, nextPositional := 0 } none none ch ts trivial (unitInfo_tidy _) hp).both with
      ⟨⟨a, b, c, d, _⟩, h1, h2, h3⟩ | ⟨e, h1, h2⟩
    · rw [h1, h2]; exact .ok h3
    · rw [h1, h2]; exact .err
  | .args ident _ d, wf, hd, ch, ts, hp => by
    rw [variantParse, variantParseS]
    rcases (argsParse_any hm d wf hd (rawRun_any hm) ch ts hp).both with ⟨⟨a, b, c, _⟩, h1, h2, h3⟩ | ⟨e, h1, h2⟩
    · rw [h1, h2]; exact .ok h3
    · rw [h1, h2]; exact .err
end

theorem tryParse_any (hm : std.Meets) {d : ArgsDef V} (wf : WFArgs cx d) (hd : DistinctSubs d) (argv : List Bytes) :
    tryParseFromS std d argv = tryParseFrom d argv := by
  cases argv with
  | nil => rfl
  | cons a toks =>
    unfold tryParseFromS tryParseFrom structRunParserS structRunParser
    dsimp only
    rw [(argsParse_any hm d wf hd (rawRun_any hm) [.command (lossy ((fileName a).getD a))] toks
      (.command (fun f hf => by cases hf))).1]
    rfl

end Palc
