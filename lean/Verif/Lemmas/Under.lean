import Verif.Lemmas.Rename
import Verif.Lemmas.Parsed
/-! Running a command below other commands. -/

namespace Palc

open Spec

variable {V : Type} {cx : Cx V} {r : CmdId} {B : List (Entry V)}

/-- The entered commands with the root command entered as `r` below the commands `B`. -/
def under (r : CmdId) (B : List (Entry V)) : List (Entry V) → List (Entry V)
  | [] => B
  | [(_, d)] => (r, d) :: B
  | x :: y :: st => x :: under r B (y :: st)

def underCtx (r : CmdId) (B : List (Entry V)) (κ : Ctx V) : Ctx V := ⟨under r B κ.stack, κ.npos, κ.mode⟩

/-- The address of an argument when its program is run below `n` commands. -/
def up (n : Nat) (a : Addr) : Addr := ⟨a.level + n, a.struct, a.field⟩

def upE (n : Nat) (evs : List Event) : List Event := evs.map (fun x => (up n x.1, x.2))

theorem upE_append (n : Nat) (xs ys : List Event) : upE n (xs ++ ys) = upE n xs ++ upE n ys := List.map_append

theorem up_inj {n : Nat} {a b : Addr} (h : up n a = up n b) : a = b := by
  cases a; cases b
  simp only [up, Addr.mk.injEq] at h
  simp only [Addr.mk.injEq]
  omega

theorem under_cons (i : CmdId) (d : ArgsDef V) (st : List (Entry V)) :
    ∃ i', under r B ((i, d) :: st) = (i', d) :: under r B st ∧ (st ≠ [] → i' = i) ∧ (st = [] → i' = r) := by
  cases st with
  | nil => exact ⟨_, rfl, fun h => absurd rfl h, fun _ => rfl⟩
  | cons y st => exact ⟨i, rfl, fun _ => rfl, fun h => by cases h⟩

theorem under_cons2 (x y : Entry V) (st : List (Entry V)) : under r B (x :: y :: st) = x :: under r B (y :: st) := rfl

theorem under_length (st : List (Entry V)) : (under r B st).length = st.length + B.length := by
  induction st with
  | nil => simp [under]
  | cons x st ih =>
    obtain ⟨i', h, _⟩ := under_cons (r := r) (B := B) x.1 x.2 st
    rw [h, List.length_cons, ih, List.length_cons]
    omega

theorem fieldsAt_up (n k : Nat) (d : ArgsDef V) :
    fieldsAt (k + n) d = (fieldsAt k d).map (fun x => (up n x.1, x.2)) := by
  unfold fieldsAt
  rw [List.map_flatMap]
  congr 1
  funext x
  rw [List.map_map]
  rfl

theorem globals_under (st : List (Entry V)) :
    globals (under r B st) = (globals st).map (fun x => (up B.length x.1, x.2)) ++ globals B := by
  induction st with
  | nil => rfl
  | cons x st ih =>
    obtain ⟨i', h, _⟩ := under_cons (r := r) (B := B) x.1 x.2 st
    rw [h, globals, ih, under_length, fieldsAt_up, globals, List.map_append, List.append_assoc, List.filter_map]
    rfl

theorem visible_under {st : List (Entry V)} (hne : st ≠ []) :
    visible (under r B st) = (visible st).map (fun x => (up B.length x.1, x.2)) ++ globals B := by
  cases st with
  | nil => exact absurd rfl hne
  | cons x st =>
    obtain ⟨i', h, _⟩ := under_cons (r := r) (B := B) x.1 x.2 st
    rw [h, visible, globals_under, under_length, fieldsAt_up, visible, List.map_append, List.append_assoc]

theorem resolves_under {st : List (Entry V)} (hne : st ≠ []) {n : Name} {a : Addr} {f : FieldInfo V}
    (h : Resolves cx st n a f) : Resolves cx (under r B st) n (up B.length a) f := by
  unfold Resolves at h ⊢
  rw [visible_under hne, List.find?_append, List.find?_map]
  have : (fun x : Addr × FieldInfo V => declares cx x.2 n) ∘ (fun x : Addr × FieldInfo V => (up B.length x.1, x.2))
      = fun x => declares cx x.2 n := rfl
  rw [this, h]
  rfl

theorem unknown_under {st : List (Entry V)} (hne : st ≠ []) (hg : globals B = []) {n : Name} (h : Unknown cx st n) :
    Unknown cx (under r B st) n := by
  unfold Unknown at h ⊢
  rw [visible_under hne, hg, List.append_nil]
  intro x hx
  obtain ⟨y, hy, rfl⟩ := List.mem_map.1 hx
  exact h y hy

theorem fieldAt_high {st : List (Entry V)} {a : Addr} (h : st.length ≤ a.level) : fieldAt st a = none := by
  cases hf : fieldAt st a with
  | none => rfl
  | some f => have := fieldAt_level hf; omega

theorem fieldAt_under_up {st : List (Entry V)} (a : Addr) : fieldAt (under r B st) (up B.length a) = fieldAt st a := by
  induction st with
  | nil => exact fieldAt_high (by simp [up, under])
  | cons x st ih =>
    obtain ⟨i', h, _⟩ := under_cons (r := r) (B := B) x.1 x.2 st
    obtain ⟨i, d⟩ := x
    rw [h, fieldAt, ih, under_length, fieldAt]
    simp only [up, Nat.add_right_cancel_iff]

theorem fieldAt_under_low {st : List (Entry V)} {a : Addr} (h : a.level < B.length) : fieldAt (under r B st) a = fieldAt B a := by
  induction st with
  | nil => rfl
  | cons x st ih =>
    obtain ⟨i', h', _⟩ := under_cons (r := r) (B := B) x.1 x.2 st
    rw [h', fieldAt, under_length, if_neg (by omega), ih]

theorem addr_cases (n : Nat) (a : Addr) : a.level < n ∨ ∃ b, a = up n b := by
  by_cases h : a.level < n
  · exact .inl h
  · refine .inr ⟨⟨a.level - n, a.struct, a.field⟩, ?_⟩
    cases a
    simp only [up, Addr.mk.injEq, and_self, and_true] at h ⊢
    omega

theorem occs_upE (n : Nat) (E : List Event) (a : Addr) : occs (upE n E) (up n a) = occs E a := by
  induction E with
  | nil => rfl
  | cons x E ih =>
    have h1 : ∀ (y : Event) (l : List Event), y :: l = [y] ++ l := fun _ _ => rfl
    obtain ⟨b, o⟩ := x
    have : upE n ((b, o) :: E) = [(up n b, o)] ++ upE n E := rfl
    rw [this, h1 (b, o) E, occs_append, occs_append, ih, occs_single, occs_single]
    by_cases h : a = b
    · rw [if_pos h, if_pos (by rw [h])]
    · rw [if_neg h, if_neg (fun h' => h (up_inj h'))]

theorem occs_upE_low {n : Nat} (E : List Event) {a : Addr} (h : a.level < n) : occs (upE n E) a = [] := by
  unfold occs
  rw [List.map_eq_nil_iff, List.filter_eq_nil_iff]
  intro e he
  obtain ⟨y, _, rfl⟩ := List.mem_map.1 he
  simp only [decide_eq_true_eq]
  intro hc
  rw [← hc] at h
  simp only [up] at h
  omega

section
variable {evs : List Event} (hlow : ∀ x ∈ evs, x.1.level < B.length)
include hlow

theorem occs_both_up (E : List Event) (a : Addr) : occs (evs ++ upE B.length E) (up B.length a) = occs E a := by
  rw [occs_append, occs_fresh hlow (by simp [up]), occs_upE]
  rfl

omit hlow in
theorem occs_both_low (E : List Event) {a : Addr} (h : a.level < B.length) : occs (evs ++ upE B.length E) a = occs evs a := by
  rw [occs_append, occs_upE_low E h, List.append_nil]

theorem acceptable_under {st : List (Entry V)} {E : List Event} :
    Acceptable (under r B st) (evs ++ upE B.length E) ↔ Acceptable B evs ∧ Acceptable st E := by
  constructor
  · intro h
    constructor
    · intro a f hf
      have hl := fieldAt_level hf
      have := h a f (by rw [fieldAt_under_low hl]; exact hf)
      rwa [occs_both_low E hl] at this
    · intro a f hf
      have := h (up B.length a) f (by rw [fieldAt_under_up]; exact hf)
      rwa [occs_both_up hlow] at this
  · rintro ⟨h1, h2⟩ a f hf
    rcases addr_cases B.length a with hl | ⟨b, rfl⟩
    · rw [fieldAt_under_low hl] at hf
      rw [occs_both_low E hl]
      exact h1 a f hf
    · rw [fieldAt_under_up] at hf
      rw [occs_both_up hlow]
      exact h2 b f hf

theorem firstBad_under {st : List (Entry V)} {E : List Event} {e : Error} (ha : Acceptable B evs) (h : FirstBad st [] E e) :
    FirstBad (under r B st) [] (evs ++ upE B.length E) e := by
  obtain ⟨pre, a, o, post, f, e0, rfl, h2, h3, h4, h5⟩ := h
  refine ⟨evs ++ upE B.length pre, up B.length a, o, upE B.length post, f, e0, ?_, ?_, ?_, ?_, h5⟩
  · rw [upE_append, List.append_assoc]; rfl
  · rw [fieldAt_under_up]; exact h2
  · exact (acceptable_under (r := r) (st := st) hlow).2 ⟨ha, h3⟩
  · rw [List.nil_append, occs_both_up hlow]; exact h4

theorem allFail_under (E : List Event) (st : List (Entry V)) (hne : st ≠ []) (sub : Bool) :
    allFail (evs ++ upE B.length E) (under r B st) sub = (allFail E st sub).or (allFail evs B true) := by
  have hB : ∀ (C : List (Entry V)) (b : Bool), (∃ pre, B = pre ++ C) → allFail (evs ++ upE B.length E) C b = allFail evs C b := by
    intro C
    induction C with
    | nil => intro b _; rfl
    | cons x C ih =>
      rintro b ⟨pre, hpre⟩
      obtain ⟨i, d⟩ := x
      rw [allFail, allFail, ih true ⟨pre ++ [(i, d)], by rw [hpre]; simp⟩]
      have : ∀ s i, occs (evs ++ upE B.length E) ⟨C.length, s, i⟩ = occs evs ⟨C.length, s, i⟩ := by
        intro s i
        exact occs_both_low E (by rw [hpre]; simp; omega)
      simp only [this]
  induction st generalizing sub with
  | nil => exact absurd rfl hne
  | cons x st ih =>
    obtain ⟨i', h, _⟩ := under_cons (r := r) (B := B) x.1 x.2 st
    obtain ⟨i, d⟩ := x
    rw [h, allFail, allFail, under_length]
    have : ∀ s i, occs (evs ++ upE B.length E) ⟨st.length + B.length, s, i⟩ = occs E ⟨st.length, s, i⟩ :=
      fun s i => occs_both_up hlow E ⟨st.length, s, i⟩
    simp only [this]
    cases st with
    | nil =>
      rw [show under r B [] = B from rfl, hB B true ⟨[], rfl⟩]
      simp [allFail]
    | cons y st => rw [ih (by simp) true, Option.or_assoc]

/-- The result of a command below other commands. -/
theorem outAll_under (E : List Event) (st : List (Entry V)) (hne : st ≠ []) (hB : B ≠ []) (sub : Option (Out V)) :
    outAll (evs ++ upE B.length E) (under r B st) sub
      = (outAll E st sub).bind (fun o => outAll evs B (some (.variant r.ident o))) := by
  have hBo : ∀ (C : List (Entry V)) (b : Option (Out V)), (∃ pre, B = pre ++ C) →
      outAll (evs ++ upE B.length E) C b = outAll evs C b := by
    intro C
    induction C with
    | nil => intro b _; rfl
    | cons x C ih =>
      rintro b ⟨pre, hpre⟩
      obtain ⟨i, d⟩ := x
      have : ∀ s i, occs (evs ++ upE B.length E) ⟨C.length, s, i⟩ = occs evs ⟨C.length, s, i⟩ := by
        intro s i
        exact occs_both_low E (by rw [hpre]; simp; omega)
      rw [outAll, outAll]
      simp only [this]
      cases outArgs (fun s i => occs evs ⟨C.length, s, i⟩) 0 b d with
      | none => rfl
      | some o =>
        cases C with
        | nil => rfl
        | cons y C => exact ih _ ⟨pre ++ [(i, d)], by rw [hpre]; simp⟩
  induction st generalizing sub with
  | nil => exact absurd rfl hne
  | cons x st ih =>
    obtain ⟨i', h, hi', hr⟩ := under_cons (r := r) (B := B) x.1 x.2 st
    obtain ⟨i, d⟩ := x
    rw [h, outAll, outAll, under_length]
    have : ∀ s i, occs (evs ++ upE B.length E) ⟨st.length + B.length, s, i⟩ = occs E ⟨st.length, s, i⟩ :=
      fun s i => occs_both_up hlow E ⟨st.length, s, i⟩
    simp only [this]
    cases outArgs (fun s i => occs E ⟨st.length, s, i⟩) 0 sub d with
    | none => rfl
    | some o =>
      simp only
      cases st with
      | nil =>
        have := hBo B (some (.variant r.ident o)) ⟨[], rfl⟩
        rw [hr rfl]
        simp only [under, Option.bind_some]
        rw [← this]
        cases B with
        | nil => exact absurd rfl hB
        | cons y C => rfl
      | cons y st =>
        rw [hi' (by simp)]
        obtain ⟨j, hj, _⟩ := under_cons (r := r) (B := B) y.1 y.2 st
        rw [hj]
        simp only
        rw [← ih (by simp), hj]

end

/-! ## Reading -/

theorem cluster_under {st : List (Entry V)} (hne : st ≠ []) {next : Option Bytes} {s : Bytes} {E : List Event} {took : Bool}
    (h : Cluster cx st next s E took) : Cluster cx (under r B st) next s (upE B.length E) took := by
  induction h with
  | bare hr ht => exact .bare (resolves_under hne hr) ht
  | more hr ht hq hn heq _ ih => exact .more (resolves_under hne hr) ht hq hn heq ih
  | eq hr ht => exact .eq (resolves_under hne hr) ht
  | attached hr ht hq hn heq => exact .attached (resolves_under hne hr) ht hq hn heq
  | sep hr ht hq hn hs => exact .sep (resolves_under hne hr) ht hq hn hs

theorem step_under {κ κ' : Ctx V} {toks rest : List Bytes} {E : List Event} (hne : κ.stack ≠ [])
    (h : Step cx κ toks E κ' rest) : Step cx (underCtx r B κ) toks (upE B.length E) (underCtx r B κ') rest := by
  unfold underCtx
  cases h with
  | longEq hr hn ht => exact .longEq (resolves_under hne hr) hn ht
  | longBare hr hn hn' ht => exact .longBare (resolves_under hne hr) hn hn' ht
  | longSep hr hn hn' ht hq hs => exact .longSep (resolves_under hne hr) hn hn' ht hq hs
  | cluster hb hc => exact .cluster hb (cluster_under hne hc)
  | clusterSep hb hc => exact .clusterSep hb (cluster_under hne hc)
  | @sub i d st k v toks hv hp =>
    obtain ⟨i', h, _⟩ := under_cons (r := r) (B := B) i d st
    simp only [under_cons2, h]
    exact .sub hv hp
  | @positional i d st k tok x toks hp hns hx =>
    obtain ⟨i', h, _⟩ := under_cons (r := r) (B := B) i d st
    simp only [h, upE, List.map_cons, List.map_nil, up, ← under_length (r := r) (B := B) st]
    exact .positional hp hns hx
  | dashdash => exact .dashdash
  | @last i d st k tok x toks hx =>
    obtain ⟨i', h, _⟩ := under_cons (r := r) (B := B) i d st
    simp only [h, upE, List.map_cons, List.map_nil, up, ← under_length (r := r) (B := B) st]
    exact .last hx
  | @dashed i d st k tok x toks hl hx =>
    obtain ⟨i', h, _⟩ := under_cons (r := r) (B := B) i d st
    simp only [h, upE, List.map_cons, List.map_nil, up, ← under_length (r := r) (B := B) st]
    exact .dashed hl hx
  | @trailing i d st k tok j toks =>
    obtain ⟨i', h, _⟩ := under_cons (r := r) (B := B) i d st
    simp only [h, upE, List.map_cons, List.map_nil, up, ← under_length (r := r) (B := B) st]
    exact .trailing

theorem step_ne {κ κ' : Ctx V} {toks rest : List Bytes} {E : List Event} (hne : κ.stack ≠ [])
    (h : Step cx κ toks E κ' rest) : κ'.stack ≠ [] := by
  obtain ⟨ext, he⟩ := step_stack h
  rw [he]
  simp [hne]

theorem steps_ne {κ κ' : Ctx V} {toks rest : List Bytes} {E : List Event} (hne : κ.stack ≠ [])
    (h : Steps cx κ toks E κ' rest) : κ'.stack ≠ [] := by
  obtain ⟨ext, he⟩ := steps_stack h
  rw [he]
  simp [hne]

theorem steps_under {κ κ' : Ctx V} {toks rest : List Bytes} {E : List Event} (hne : κ.stack ≠ [])
    (h : Steps cx κ toks E κ' rest) : Steps cx (underCtx r B κ) toks (upE B.length E) (underCtx r B κ') rest := by
  induction h with
  | refl => exact .refl
  | step h _ ih =>
    rw [upE_append]
    exact .step (step_under hne h) (ih (step_ne hne h))

/-- The only errors that depend on the commands around are those about undeclared options, and help requests. -/
def Local (e : Error) : Prop := e.kind ≠ .help ∧ e.kind ≠ .unknownNamedArgument

theorem clusterStuck_under {st : List (Entry V)} (hne : st ≠ []) {next : Option Bytes} {s : Bytes} {E : List Event} {e : Error}
    (h : ClusterStuck cx st next s E e) (hg : globals B = [] ∨ Local e) :
    ClusterStuck cx (under r B st) next s (upE B.length E) (renameErr st (under r B st) e) := by
  induction h with
  | more hr ht hq hn heq _ ih => exact .more (resolves_under hne hr) ht hq hn heq (ih hg)
  | unknown hu hc =>
    rcases hg with hg | hg
    · rw [renameErr_other (by simp [unexpected])]; exact .unknown (unknown_under hne hg hu) hc
    · exact absurd rfl hg.2
  | help hu =>
    rcases hg with hg | hg
    · rw [renameErr_help]; exact .help (unknown_under hne hg hu)
    · exact absurd rfl hg.1
  | invalid hn hb => rw [renameErr_other (by simp [unexpected])]; exact .invalid hn hb
  | missingEqAttached hr hq hn heq =>
    rw [renameErr_other (by rw [about_kind]; simp)]; exact .missingEqAttached (resolves_under hne hr) hq hn heq
  | missingEq hr ht hq => rw [renameErr_other (by rw [about_kind]; simp)]; exact .missingEq (resolves_under hne hr) ht hq
  | missingValue hr ht hq hn =>
    rw [renameErr_other (by rw [about_kind]; simp)]; exact .missingValue (resolves_under hne hr) ht hq hn
  | flagValue hr hk => rw [renameErr_other (by rw [about_kind]; simp)]; exact .flagValue (resolves_under hne hr) hk
  | optionalValue hr hk => rw [renameErr_other (by simp [unexpected])]; exact .optionalValue (resolves_under hne hr) hk

theorem stuck_under {κ : Ctx V} (hne : κ.stack ≠ []) {toks : List Bytes} {E : List Event} {e : Error} (h : Stuck cx κ toks E e)
    (hg : globals B = [] ∨ Local e) :
    Stuck cx (underCtx r B κ) toks (upE B.length E) (renameErr κ.stack (under r B κ.stack) e) := by
  unfold underCtx
  cases h with
  | longUnknown hd hn hn' ht hu hh =>
    rcases hg with hg | hg
    · rw [renameErr_other (by simp [unexpected])]
      exact .longUnknown hd hn hn' ht (fun n h => unknown_under hne hg (hu n h)) hh
    · exact absurd rfl hg.2
  | longHelp ht hu =>
    rcases hg with hg | hg
    · rw [renameErr_help]; exact .longHelp ht (unknown_under hne hg hu)
    · exact absurd rfl hg.1
  | flagValue hr hn hk => rw [renameErr_other (by rw [about_kind]; simp)]; exact .flagValue (resolves_under hne hr) hn hk
  | missingEq hr hn hn' ht hq =>
    rw [renameErr_other (by rw [about_kind]; simp)]; exact .missingEq (resolves_under hne hr) hn hn' ht hq
  | missingValue hr hn hn' ht hq hv =>
    rw [renameErr_other (by rw [about_kind]; simp)]; exact .missingValue (resolves_under hne hr) hn hn' ht hq hv
  | cluster hb hc => exact .cluster hb (clusterStuck_under hne hc hg)
  | @surplus i d st k tok toks hp hns hx =>
    rw [renameErr_other (surplus_kind d tok)]
    obtain ⟨i', h, _⟩ := under_cons (r := r) (B := B) i d st
    simp only [h]
    exact .surplus hp hns hx
  | @dashed i d st k tok toks hl hx =>
    rw [renameErr_other (surplus_kind d tok)]
    obtain ⟨i', h, _⟩ := under_cons (r := r) (B := B) i d st
    simp only [h]
    exact .dashed hl hx

/-- Also where reading stops, what was read before is read in the same way below other commands. -/
theorem clusterStuck_prefix {st : List (Entry V)} (hne : st ≠ []) {next : Option Bytes} {s : Bytes} {E : List Event} {e : Error}
    (h : ClusterStuck cx st next s E e) : ∃ E', upE B.length E <+: E' ∧
      (Cluster cx (under r B st) next s E' false ∨ (∃ v, next = some v ∧ Cluster cx (under r B st) next s E' true)
        ∨ ∃ e', ClusterStuck cx (under r B st) next s E' e') := by
  have hnil : ∀ s : Bytes, s ≠ [] → ∃ E', upE B.length [] <+: E' ∧
      (Cluster cx (under r B st) next s E' false ∨ (∃ v, next = some v ∧ Cluster cx (under r B st) next s E' true)
        ∨ ∃ e', ClusterStuck cx (under r B st) next s E' e') := by
    intro s hs
    rcases cluster_progress cx (under r B st) next s hs with ⟨E', h⟩ | ⟨E', v, hv, h⟩ | ⟨E', e', h⟩
    · exact ⟨E', List.nil_prefix, .inl h⟩
    · exact ⟨E', List.nil_prefix, .inr (.inl ⟨v, hv, h⟩)⟩
    · exact ⟨E', List.nil_prefix, .inr (.inr ⟨e', h⟩)⟩
  have hc : ∀ (c : Char) (r : Bytes), encChar c ++ r ≠ [] := by
    intro c r h
    have := encChar_length_pos c
    rw [(List.append_eq_nil_iff.1 h).1] at this
    simp at this
  induction h with
  | @more c a f rest evs e hr ht hq hn heq _ ih =>
    obtain ⟨E', hp, h⟩ := ih
    have hr := resolves_under (r := r) (B := B) hne hr
    refine ⟨(up B.length a, none) :: E', List.cons_prefix_cons.2 ⟨rfl, hp⟩, ?_⟩
    rcases h with h | ⟨v, hv, h⟩ | ⟨e', h⟩
    · exact .inl (.more hr ht hq hn heq h)
    · exact .inr (.inl ⟨v, hv, .more hr ht hq hn heq h⟩)
    · exact .inr (.inr ⟨e', .more hr ht hq hn heq h⟩)
  | @unknown c rest hu h => exact hnil _ (hc c rest)
  | @help rest hu => exact hnil _ (hc 'h' rest)
  | invalid hn hb => exact hnil _ hn
  | missingEqAttached hr hq hn heq =>
    exact ⟨_, List.prefix_rfl, .inr (.inr ⟨_, .missingEqAttached (resolves_under hne hr) hq hn heq⟩)⟩
  | missingEq hr ht hq => exact ⟨_, List.prefix_rfl, .inr (.inr ⟨_, .missingEq (resolves_under hne hr) ht hq⟩)⟩
  | missingValue hr ht hq hn => exact ⟨_, List.prefix_rfl, .inr (.inr ⟨_, .missingValue (resolves_under hne hr) ht hq hn⟩)⟩
  | flagValue hr hk => exact ⟨_, List.prefix_rfl, .inr (.inr ⟨_, .flagValue (resolves_under hne hr) hk⟩)⟩
  | optionalValue hr hk => exact ⟨_, List.prefix_rfl, .inr (.inr ⟨_, .optionalValue (resolves_under hne hr) hk⟩)⟩

/-- Where reading stops: below other commands the same occurrences are read first, in a step or before an error. -/
theorem stuck_prefix {κ : Ctx V} (hne : κ.stack ≠ []) {toks : List Bytes} {E : List Event} {e : Error} (h : Stuck cx κ toks E e) :
    E = [] ∨ ∃ E', upE B.length E <+: E' ∧ ((∃ κ' rest, Step cx (underCtx r B κ) toks E' κ' rest ∧ κ'.stack = under r B κ.stack)
      ∨ ∃ e', Stuck cx (underCtx r B κ) toks E' e') := by
  cases h with
  | @cluster st k b toks evs e hb hc =>
    obtain ⟨E', hp, h⟩ := clusterStuck_prefix (r := r) (B := B) hne hc
    refine .inr ⟨E', hp, ?_⟩
    rcases h with h | ⟨v, hv, h⟩ | ⟨e', h⟩
    · exact .inl ⟨_, _, .cluster hb h, rfl⟩
    · cases toks with
      | nil => cases hv
      | cons w toks =>
        cases hv
        exact .inl ⟨_, _, .clusterSep hb h, rfl⟩
    · exact .inr ⟨e', .cluster hb h⟩
  | _ => exact .inl rfl

theorem cmdline_under (i : CmdId) (d : ArgsDef V) (inner : List (Entry V)) :
    ∃ post, cmdline (inner ++ [(i, d)]) = ' ' :: i.name ++ post
      ∧ cmdline (under r B (inner ++ [(i, d)])) = cmdline B ++ ' ' :: r.name ++ post := by
  induction inner with
  | nil => exact ⟨[], by simp [cmdline], by simp [cmdline, under]⟩
  | cons x inner ih =>
    obtain ⟨post, h1, h2⟩ := ih
    refine ⟨post ++ ' ' :: x.1.name, ?_, ?_⟩
    · rw [List.cons_append, cmdline, h1]; simp
    · obtain ⟨i', h3, h4, _⟩ := under_cons (r := r) (B := B) x.1 x.2 (inner ++ [(i, d)])
      rw [h4 (by simp)] at h3
      rw [List.cons_append, h3, cmdline, h2]
      simp

end Palc
