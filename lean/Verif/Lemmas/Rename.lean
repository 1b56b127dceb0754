import Verif.Lemmas.Outcome
import Verif.Lemmas.HelpText
import Verif.Lemmas.Kinds
/-! Replacing the program name. -/

namespace Palc

open Spec

variable {V : Type} {cx : Cx V}

/-- Another name for the root command. -/
def renameRoot (b : Str) : List (Entry V) → List (Entry V)
  | [] => []
  | [(i, d)] => [({ i with name := b }, d)]
  | x :: y :: st => x :: renameRoot b (y :: st)

/-- Another program name in a context. -/
def renameCtx (b : Str) (κ : Ctx V) : Ctx V := ⟨renameRoot b κ.stack, κ.npos, κ.mode⟩

theorem renameRoot_cons (b : Str) (i : CmdId) (d : ArgsDef V) (st : List (Entry V)) :
    ∃ i', renameRoot b ((i, d) :: st) = (i', d) :: renameRoot b st ∧ i'.ident = i.ident ∧ (st ≠ [] → i' = i) := by
  cases st with
  | nil => exact ⟨_, rfl, rfl, fun h => absurd rfl h⟩
  | cons y st => exact ⟨i, rfl, rfl, fun _ => rfl⟩

theorem renameRoot_cons2 (b : Str) (x y : Entry V) (st : List (Entry V)) :
    renameRoot b (x :: y :: st) = x :: renameRoot b (y :: st) := rfl

theorem renameRoot_length (b : Str) (st : List (Entry V)) : (renameRoot b st).length = st.length := by
  induction st with
  | nil => rfl
  | cons x st ih =>
    obtain ⟨i', h, _⟩ := renameRoot_cons b x.1 x.2 st
    rw [h, List.length_cons, ih, List.length_cons]

theorem globals_rename (b : Str) (st : List (Entry V)) : globals (renameRoot b st) = globals st := by
  induction st with
  | nil => rfl
  | cons x st ih =>
    obtain ⟨i', h, _⟩ := renameRoot_cons b x.1 x.2 st
    rw [h, globals, ih, renameRoot_length]
    rfl

theorem visible_rename (b : Str) (st : List (Entry V)) : visible (renameRoot b st) = visible st := by
  cases st with
  | nil => rfl
  | cons x st =>
    obtain ⟨i', h, _⟩ := renameRoot_cons b x.1 x.2 st
    rw [h, visible, globals_rename, renameRoot_length]
    rfl

theorem fieldAt_rename (b : Str) (st : List (Entry V)) (a : Addr) : fieldAt (renameRoot b st) a = fieldAt st a := by
  induction st with
  | nil => rfl
  | cons x st ih =>
    obtain ⟨i', h, _⟩ := renameRoot_cons b x.1 x.2 st
    rw [h, fieldAt, renameRoot_length, ih]
    rfl

theorem allFail_rename (b : Str) (evs : List Event) (st : List (Entry V)) (sub : Bool) :
    allFail evs (renameRoot b st) sub = allFail evs st sub := by
  induction st generalizing sub with
  | nil => rfl
  | cons x st ih =>
    obtain ⟨i', h, _⟩ := renameRoot_cons b x.1 x.2 st
    rw [h, allFail, renameRoot_length, ih]
    rfl

theorem allOk_rename (b : Str) (evs : List Event) (st : List (Entry V)) (sub : Bool) :
    AllOk evs (renameRoot b st) sub ↔ AllOk evs st sub := by
  induction st generalizing sub with
  | nil => exact Iff.rfl
  | cons x st ih =>
    obtain ⟨i', h, _⟩ := renameRoot_cons b x.1 x.2 st
    rw [h, AllOk, renameRoot_length, ih]
    rfl

theorem outAll_rename (b : Str) (evs : List Event) (st : List (Entry V)) (sub : Option (Out V)) :
    outAll evs (renameRoot b st) sub = outAll evs st sub := by
  induction st generalizing sub with
  | nil => rfl
  | cons x st ih =>
    obtain ⟨i', h, hi, _⟩ := renameRoot_cons b x.1 x.2 st
    obtain ⟨i, d⟩ := x
    simp only at h hi
    rw [h, outAll, outAll, renameRoot_length]
    cases outArgs (fun s i => occs evs ⟨st.length, s, i⟩) 0 sub d with
    | none => rfl
    | some o =>
      cases st with
      | nil => rfl
      | cons y st =>
        obtain ⟨i2, h2, _⟩ := renameRoot_cons b y.1 y.2 st
        rw [h2] at ih ⊢
        simp only
        rw [ih, hi]

theorem resolves_rename {b : Str} {st : List (Entry V)} {n : Name} {a : Addr} {f : FieldInfo V} :
    Resolves cx (renameRoot b st) n a f ↔ Resolves cx st n a f := by
  unfold Resolves
  rw [visible_rename]

theorem unknown_rename {b : Str} {st : List (Entry V)} {n : Name} : Unknown cx (renameRoot b st) n ↔ Unknown cx st n := by
  unfold Unknown
  rw [visible_rename]

theorem cluster_rename {b : Str} {st : List (Entry V)} {next : Option Bytes} {s : Bytes} {evs : List Event} {took : Bool}
    (h : Cluster cx st next s evs took) : Cluster cx (renameRoot b st) next s evs took := by
  induction h with
  | bare hr ht => exact .bare (resolves_rename.2 hr) ht
  | more hr ht hq hne heq _ ih => exact .more (resolves_rename.2 hr) ht hq hne heq ih
  | eq hr ht => exact .eq (resolves_rename.2 hr) ht
  | attached hr ht hq hne heq => exact .attached (resolves_rename.2 hr) ht hq hne heq
  | sep hr ht hq hn hs => exact .sep (resolves_rename.2 hr) ht hq hn hs

theorem step_rename {b : Str} {κ κ' : Ctx V} {toks rest : List Bytes} {evs : List Event} (h : Step cx κ toks evs κ' rest) :
    Step cx (renameCtx b κ) toks evs (renameCtx b κ') rest := by
  unfold renameCtx
  cases h with
  | longEq hr hn ht => exact .longEq (resolves_rename.2 hr) hn ht
  | longBare hr hn hne ht => exact .longBare (resolves_rename.2 hr) hn hne ht
  | longSep hr hn hne ht hq hs => exact .longSep (resolves_rename.2 hr) hn hne ht hq hs
  | cluster hb hc => exact .cluster hb (cluster_rename hc)
  | clusterSep hb hc => exact .clusterSep hb (cluster_rename hc)
  | @sub i d st k v toks hv hp =>
    obtain ⟨i', h, _⟩ := renameRoot_cons b i d st
    simp only [renameRoot_cons2, h]
    exact .sub hv hp
  | @positional i d st k tok x toks hp hns hx =>
    obtain ⟨i', h, _⟩ := renameRoot_cons b i d st
    simp only [h, ← renameRoot_length b st]
    exact .positional hp hns hx
  | dashdash => exact .dashdash
  | @last i d st k tok x toks hx =>
    obtain ⟨i', h, _⟩ := renameRoot_cons b i d st
    simp only [h, ← renameRoot_length b st]
    exact .last hx
  | @dashed i d st k tok x toks hl hx =>
    obtain ⟨i', h, _⟩ := renameRoot_cons b i d st
    simp only [h, ← renameRoot_length b st]
    exact .dashed hl hx
  | @trailing i d st k tok j toks =>
    obtain ⟨i', h, _⟩ := renameRoot_cons b i d st
    simp only [h, ← renameRoot_length b st]
    exact .trailing

theorem steps_rename {b : Str} {κ κ' : Ctx V} {toks rest : List Bytes} {evs : List Event} (h : Steps cx κ toks evs κ' rest) :
    Steps cx (renameCtx b κ) toks evs (renameCtx b κ') rest := by
  induction h with
  | refl => exact .refl
  | step h _ ih => exact .step (step_rename h) ih

theorem start_rename (a b : Bytes) (d : ArgsDef V) : renameCtx (progName b) (start a d) = start b d := rfl

/-- Another program name in an error: only help texts contain it. -/
def renameErr (st st' : List (Entry V)) (e : Error) : Error := if e = helpRequest st then helpRequest st' else e

theorem renameErr_other {st st' : List (Entry V)} {e : Error} (h : e.kind ≠ .help) : renameErr st st' e = e := by
  unfold renameErr
  rw [if_neg]
  intro he
  rw [he] at h
  exact h rfl

theorem renameErr_help {st st' : List (Entry V)} : renameErr st st' (helpRequest st) = helpRequest st' := if_pos rfl

theorem clusterStuck_rename {b : Str} {st : List (Entry V)} {next : Option Bytes} {s : Bytes} {evs : List Event} {e : Error}
    (h : ClusterStuck cx st next s evs e) :
    ClusterStuck cx (renameRoot b st) next s evs (renameErr st (renameRoot b st) e) := by
  induction h with
  | more hr ht hq hne heq _ ih => exact .more (resolves_rename.2 hr) ht hq hne heq ih
  | unknown hu hc => rw [renameErr_other (by simp [unexpected])]; exact .unknown (unknown_rename.2 hu) hc
  | help hu => rw [renameErr_help]; exact .help (unknown_rename.2 hu)
  | invalid hne hb => rw [renameErr_other (by simp [unexpected])]; exact .invalid hne hb
  | missingEqAttached hr hq hne heq =>
    rw [renameErr_other (by rw [about_kind]; simp)]; exact .missingEqAttached (resolves_rename.2 hr) hq hne heq
  | missingEq hr ht hq => rw [renameErr_other (by rw [about_kind]; simp)]; exact .missingEq (resolves_rename.2 hr) ht hq
  | missingValue hr ht hq hn => rw [renameErr_other (by rw [about_kind]; simp)]; exact .missingValue (resolves_rename.2 hr) ht hq hn
  | flagValue hr hk => rw [renameErr_other (by rw [about_kind]; simp)]; exact .flagValue (resolves_rename.2 hr) hk
  | optionalValue hr hk => rw [renameErr_other (by simp [unexpected])]; exact .optionalValue (resolves_rename.2 hr) hk

theorem surplus_kind (d : ArgsDef V) (tok : Bytes) : (surplus d tok).kind ≠ .help := by
  unfold surplus
  simp only
  split <;> simp

theorem stuck_rename {b : Str} {κ : Ctx V} {toks : List Bytes} {evs : List Event} {e : Error} (h : Stuck cx κ toks evs e) :
    Stuck cx (renameCtx b κ) toks evs (renameErr κ.stack (renameRoot b κ.stack) e) := by
  unfold renameCtx
  cases h with
  | longUnknown hd hne hn ht hu hh =>
    rw [renameErr_other (by simp [unexpected])]
    exact .longUnknown hd hne hn ht (fun n h => unknown_rename.2 (hu n h)) hh
  | longHelp ht hu => rw [renameErr_help]; exact .longHelp ht (unknown_rename.2 hu)
  | flagValue hr hn hk => rw [renameErr_other (by rw [about_kind]; simp)]; exact .flagValue (resolves_rename.2 hr) hn hk
  | missingEq hr hn hne ht hq => rw [renameErr_other (by rw [about_kind]; simp)]; exact .missingEq (resolves_rename.2 hr) hn hne ht hq
  | missingValue hr hn hne ht hq hv =>
    rw [renameErr_other (by rw [about_kind]; simp)]; exact .missingValue (resolves_rename.2 hr) hn hne ht hq hv
  | cluster hb hc => exact .cluster hb (clusterStuck_rename hc)
  | @surplus i d st k tok toks hp hns hx =>
    rw [renameErr_other (surplus_kind d tok)]
    obtain ⟨i', h, _⟩ := renameRoot_cons b i d st
    simp only [h]
    exact .surplus hp hns hx
  | @dashed i d st k tok toks hl hx =>
    rw [renameErr_other (surplus_kind d tok)]
    obtain ⟨i', h, _⟩ := renameRoot_cons b i d st
    simp only [h]
    exact .dashed hl hx

theorem halts_rename {b : Str} {κ κ' : Ctx V} {toks : List Bytes} {evs : List Event} {e : Error} (h : Halts cx κ toks evs κ' e) :
    Halts cx (renameCtx b κ) toks evs (renameCtx b κ') (renameErr κ'.stack (renameRoot b κ'.stack) e) := by
  obtain ⟨evs1, evs2, rest, h1, h2, h3⟩ := h
  exact ⟨evs1, evs2, rest, steps_rename h1, stuck_rename h2, h3⟩

theorem firstBad_rename {b : Str} {st : List (Entry V)} {log evs : List Event} {e : Error} (h : FirstBad st log evs e) :
    FirstBad (renameRoot b st) log evs e := by
  obtain ⟨pre, a, o, post, f, e0, h1, h2, h3, h4, h5⟩ := h
  exact ⟨pre, a, o, post, f, e0, h1, by rw [fieldAt_rename]; exact h2, fun b' g hg => h3 b' g (by rw [fieldAt_rename] at hg; exact hg), h4, h5⟩

theorem acceptable_rename {b : Str} {st : List (Entry V)} {evs : List Event} (h : Acceptable st evs) :
    Acceptable (renameRoot b st) evs := by
  intro a f hf
  rw [fieldAt_rename] at hf
  exact h a f hf

theorem cmdline_rename (a b : Str) (i : CmdId) (d : ArgsDef V) (inner : List (Entry V)) (h : i.name = a) :
    ∃ post, cmdline (inner ++ [(i, d)]) = ' ' :: a ++ post ∧ cmdline (renameRoot b (inner ++ [(i, d)])) = ' ' :: b ++ post := by
  induction inner with
  | nil => exact ⟨[], by simp [cmdline, h], by simp [cmdline, renameRoot]⟩
  | cons x inner ih =>
    obtain ⟨post, h1, h2⟩ := ih
    refine ⟨post ++ ' ' :: x.1.name, ?_, ?_⟩
    · rw [List.cons_append, cmdline, h1]; simp
    · obtain ⟨i', h3, _, h4⟩ := renameRoot_cons b x.1 x.2 (inner ++ [(i, d)])
      rw [h4 (by simp)] at h3
      rw [List.cons_append, h3, cmdline, h2]
      simp

end Palc
