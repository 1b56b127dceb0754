import Verif.Lemmas.Commute
import Verif.Lemmas.Exchange
import Verif.Lemmas.Visible
/-!
# Options on both sides of a subcommand name
-/

namespace Palc

open Spec

variable {V : Type} {cx : Cx V}

/-- Nothing leads back from behind `--`. -/
theorem reads_behind {κ κ' : Ctx V} {toks : List Bytes} {evs : List Event} (h : Reads cx κ toks evs κ') (hm : κ.mode ≠ .opts) :
    κ'.mode ≠ .opts := by
  have hma : ∀ {x : FieldInfo V × Nat}, modeAfter x .dashed ≠ .opts := by
    intro x
    unfold modeAfter
    split <;> simp
  induction h with
  | done => exact hm
  | last _ _ ih => exact ih (by simp)
  | dashed _ _ _ ih => exact ih hma
  | trailing _ ih => exact ih (by simp)
  | _ => exact absurd rfl hm

/-- The positional counter does not decrease within a command. -/
theorem reads_counter {κ κ' : Ctx V} {toks : List Bytes} {evs : List Event} (h : Reads cx κ toks evs κ')
    (hl : κ'.stack.length = κ.stack.length) : κ.npos ≤ κ'.npos := by
  induction h with
  | done => exact Nat.le_refl _
  | sub _ _ h _ =>
    obtain ⟨ext, he⟩ := steps_stack (reads_steps h)
    rw [he] at hl
    simp at hl
    omega
  | positional _ _ _ _ ih => exact Nat.le_of_succ_le (ih hl)
  | dashed _ _ _ ih => exact Nat.le_of_succ_le (ih hl)
  | _ => rename_i ih; exact ih hl

theorem cluster_elsewhere {st st' : List (Entry V)} {next : Option Bytes} {b : Bytes} {evs : List Event} {took : Bool}
    (h : Cluster cx st next b evs took)
    (hm : ∀ x ∈ evs, ∀ (n : Name) (f : FieldInfo V), Resolves cx st n x.1 f → Resolves cx st' n x.1 f) :
    Cluster cx st' next b evs took := by
  induction h with
  | bare hr ht => exact .bare (hm _ List.mem_cons_self _ _ hr) ht
  | more hr ht hq hne heq _ ih =>
    exact .more (hm _ List.mem_cons_self _ _ hr) ht hq hne heq (ih fun x hx => hm x (List.mem_cons_of_mem _ hx))
  | eq hr ht => exact .eq (hm _ List.mem_cons_self _ _ hr) ht
  | attached hr ht hq hne heq => exact .attached (hm _ List.mem_cons_self _ _ hr) ht hq hne heq
  | sep hr ht hq hn hs => exact .sep (hm _ List.mem_cons_self _ _ hr) ht hq hn hs

/-- Options are read in the same way wherever their names refer to the same arguments. -/
theorem reads_elsewhere {st st' : List (Entry V)} {k k' : Nat} {κ κ' : Ctx V} {toks : List Bytes} {evs : List Event} (h : Reads cx κ toks evs κ')
    (e : κ = ⟨st, k, .opts⟩) (e' : κ' = ⟨st, k, .opts⟩)
    (hm : ∀ x ∈ evs, ∀ (n : Name) (f : FieldInfo V), Resolves cx st n x.1 f → Resolves cx st' n x.1 f) :
    Reads cx ⟨st', k', .opts⟩ toks evs ⟨st', k', .opts⟩ := by
  induction h with
  | done => exact .done
  | longEq hr hn ht _ ih =>
    cases e
    exact .longEq (hm _ List.mem_cons_self _ _ hr) hn ht (ih rfl e' fun x hx => hm x (List.mem_cons_of_mem _ hx))
  | longBare hr hn hne ht _ ih =>
    cases e
    exact .longBare (hm _ List.mem_cons_self _ _ hr) hn hne ht (ih rfl e' fun x hx => hm x (List.mem_cons_of_mem _ hx))
  | longSep hr hn hne ht hq hs _ ih =>
    cases e
    exact .longSep (hm _ List.mem_cons_self _ _ hr) hn hne ht hq hs (ih rfl e' fun x hx => hm x (List.mem_cons_of_mem _ hx))
  | cluster hb hc _ ih =>
    cases e
    exact .cluster hb (cluster_elsewhere hc fun x hx => hm x (List.mem_append_left _ hx))
      (ih rfl e' fun x hx => hm x (List.mem_append_right _ hx))
  | clusterSep hb hc _ ih =>
    cases e
    exact .clusterSep hb (cluster_elsewhere hc fun x hx => hm x (List.mem_append_left _ hx))
      (ih rfl e' fun x hx => hm x (List.mem_append_right _ hx))
  | sub _ _ h _ =>
    cases e
    obtain ⟨ext, he⟩ := steps_stack (reads_steps h)
    have := congrArg List.length he
    rw [e'] at this
    simp at this
    omega
  | positional _ _ _ h _ =>
    cases e
    have := reads_counter h (by rw [e'])
    rw [e'] at this
    simp at this
    omega
  | dashdash h _ => exact absurd (by rw [e']) (reads_behind h (by simp))
  | last _ _ _ => cases e
  | dashed _ _ _ _ => cases e
  | trailing _ _ => cases e

/-- A global argument is still referred to after entering commands that do not declare the name. -/
theorem resolves_below {ext st : List (Entry V)} {n : Name} {a : Addr} {f : FieldInfo V} (h : Resolves cx st n a f)
    (hg : f.src.global = true) (hh : ∀ b g, fieldAt (ext ++ st) b = some g → st.length ≤ b.level → declares cx g n = false) :
    Resolves cx (ext ++ st) n a f := by
  rw [resolves_iff] at h ⊢
  obtain ⟨h1, h2, h3, h4⟩ := h
  refine ⟨fieldAt_ext_some h1, .inr hg, h3, fun b g hb hv hd => ?_⟩
  by_cases hl : b.level < st.length
  · rw [fieldAt_ext hl] at hb
    refine h4 b g hb (hv.imp (fun hv => ?_) id) hd
    rw [List.length_append] at hv
    omega
  · rw [hh b g hb (by omega)] at hd
    cases hd

/-- What a name refers to in an enclosing command, it refers to in that command itself, unless that has an argument of this name which
is not global. -/
theorem resolves_above {ext st : List (Entry V)} {n : Name} {a : Addr} {f : FieldInfo V} (h : Resolves cx (ext ++ st) n a f)
    (hl : a.level < st.length) (hh : ∀ b g, fieldAt st b = some g → b.level + 1 = st.length → declares cx g n = true → g.src.global = true) :
    Resolves cx st n a f := by
  rw [resolves_iff] at h ⊢
  obtain ⟨h1, h2, h3, h4⟩ := h
  rw [fieldAt_ext hl] at h1
  refine ⟨h1, h2.imp (fun h2 => ?_) id, h3, fun b g hb hv hd => h4 b g (fieldAt_ext_some hb) (.inr (hv.elim (fun hv => hh b g hb hv hd) id)) hd⟩
  rw [List.length_append] at h2
  omega

end Palc
