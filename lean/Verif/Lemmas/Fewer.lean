import Verif.Lemmas.Local
import Verif.Lemmas.Violate
import Verif.Lemmas.Parsed
/-!
# Fewer occurrences
-/

namespace Palc

open Spec

variable {V : Type} {cx : Cx V}

/-- Some of the acceptable occurrences of an argument are acceptable. -/
theorem given_fewer {f : FieldInfo V} {os os' : List (Option Bytes)} (h : os'.Sublist os) (hg : given f os ≠ none) : given f os' ≠ none := by
  cases hm : isMulti f with
  | true =>
    rw [given_multi_ne hm] at hg ⊢
    exact fun o ho => hg o (h.subset ho)
  | false =>
    rw [given_single_ne hm] at hg ⊢
    rcases hg with rfl | ⟨o, rfl, hg⟩
    · exact .inl (List.sublist_nil.1 h)
    · cases h with
      | cons _ h => exact .inl (List.sublist_nil.1 h)
      | cons_cons _ h => rw [List.sublist_nil.1 h]; exact .inr ⟨o, rfl, hg⟩

theorem acceptable_fewer {st : List (Entry V)} {evs evs' : List Event} (h : ∀ a, (occs evs' a).Sublist (occs evs a))
    (ha : Acceptable st evs) : Acceptable st evs' := fun a f hf => given_fewer (h a) (ha a f hf)

/-- The beginning of acceptable occurrences is acceptable. -/
theorem acceptable_before {ext st : List (Entry V)} {evs more : List Event} (ha : Acceptable (ext ++ st) (evs ++ more)) : Acceptable st evs := by
  intro a f hf
  have := ha a f (fieldAt_ext_some hf)
  rw [occs_append] at this
  exact given_prefix this

theorem occs_sublist {evs evs' : List Event} (h : evs'.Sublist evs) (a : Addr) : (occs evs' a).Sublist (occs evs a) :=
  (h.filter _).map _

/-- A command line that could be read with acceptable values fails only for a violated constraint or an invalid default. -/
theorem read_fails {d : ArgsDef V} {argv0 : Bytes} {toks : List Bytes} {evs : List Event} {κ : Ctx V} {x : Fail}
    (hr : Reads cx (start argv0 d) toks evs κ) (ha : Acceptable κ.stack evs) (h : Rejects cx d argv0 toks x) :
    allFail evs κ.stack false = some x := by
  have hbad : ∀ {evs1 : List Event} {κ1 : Ctx V} {rest : List Bytes} {e : Error}, Steps cx (start argv0 d) toks evs1 κ1 rest →
      FirstBad κ1.stack [] evs1 e → False := by
    intro evs1 κ1 rest e hs hb
    obtain ⟨more, rfl, hr'⟩ := steps_reads_det hs hr
    obtain ⟨ext, he⟩ := steps_stack (reads_steps hr')
    rw [he] at ha
    exact hb.not_acceptable (acceptable_before ha)
  cases h with
  | value hs hb => exact (hbad hs hb).elim
  | valueStuck hh _ => exact (reads_not_halts hr hh).elim
  | stuck hh _ => exact (reads_not_halts hr hh).elim
  | invalid hr' _ hf =>
    obtain ⟨rfl, rfl⟩ := reads_det hr' hr
    exact hf

end Palc
