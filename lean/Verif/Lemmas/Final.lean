import Verif.Lemmas.Parsed
import Verif.Lemmas.After
/-!
# Which errors do not depend on what follows
-/

namespace Palc

open Spec

variable {V : Type} {cx : Cx V}

/-- A cluster at the end of the arguments that cannot be read: a next argument changes nothing, or the cluster ends in an option that takes
the next argument as its value if it can. -/
theorem clusterStuck_next {st : List (Entry V)} {b : Bytes} {evs : List Event} {e : Error} (h : ClusterStuck cx st none b evs e) :
    (∀ v, ClusterStuck cx st (some v) b evs e)
    ∨ ∃ a f, fieldAt st a = some f ∧ e = { kind := .missingValue, argDesc := some f.description }
      ∧ ∀ v, (Standalone f v → Cluster cx st (some v) b (evs ++ [(a, some v)]) true)
        ∧ (¬ Standalone f v → ClusterStuck cx st (some v) b evs e) := by
  induction h with
  | more hr ht hq hne heq _ ih =>
    rcases ih with ih | ⟨a, f, h1, h2, ih⟩
    · exact .inl fun v => .more hr ht hq hne heq (ih v)
    · exact .inr ⟨a, f, h1, h2, fun v => ⟨fun hs => .more hr ht hq hne heq ((ih v).1 hs), fun hs => .more hr ht hq hne heq ((ih v).2 hs)⟩⟩
  | unknown hu hc => exact .inl fun _ => .unknown hu hc
  | help hu => exact .inl fun _ => .help hu
  | invalid hne hb => exact .inl fun _ => .invalid hne hb
  | missingEqAttached hr hq hne heq => exact .inl fun _ => .missingEqAttached hr hq hne heq
  | missingEq hr ht hq => exact .inl fun _ => .missingEq hr ht hq
  | @missingValue c a f hr ht hq hn =>
    refine .inr ⟨a, f, resolves_fieldAt hr, by rw [about, if_pos (declares_option (resolves_declares hr))], fun v => ⟨fun hs => .sep hr ht hq rfl hs, fun hs => ?_⟩⟩
    exact .missingValue hr ht hq (fun w hw => by cases hw; exact hs)
  | flagValue hr hk => exact .inl fun _ => .flagValue hr hk
  | optionalValue hr hk => exact .inl fun _ => .optionalValue hr hk

/-- Arguments that cannot be read still cannot if more follow, unless there is only one of them: an option waiting for its value. -/
theorem stuck_append {κ : Ctx V} {toks : List Bytes} {evs : List Event} {e : Error} (h : Stuck cx κ toks evs e) :
    (∀ v post, Stuck cx κ (toks ++ v :: post) evs e)
    ∨ (∃ t, toks = [t]) ∧ ∃ a f, fieldAt κ.stack a = some f ∧ e = { kind := .missingValue, argDesc := some f.description }
      ∧ ∀ v, (Standalone f v → ∀ post, Step cx κ (toks ++ v :: post) (evs ++ [(a, some v)]) κ post)
        ∧ (¬ Standalone f v → ∀ post, Stuck cx κ (toks ++ v :: post) evs e) := by
  cases h with
  | longUnknown hd hne hn ht hu hh => exact .inl fun _ _ => .longUnknown hd hne hn ht hu hh
  | longHelp ht hu => exact .inl fun _ _ => .longHelp ht hu
  | flagValue hr hn hk => exact .inl fun _ _ => .flagValue hr hn hk
  | missingEq hr hn hne ht hq => exact .inl fun _ _ => .missingEq hr hn hne ht hq
  | @missingValue st k n a f toks hr hn hne ht hq hv =>
    cases toks with
    | cons w toks => exact .inl fun _ _ => .missingValue hr hn hne ht hq (fun x hx => hv x (by simpa using hx))
    | nil =>
      refine .inr ⟨⟨_, rfl⟩, a, f, resolves_fieldAt hr, by rw [about, if_pos (declares_option (resolves_declares hr))],
        fun v => ⟨fun hs _ => .longSep hr hn hne ht hq hs, fun hs _ => ?_⟩⟩
      exact .missingValue hr hn hne ht hq (fun w hw => by cases hw; exact hs)
  | @cluster st k b toks evs e hb hc =>
    cases toks with
    | cons w toks => exact .inl fun _ _ => .cluster hb hc
    | nil =>
      rcases clusterStuck_next hc with h | ⟨a, f, h1, h2, h⟩
      · exact .inl fun v _ => .cluster hb (h v)
      · exact .inr ⟨⟨_, rfl⟩, a, f, h1, h2, fun v => ⟨fun hs _ => .clusterSep hb ((h v).1 hs), fun hs _ => .cluster hb ((h v).2 hs)⟩⟩
  | surplus hp hns hx => exact .inl fun _ _ => .surplus hp hns hx
  | dashed hl hx => exact .inl fun _ _ => .dashed hl hx

theorem firstBad_append {st : List (Entry V)} {log evs : List Event} {e : Error} (h : FirstBad st log evs e) (more : List Event) :
    FirstBad st log (evs ++ more) e := by
  obtain ⟨pre, a, o, post, f, e0, h1, h2⟩ := h
  exact ⟨pre, a, o, post ++ more, f, e0, by rw [h1]; simp, h2⟩

/-- A struct of an entered command, by address. -/
theorem fieldAt_of_struct {pre outer : List (Entry V)} {i : CmdId} {d : ArgsDef V} {k n : Nat} {c : Core V} {f : FieldInfo V}
    (hc : (structs d)[k]? = some c) (hf : c.fields[n]? = some f) :
    fieldAt (pre ++ (i, d) :: outer) ⟨outer.length, k, n⟩ = some f := by
  rw [fieldAt_ext (by simp)]
  simp [fieldAt, hc, hf]

end Palc
