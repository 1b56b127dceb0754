import Verif.Lemmas.Run
/-!
# An executable reader

Computes readings according to the grammar of `Verif/Spec.lean` for ASCII option names, for use in examples: a computed
reading is a reading (`read_sound`).
-/

namespace Palc

open Spec

variable {V : Type}

instance (b : Bytes) : Decidable (Plain b) := by unfold Plain; infer_instance
instance (f : FieldInfo V) (b : Bytes) : Decidable (Standalone f b) := by unfold Standalone; infer_instance

def resolveC (cx : Cx V) (st : List (Entry V)) (n : Name) : Option (Addr × FieldInfo V) :=
  (visible st).find? (fun x => declares cx x.2 n)

/-- Reads what follows the '-' of a cluster of short options. -/
def readCluster (cx : Cx V) (st : List (Entry V)) (next : Option Bytes) : Bytes → Option (List Event × Bool)
  | [] => none
  | b0 :: r =>
    if encChar (Char.ofNat b0.toNat) = [b0] then
      match resolveC cx st (.short (Char.ofNat b0.toNat)) with
      | none => none
      | some (a, f) =>
        if takesValue f then
          match r with
          | [] =>
            match next with
            | some v => if f.src.requireEquals = false ∧ Standalone f v then some ([(a, some v)], true) else none
            | none => none
          | x :: v =>
            if x = eqSign then some ([(a, some v)], false)
            else if f.src.requireEquals then none
            else some ([(a, some (x :: v))], false)
        else if r = [] then some ([(a, none)], false)
        else if f.src.requireEquals = false ∧ r.head? ≠ some eqSign then
          match readCluster cx st next r with
          | some (evs, took) => some ((a, none) :: evs, took)
          | none => none
        else none
    else none

/-- Reads one argument, and tells if the next one was used as a value. -/
def readStep (cx : Cx V) (κ : Ctx V) (tok : Bytes) (next : Option Bytes) : Option (List Event × Ctx V × Bool) :=
  match κ.stack, κ.mode with
  | [], _ => none
  | (_, _) :: st, .trailing j => some ([(⟨st.length, 0, j⟩, some tok)], κ, false)
  | (i, d) :: st, .dashed =>
    match lastArg d with
    | some x => some ([(⟨st.length, 0, x.2⟩, some tok)], κ, false)
    | none =>
      match posTarget d κ.npos with
      | some x => some ([(⟨st.length, 0, x.2⟩, some tok)], ⟨(i, d) :: st, κ.npos + 1, modeAfter x .dashed⟩, false)
      | none => none
  | (i, d) :: st, .opts =>
    if Plain tok then
      match (subVariants d).find? (fun v => decide (enc v.name = tok)) with
      | some _ =>
        match searched d tok with
        | some v =>
          if enc v.name = tok then some ([], ⟨(⟨variantIdent v, v.name⟩, variantDef v) :: (i, d) :: st, 0, .opts⟩, false)
          else none
        | none => none
      | none =>
        match posTarget d κ.npos with
        | some x => some ([(⟨st.length, 0, x.2⟩, some tok)], ⟨(i, d) :: st, κ.npos + 1, modeAfter x .opts⟩, false)
        | none => none
    else if tok = [dash, dash] then some ([], ⟨κ.stack, κ.npos, .dashed⟩, false)
    else
      match tok with
      | b0 :: b1 :: r =>
        if b0 = dash then
          if b1 = dash then
            let n := ((r.takeWhile (fun b => b != eqSign)).map (fun b => Char.ofNat b.toNat))
            match resolveC cx κ.stack (.long n) with
            | none => none
            | some (a, f) =>
              if '=' ∈ n ∨ n = [] then none
              else if dash :: dash :: r = enc ('-' :: '-' :: n) then
                if takesValue f then
                  match next with
                  | some v =>
                    if f.src.requireEquals = false ∧ Standalone f v then some ([(a, some v)], κ, true) else none
                  | none => none
                else some ([(a, none)], κ, false)
              else
                match r.dropWhile (fun b => b != eqSign) with
                | _ :: v =>
                  if dash :: dash :: r = enc ('-' :: '-' :: n) ++ eqSign :: v ∧ f.kind ≠ .bool then some ([(a, some v)], κ, false)
                  else none
                | [] => none
          else
            match readCluster cx κ.stack next (b1 :: r) with
            | some (evs, took) => some (evs, κ, took)
            | none => none
        else none
      | _ => none

/-- Reads arguments. -/
def read (cx : Cx V) : List Bytes → Ctx V → Option (List Event × Ctx V)
  | [], κ => some ([], κ)
  | tok :: toks, κ =>
    match readStep cx κ tok toks.head? with
    | none => none
    | some (evs, κ1, false) =>
      match read cx toks κ1 with
      | some (evs', κ') => some (evs ++ evs', κ')
      | none => none
    | some (evs, κ1, true) =>
      match toks with
      | [] => none
      | _ :: toks =>
        match read cx toks κ1 with
        | some (evs', κ') => some (evs ++ evs', κ')
        | none => none

theorem readCluster_sound {cx : Cx V} {st : List (Entry V)} {next : Option Bytes} {b : Bytes} {evs : List Event} {took : Bool}
    (h : readCluster cx st next b = some (evs, took)) :
    Cluster cx st next b evs took ∧ (took = true → ∃ v, next = some v) := by
  induction b generalizing evs took with
  | nil => simp [readCluster] at h
  | cons b0 r ih =>
    rw [readCluster] at h
    split at h
    · rename_i hb
      split at h
      · simp at h
      · rename_i a f hr
        have hcons : b0 :: r = encChar (Char.ofNat b0.toNat) ++ r := by rw [hb]; rfl
        split at h
        · rename_i ht
          split at h
          · split at h
            · rename_i v
              split at h
              · rename_i hc
                cases h
                rw [hcons, List.append_nil]
                exact ⟨.sep hr ht hc.1 rfl hc.2, fun _ => ⟨_, rfl⟩⟩
              · simp at h
            · simp at h
          · rename_i x v
            split at h
            · rename_i hx
              cases h
              rw [hcons, hx]
              exact ⟨.eq hr ht, by simp⟩
            · rename_i hx
              split at h
              · simp at h
              · rename_i hq
                cases h
                rw [hcons]
                exact ⟨.attached hr ht (by simpa using hq) (by simp) (by simpa using hx), by simp⟩
        · rename_i ht
          have ht : takesValue f = false := by simpa using ht
          split at h
          · rename_i hr0
            cases h
            subst hr0
            rw [hcons, List.append_nil]
            exact ⟨.bare hr ht, by simp⟩
          · rename_i hne
            split at h
            · rename_i hc
              split at h
              · rename_i evs' took' h'
                cases h
                obtain ⟨h1, h2⟩ := ih h'
                rw [hcons]
                exact ⟨.more hr ht hc.1 hne hc.2 h1, h2⟩
              · simp at h
            · simp at h
    · simp at h

theorem readStep_sound {cx : Cx V} {κ : Ctx V} {tok : Bytes} {toks : List Bytes} {evs : List Event} {κ1 : Ctx V}
    {took : Bool} (h : readStep cx κ tok toks.head? = some (evs, κ1, took)) :
    Step cx κ (tok :: toks) evs κ1 (if took then toks.tail else toks) ∧ (took = true → toks ≠ []) := by
  obtain ⟨st, k, mode⟩ := κ
  unfold readStep at h
  simp only at h
  split at h
  · simp at h
  · cases h; exact ⟨.trailing, by simp⟩
  · split at h
    · rename_i x hx
      cases h; exact ⟨.last hx, by simp⟩
    · rename_i hl
      split at h
      · rename_i x hx
        cases h; exact ⟨.dashed hl hx, by simp⟩
      · simp at h
  · rename_i i d st'
    split at h
    · rename_i hp
      split at h
      · split at h
        · rename_i v hv
          split at h
          · rename_i h1
            cases h
            subst h1
            exact ⟨.sub ⟨searched_mem hv, .inr hv⟩ hp, by simp⟩
          · cases h
        · cases h
      · rename_i hv
        split at h
        · rename_i x hx
          cases h
          refine ⟨.positional hp ?_ hx, by simp⟩
          intro v hm he
          have := List.find?_eq_none.1 hv v hm
          simp [he] at this
        · simp at h
    · split at h
      · rename_i ht
        cases h; subst ht; exact ⟨.dashdash, by simp⟩
      · split at h
        · rename_i b0 b1 r
          split at h
          · rename_i hb0
            subst hb0
            split at h
            · rename_i hb1
              subst hb1
              split at h
              · simp at h
              · rename_i a f hr
                split at h
                · simp at h
                · rename_i hne
                  obtain ⟨hn1, hn2⟩ := not_or.1 hne
                  split at h
                  · rename_i htok
                    rw [htok]
                    split at h
                    · rename_i ht
                      cases toks with
                      | nil => simp at h
                      | cons v toks =>
                        simp only [List.head?_cons] at h
                        split at h
                        · rename_i hc
                          cases h
                          exact ⟨.longSep hr hn1 hn2 ht hc.1 hc.2, by simp⟩
                        · simp at h
                    · rename_i ht
                      cases h
                      exact ⟨.longBare hr hn1 hn2 (by simpa using ht), by simp⟩
                  · split at h
                    · split at h
                      · rename_i hc
                        cases h
                        rw [hc.1]
                        exact ⟨.longEq hr hn1 hc.2, by simp⟩
                      · simp at h
                    · simp at h
            · rename_i hb1
              split at h
              · rename_i evs' took' hc
                cases h
                obtain ⟨h1, h2⟩ := readCluster_sound hc
                cases took with
                | false => exact ⟨.cluster (by simpa using hb1) h1, by simp⟩
                | true =>
                  obtain ⟨v, hv⟩ := h2 rfl
                  cases toks with
                  | nil => simp at hv
                  | cons x toks => exact ⟨.clusterSep (by simpa using hb1) h1, by simp⟩
              · simp at h
          · simp at h
        · simp at h

theorem read_steps {cx : Cx V} : (toks : List Bytes) → {κ κ' : Ctx V} → {evs : List Event} →
    read cx toks κ = some (evs, κ') → Steps cx κ toks evs κ' []
  | [], κ, κ', evs, h => by
    rw [read] at h; cases h; exact .refl
  | tok :: toks, κ, κ', evs, h => by
    rw [read] at h
    split at h
    · simp at h
    · rename_i evs1 κ1 hs
      split at h
      · rename_i evs2 κ2 h2
        cases h
        exact .step (readStep_sound hs).1 (read_steps toks h2)
      · simp at h
    · rename_i evs1 κ1 hs
      cases toks with
      | nil => simp at h
      | cons v toks =>
        simp only at h
        split at h
        · rename_i evs2 κ2 h2
          cases h
          exact .step (readStep_sound hs).1 (read_steps toks h2)
        · simp at h

/-- A computed reading is a reading. -/
theorem read_sound {cx : Cx V} {toks : List Bytes} {κ κ' : Ctx V} {evs : List Event} (h : read cx toks κ = some (evs, κ')) :
    Reads cx κ toks evs κ' := reads_iff_steps.2 (read_steps toks h)

end Palc
