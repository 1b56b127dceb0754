import Verif.SpecWrite
import Verif.Lemmas.Exchange
import Verif.Lemmas.Parsed
/-! Lemmas on plainly written command lines. -/

namespace Palc

open Spec

variable {V : Type} {cx : Cx V}

theorem takes_none {f : FieldInfo V} {n : Name} : Takes f n none ↔ takesValue f = false := by
  unfold Takes takesValue
  cases n <;> cases f.kind <;> simp

theorem takes_short {f : FieldInfo V} {c : Char} {v : Bytes} : Takes f (.short c) (some v) ↔ takesValue f = true := by
  unfold Takes takesValue
  cases f.kind <;> simp

/-- One plainly written option is read as its occurrence. -/
theorem option_step {st : List (Entry V)} (hwf : StackWF cx st) {w : Written} {a : Addr} (hw : Means cx st w a) (k : Nat) (post : Toks) :
    Step cx ⟨st, k, .opts⟩ (optToken w.1 w.2 :: post) [(a, w.2)] ⟨st, k, .opts⟩ post := by
  obtain ⟨n, v⟩ := w
  obtain ⟨f, hr, ht⟩ := hw
  dsimp only at hr ht ⊢
  cases n with
  | long n =>
    obtain ⟨hne, hneq⟩ := hwf.long hr
    cases v with
    | some v => exact .longEq hr hneq ht
    | none => exact .longBare hr hneq hne (takes_none.1 ht)
  | short c =>
    obtain ⟨hc1, _⟩ := hwf.short hr
    have hd : ∀ t, enc (lit "-" ++ [c]) ++ t = dash :: (encChar c ++ t) := by
      intro t
      show enc ('-' :: [c]) ++ t = _
      rw [enc_cons, enc_cons, enc_nil, List.append_nil]
      rfl
    cases v with
    | some v =>
      rw [optToken, hd]
      exact .cluster (encChar_head_ne_dash hc1 _) (.eq hr (takes_short.1 ht))
    | none =>
      rw [optToken, ← List.append_nil (enc _), hd]
      exact .cluster (encChar_head_ne_dash hc1 _) (by rw [List.append_nil]; exact .bare hr (takes_none.1 ht))

theorem readsPlain_reads {κ κ' : Ctx V} {toks : Toks} {evs : List Event} (h : ReadsPlain cx κ toks evs κ') :
    StackWF cx κ.stack → Reads cx κ toks evs κ' := by
  induction h with
  | done => intro _; exact .done
  | option hw _ ih => intro hwf; exact step_reads (option_step hwf hw _ _) (ih hwf)
  | sub hv hp _ ih =>
    intro hwf
    exact .sub hv hp (ih (step_wf (κ1 := ⟨_, _, _⟩) (.sub (toks := []) hv hp) hwf))
  | positional hp hns hx _ ih => intro hwf; exact .positional hp hns hx (ih hwf)
  | dashdash _ ih => intro hwf; exact .dashdash (ih hwf)
  | last hx _ ih => intro hwf; exact .last hx (ih hwf)
  | dashed hl hx _ ih => intro hwf; exact .dashed hl hx (ih hwf)
  | trailing _ ih => intro hwf; exact .trailing (ih hwf)

theorem cluster_plain {st : List (Entry V)} {next : Option Bytes} {b : Bytes} {evs : List Event} {took : Bool}
    (h : Cluster cx st next b evs took) :
    ∃ ts, ∀ k toks evs' κ', ReadsPlain cx ⟨st, k, .opts⟩ toks evs' κ' → ReadsPlain cx ⟨st, k, .opts⟩ (ts ++ toks) (evs ++ evs') κ' := by
  induction h with
  | @bare c a f hr ht =>
    exact ⟨[optToken (.short c) none], fun k toks evs' κ' h => .option (w := (.short c, none)) ⟨f, hr, takes_none.2 ht⟩ h⟩
  | @more c a f rest evs took hr ht hq hne heq h ih =>
    obtain ⟨ts, hts⟩ := ih
    exact ⟨optToken (.short c) none :: ts, fun k toks evs' κ' h =>
      .option (w := (.short c, none)) ⟨f, hr, takes_none.2 ht⟩ (hts k toks evs' κ' h)⟩
  | @eq c a f v hr ht =>
    exact ⟨[optToken (.short c) (some v)], fun k toks evs' κ' h => .option (w := (.short c, some v)) ⟨f, hr, takes_short.2 ht⟩ h⟩
  | @attached c a f v hr ht hq hne heq =>
    exact ⟨[optToken (.short c) (some v)], fun k toks evs' κ' h => .option (w := (.short c, some v)) ⟨f, hr, takes_short.2 ht⟩ h⟩
  | @sep c a f v hr ht hq hn hs =>
    exact ⟨[optToken (.short c) (some v)], fun k toks evs' κ' h => .option (w := (.short c, some v)) ⟨f, hr, takes_short.2 ht⟩ h⟩

theorem reads_plain {κ κ' : Ctx V} {toks : Toks} {evs : List Event} (h : Reads cx κ toks evs κ') :
    ∃ toks', ReadsPlain cx κ toks' evs κ' := by
  induction h with
  | done => exact ⟨[], .done⟩
  | @longEq st k n v a f toks evs κ' hr hn ht h ih =>
    obtain ⟨ts, hts⟩ := ih
    exact ⟨_, .option (w := (.long n, some v)) ⟨f, hr, ht⟩ hts⟩
  | @longBare st k n a f toks evs κ' hr hn hne ht h ih =>
    obtain ⟨ts, hts⟩ := ih
    exact ⟨_, .option (w := (.long n, none)) ⟨f, hr, takes_none.2 ht⟩ hts⟩
  | @longSep st k n v a f toks evs κ' hr hn hne ht hq hs h ih =>
    obtain ⟨ts, hts⟩ := ih
    refine ⟨_, .option (w := (.long n, some v)) ⟨f, hr, ?_⟩ hts⟩
    intro hk
    simp [takesValue, hk] at ht
  | cluster hb hc h ih =>
    obtain ⟨ts, hts⟩ := ih
    obtain ⟨cs, hcs⟩ := cluster_plain hc
    exact ⟨_, hcs _ _ _ _ hts⟩
  | clusterSep hb hc h ih =>
    obtain ⟨ts, hts⟩ := ih
    obtain ⟨cs, hcs⟩ := cluster_plain hc
    exact ⟨_, hcs _ _ _ _ hts⟩
  | sub hv hp h ih => obtain ⟨ts, hts⟩ := ih; exact ⟨_, .sub hv hp hts⟩
  | positional hp hns hx h ih => obtain ⟨ts, hts⟩ := ih; exact ⟨_, .positional hp hns hx hts⟩
  | dashdash h ih => obtain ⟨ts, hts⟩ := ih; exact ⟨_, .dashdash hts⟩
  | last hx h ih => obtain ⟨ts, hts⟩ := ih; exact ⟨_, .last hx hts⟩
  | dashed hl hx h ih => obtain ⟨ts, hts⟩ := ih; exact ⟨_, .dashed hl hx hts⟩
  | trailing h ih => obtain ⟨ts, hts⟩ := ih; exact ⟨_, .trailing hts⟩

end Palc
