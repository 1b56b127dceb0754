import Verif.Derive
import Verif.Lemmas.Split
/-!
# Doc comments (C48)
-/

namespace Palc

/-- White space: space, tab, line feed, form feed, carriage return. -/
def White (c : Char) : Bool := [' ', '\t', '\n', Char.ofNat 12, '\r'].contains c

theorem ascii_white : isAsciiWs = White := by
  funext c
  rw [Bool.eq_iff_iff]
  simp [isAsciiWs, White, or_assoc]

/-! ## Trimming -/

theorem dropWhile_split (s : Str) : ∃ pre, s = pre ++ s.dropWhile White ∧ (∀ c ∈ pre, White c = true)
    ∧ ∀ c, (s.dropWhile White).head? = some c → White c = false := by
  induction s with
  | nil => exact ⟨[], by simp⟩
  | cons x s ih =>
    by_cases h : White x = true
    · obtain ⟨pre, h1, h2, h3⟩ := ih
      rw [List.dropWhile_cons_of_pos h]
      refine ⟨x :: pre, by rw [List.cons_append, ← h1], ?_, h3⟩
      intro c hc
      rcases List.mem_cons.1 hc with rfl | hc
      · exact h
      · exact h2 c hc
    · rw [List.dropWhile_cons_of_neg h]
      exact ⟨[], rfl, by simp, by simpa using h⟩

theorem trimEnd_split (s : Str) : ∃ post, s = trimAsciiEnd s ++ post ∧ (∀ c ∈ post, White c = true)
    ∧ ∀ c, (trimAsciiEnd s).getLast? = some c → White c = false := by
  obtain ⟨pre, h1, h2, h3⟩ := dropWhile_split s.reverse
  refine ⟨pre.reverse, ?_, ?_, ?_⟩
  · have := congrArg List.reverse h1
    rw [List.reverse_reverse, List.reverse_append] at this
    simp only [trimAsciiEnd, ascii_white]
    exact this
  · intro c hc; exact h2 c (List.mem_reverse.1 hc)
  · intro c hc
    simp only [trimAsciiEnd, ascii_white] at hc
    rw [List.getLast?_reverse] at hc
    exact h3 c hc

theorem trimEnd_append {s t : Str} (ht : ∀ c ∈ t, White c = true)
    (hs : ∀ c, s.getLast? = some c → White c = false) : trimAsciiEnd (s ++ t) = s := by
  simp only [trimAsciiEnd, ascii_white]
  rw [List.reverse_append, List.dropWhile_append_of_pos (fun c hc => ht c (List.mem_reverse.1 hc))]
  have : s.reverse.dropWhile White = s.reverse := by
    cases hr : s.reverse with
    | nil => rfl
    | cons x r =>
      rw [List.dropWhile_cons_of_neg]
      have := hs x (by rw [← List.head?_reverse, hr]; rfl)
      simp [this]
  rw [this, List.reverse_reverse]

/-- What trimming means: white space is taken off both ends, and nothing else. -/
structure Trimmed (s t : Str) : Prop where
  parts : ∃ pre post, s = pre ++ t ++ post ∧ (∀ c ∈ pre, White c = true) ∧ ∀ c ∈ post, White c = true
  first : ∀ c, t.head? = some c → White c = false
  last : ∀ c, t.getLast? = some c → White c = false

theorem trimAscii_trimmed (s : Str) : Trimmed s (trimAscii s) := by
  obtain ⟨pre, h1, h2, h3⟩ := dropWhile_split s
  obtain ⟨post, h4, h5, h6⟩ := trimEnd_split (s.dropWhile White)
  refine ⟨⟨pre, post, ?_, h2, h5⟩, ?_, by rw [trimAscii, ascii_white]; exact h6⟩
  · simp only [trimAscii, ascii_white]
    rw [List.append_assoc, ← h4, ← h1]
  · intro c hc
    apply h3 c
    rw [h4]
    cases ht : trimAsciiEnd (s.dropWhile White) with
    | nil => simp only [trimAscii, ascii_white] at hc; rw [ht] at hc; cases hc
    | cons x r => simp only [trimAscii, ascii_white] at hc; rw [ht] at hc; simpa using hc

theorem trimmed_unique {s t u : Str} (h1 : Trimmed s t) (h2 : Trimmed s u) : t = u := by
  have key : ∀ {t : Str}, Trimmed s t → trimAscii s = t := by
    rintro t ⟨⟨pre, post, rfl, ha, hb⟩, hf, hl⟩
    simp only [trimAscii, ascii_white]
    rw [List.append_assoc, List.dropWhile_append_of_pos ha]
    cases t with
    | nil =>
      rw [List.nil_append]
      have : post.dropWhile White = [] := by
        rw [← List.append_nil post, List.dropWhile_append_of_pos hb]; rfl
      rw [this]; rfl
    | cons x t =>
      rw [List.cons_append, List.dropWhile_cons_of_neg (by simp [hf x rfl]), ← List.cons_append]
      exact trimEnd_append hb hl
  rw [← key h1, ← key h2]

/-- A line of only white space. -/
def Blank (l : Str) : Prop := ∀ c ∈ l, White c = true

theorem trimAscii_nil_iff {l : Str} : trimAscii l = [] ↔ Blank l := by
  constructor
  · intro h
    obtain ⟨pre, post, he, h1, h2⟩ := (trimAscii_trimmed l).parts
    rw [h] at he
    intro c hc
    rw [he] at hc
    simp only [List.append_nil, List.mem_append] at hc
    rcases hc with hc | hc
    · exact h1 c hc
    · exact h2 c hc
  · intro h
    exact trimmed_unique (trimAscii_trimmed l) ⟨⟨l, [], by simp, h, by simp⟩, by simp, by simp⟩

/-! ## Paragraphs -/

/-- The paragraphs of a doc comment: maximal runs of lines that are not blank, each line trimmed. -/
inductive Paragraphs : List Str → List (List Str) → Prop
  | nil {blanks} (hb : ∀ l ∈ blanks, Blank l) : Paragraphs blanks []
  | cons {blanks ls rest ts ps} (hb : ∀ l ∈ blanks, Blank l) (hne : ls ≠ []) (hl : ∀ l ∈ ls, ¬ Blank l)
      (ht : ts.length = ls.length) (htr : ∀ (i : Nat) (l t : Str), ls[i]? = some l → ts[i]? = some t → Trimmed l t)
      (hr : ∀ l, rest.head? = some l → Blank l) (h : Paragraphs rest ps) :
      Paragraphs (blanks ++ ls ++ rest) (ts :: ps)

theorem trims_eq {ls ts : List Str} (ht : ts.length = ls.length)
    (htr : ∀ (i : Nat) (l t : Str), ls[i]? = some l → ts[i]? = some t → Trimmed l t) : ts = ls.map trimAscii := by
  apply List.ext_getElem?
  intro i
  rw [List.getElem?_map]
  cases hl : ls[i]? with
  | none =>
    rw [List.getElem?_eq_none_iff] at hl
    rw [List.getElem?_eq_none_iff.2 (by omega)]; rfl
  | some l =>
    have hlt := (List.getElem?_eq_some_iff.1 hl).1
    obtain ⟨t, hts⟩ : ∃ t, ts[i]? = some t := ⟨_, List.getElem?_eq_getElem (by omega)⟩
    rw [hts, Option.map_some, trimmed_unique (htr i l t hl hts) (trimAscii_trimmed l)]

theorem mem_takeWhile_imp {α : Type} {p : α → Bool} {l : List α} {x : α} (h : x ∈ l.takeWhile p) : p x = true := by
  induction l with
  | nil => simp at h
  | cons y l ih =>
    by_cases hy : p y = true
    · rw [List.takeWhile_cons_of_pos hy] at h
      rcases List.mem_cons.1 h with rfl | h
      · exact hy
      · exact ih h
    · rw [List.takeWhile_cons_of_neg hy] at h; cases h

theorem snoc_induction {α : Type} {P : List α → Prop} (nil : P []) (snoc : ∀ (l : List α) (x : α), P l → P (l ++ [x]))
    (l : List α) : P l := by
  rw [← List.reverse_reverse l]
  induction l.reverse with
  | nil => exact nil
  | cons x xs ih => rw [List.reverse_cons]; exact snoc _ x ih

/-- The first line is blank. -/
def startsBlank (lines : List Str) : Bool := lines.head?.any (fun l => l.all White)

theorem startsBlank_iff {lines : List Str} : startsBlank lines = true ↔ ∃ l, lines.head? = some l ∧ Blank l := by
  unfold startsBlank Blank
  rw [Option.any_eq_true]
  simp only [List.all_eq_true]

/-- Every doc comment has paragraphs. -/
theorem paragraphs_exist (lines : List Str) : ∃ ps, Paragraphs lines ps := by
  have key : ∀ n, ∀ lines : List Str, lines.length ≤ n → ∃ ps, Paragraphs lines ps := by
    intro n
    induction n with
    | zero =>
      intro lines h
      rw [List.eq_nil_of_length_eq_zero (by omega : lines.length = 0)]
      exact ⟨[], .nil (by simp)⟩
    | succ n ih =>
      intro lines hlen
      let isB : Str → Bool := fun l => decide (trimAscii l = [])
      have hB : ∀ l, isB l = true ↔ Blank l := fun l => by simp only [isB, decide_eq_true_eq, trimAscii_nil_iff]
      have e1 : lines = lines.takeWhile isB ++ lines.dropWhile isB := (List.takeWhile_append_dropWhile).symm
      generalize hr1 : lines.dropWhile isB = r1 at e1
      have e2 : r1 = r1.takeWhile (fun l => !isB l) ++ r1.dropWhile (fun l => !isB l) := (List.takeWhile_append_dropWhile).symm
      have hblank : ∀ l ∈ lines.takeWhile isB, Blank l := by
        intro l hl
        exact (hB l).1 (mem_takeWhile_imp hl)
      cases r1 with
      | nil =>
        refine ⟨[], ?_⟩
        rw [e1, List.append_nil]
        exact .nil hblank
      | cons x r1 =>
        have hx : isB x = false := by
          have := List.head?_dropWhile_not isB lines
          rw [hr1] at this
          simpa using this
        generalize hr2 : (x :: r1).dropWhile (fun l => !isB l) = r2 at e2
        have hne : (x :: r1).takeWhile (fun l => !isB l) ≠ [] := by simp [hx]
        have hlen2 : r2.length ≤ n := by
          have h1 := congrArg List.length e1
          have h2 := congrArg List.length e2
          have h3 : 0 < ((x :: r1).takeWhile (fun l => !isB l)).length := List.length_pos_iff.2 hne
          rw [List.length_append] at h1 h2
          omega
        obtain ⟨ps, hps⟩ := ih r2 hlen2
        refine ⟨((x :: r1).takeWhile (fun l => !isB l)).map trimAscii :: ps, ?_⟩
        rw [e1, e2, ← List.append_assoc, ← e2]
        refine .cons hblank hne ?_ (by simp) ?_ ?_ hps
        · intro l hl hbl
          have := mem_takeWhile_imp hl
          rw [(hB l).2 hbl] at this
          cases this
        · intro i l t h1 h2
          rw [List.getElem?_map, h1, Option.map_some, Option.some.injEq] at h2
          exact h2 ▸ trimAscii_trimmed l
        · intro l hl
          have := List.head?_dropWhile_not (fun l => !isB l) (x :: r1)
          rw [hr2, hl] at this
          exact (hB l).1 (by simpa using this)
  exact key _ lines (Nat.le_refl _)

/-- The text of a paragraph: its lines joined by one space. -/
def joinLines (ls : List Str) : Str := List.intercalate [' '] ls

theorem joinLines_append {ls : List Str} (h : ls ≠ []) (l : Str) : joinLines (ls ++ [l]) = joinLines ls ++ ' ' :: l := by
  unfold joinLines
  induction ls with
  | nil => exact absurd rfl h
  | cons x ls ih =>
    cases ls with
    | nil => simp
    | cons y ls =>
      rw [List.cons_append, List.cons_append, intercalate_cons_cons, intercalate_cons_cons, ← List.cons_append, ih (by simp)]
      simp

theorem fold_lines (ls : List Str) (hl : ∀ l ∈ ls, ¬ Blank l) (doc : Str) (hd : doc = [] ∨ doc.getLast? = some '\n') :
    ls.foldl docExtend doc = doc ++ joinLines (ls.map trimAscii)
    ∧ (ls ≠ [] → ∃ c, (ls.foldl docExtend doc).getLast? = some c ∧ White c = false) := by
  revert hl
  refine snoc_induction (P := fun ls => (∀ l ∈ ls, ¬ Blank l) → ls.foldl docExtend doc = doc ++ joinLines (ls.map trimAscii)
    ∧ (ls ≠ [] → ∃ c, (ls.foldl docExtend doc).getLast? = some c ∧ White c = false)) ?_ ?_ ls
  · simp [joinLines]
  · intro ls l ih hl
    obtain ⟨ih1, ih2⟩ := ih (fun x hx => hl x (by simp [hx]))
    have hlb : trimAscii l ≠ [] := fun h => hl l (by simp) (trimAscii_nil_iff.1 h)
    have hlast : ∀ pre : Str, ∃ c, (pre ++ trimAscii l).getLast? = some c ∧ White c = false := by
      intro pre
      cases hc : (trimAscii l).getLast? with
      | none => rw [List.getLast?_eq_none_iff] at hc; exact absurd hc hlb
      | some c => exact ⟨c, by rw [List.getLast?_append, hc]; rfl, (trimAscii_trimmed l).last c hc⟩
    rw [List.foldl_append, List.foldl_cons, List.foldl_nil, List.map_append, List.map_cons, List.map_nil]
    by_cases hne : ls = []
    · subst hne
      have hc : ¬ (doc ≠ [] ∧ doc.getLast? ≠ some '\n') := by rintro ⟨h1, h2⟩; rcases hd with h | h <;> contradiction
      rw [List.foldl_nil, List.map_nil, List.nil_append, docExtend]
      simp only [if_neg hlb]
      rw [if_neg hc]
      exact ⟨by simp [joinLines], fun _ => hlast _⟩
    · obtain ⟨c, hc1, hc2⟩ := ih2 hne
      have hcond : (ls.foldl docExtend doc) ≠ [] ∧ (ls.foldl docExtend doc).getLast? ≠ some '\n' := by
        constructor
        · intro h; rw [h] at hc1; cases hc1
        · rw [hc1]; rintro h; cases h; simp [White] at hc2
      rw [docExtend]
      simp only [if_neg hlb, if_pos hcond]
      refine ⟨?_, fun _ => hlast _⟩
      rw [joinLines_append (by simpa using hne), ih1]
      simp

theorem fold_blanks (bs : List Str) (hb : ∀ l ∈ bs, Blank l) (doc : Str) :
    bs.foldl docExtend doc = doc ++ if bs ≠ [] ∧ doc.getLast? ≠ some '\n' then ['\n'] else [] := by
  induction bs generalizing doc with
  | nil => simp
  | cons b bs ih =>
    have hb0 : trimAscii b = [] := trimAscii_nil_iff.2 (hb b (by simp))
    rw [List.foldl_cons, ih (fun l hl => hb l (by simp [hl]))]
    unfold docExtend
    simp only [hb0, if_true]
    by_cases h : doc.getLast? = some '\n'
    · simp [h]
    · simp [h]

theorem intercalate_last {sep : Str} {xs : List Str} (hne : xs ≠ []) (hx : ∀ x ∈ xs, ∃ c, x.getLast? = some c ∧ White c = false)
    (pre : Str) : ∃ c, (pre ++ List.intercalate sep xs).getLast? = some c ∧ White c = false := by
  induction xs generalizing pre with
  | nil => exact absurd rfl hne
  | cons x xs ih =>
    cases xs with
    | nil =>
      obtain ⟨c, h1, h2⟩ := hx x (by simp)
      exact ⟨c, by rw [intercalate_single, List.getLast?_append, h1]; rfl, h2⟩
    | cons y ys =>
      rw [intercalate_cons_cons, ← List.append_assoc]
      exact ih (by simp) (fun z hz => hx z (by simp [hz])) _

theorem paragraphs_last {lines : List Str} {ps : List (List Str)} (h : Paragraphs lines ps) :
    ∀ x ∈ ps.map joinLines, ∃ c, x.getLast? = some c ∧ White c = false := by
  induction h with
  | nil => simp
  | @cons blanks ls rest ts ps hb hne hl ht htr hr _ ih =>
    intro x hx
    rw [List.map_cons, List.mem_cons] at hx
    rcases hx with rfl | hx
    · have := fold_lines ls hl [] (.inl rfl)
      rw [trims_eq ht htr]
      simpa [this.1] using this.2 hne
    · exact ih x hx

theorem fold_paragraphs {lines : List Str} {ps : List (List Str)} (h : Paragraphs lines ps) (doc : Str)
    (hd : doc = [] ∨ doc.getLast? = some '\n' ∨ startsBlank lines = true) :
    ∃ tail, (∀ c ∈ tail, White c = true) ∧ lines.foldl docExtend doc
      = doc ++ (if ps ≠ [] ∧ startsBlank lines = true ∧ doc.getLast? ≠ some '\n' then ['\n'] else [])
        ++ List.intercalate ['\n'] (ps.map joinLines) ++ tail := by
  induction h generalizing doc with
  | nil hb =>
    rw [fold_blanks _ hb]
    refine ⟨_, ?_, by simp; rfl⟩
    intro c hc
    split at hc
    · rw [List.mem_singleton.1 hc]; decide
    · cases hc
  | @cons blanks ls rest ts ps hb hne hl ht htr hr hp ih =>
    have hhead : startsBlank (blanks ++ ls ++ rest) = true ↔ blanks ≠ [] := by
      rw [startsBlank_iff]
      cases blanks with
      | nil =>
        cases ls with
        | nil => exact absurd rfl hne
        | cons x ls => simp [hl x (by simp)]
      | cons b bs => simp [hb b (by simp)]
    rw [List.foldl_append, List.foldl_append, fold_blanks _ hb]
    simp only [hhead, ne_eq, reduceCtorEq, not_false_eq_true, true_and]
    generalize hd1 : doc ++ (if ¬blanks = [] ∧ ¬doc.getLast? = some '\n' then ['\n'] else []) = doc1
    have hdoc1 : doc1 = [] ∨ doc1.getLast? = some '\n' := by
      rw [← hd1]
      split
      · right; simp
      · rename_i hc
        rw [List.append_nil]
        rcases hd with h | h | h
        · exact .inl h
        · exact .inr h
        · have := hhead.1 h
          right
          exact Classical.byContradiction (fun hn => hc ⟨this, hn⟩)
    obtain ⟨f1, f2⟩ := fold_lines ls hl doc1 hdoc1
    obtain ⟨c, hc1, hc2⟩ := f2 hne
    rw [f1] at hc1 ⊢
    rw [← trims_eq ht htr] at hc1 ⊢
    have hnl : (doc1 ++ joinLines ts).getLast? ≠ some '\n' := by
      rw [hc1]; rintro h; cases h; simp [White] at hc2
    by_cases hps : ps = []
    · subst hps
      cases hp with
      | nil hb2 =>
        rw [fold_blanks _ hb2]
        refine ⟨_, ?_, by rw [List.map_cons, List.map_nil, intercalate_single]⟩
        intro c hc
        split at hc
        · rw [List.mem_singleton.1 hc]; decide
        · cases hc
    · have hrest : startsBlank rest = true := by
        rw [startsBlank_iff]
        cases hp with
        | nil => exact absurd rfl hps
        | @cons blanks' ls' rest' ts' ps' hb' hne' hl' ht' htr' hr' hp' =>
          cases hh : (blanks' ++ ls' ++ rest').head? with
          | none =>
            rw [List.head?_eq_none_iff] at hh
            simp [hne'] at hh
          | some l => exact ⟨l, rfl, hr l hh⟩
      obtain ⟨tail, t1, t2⟩ := ih (doc1 ++ joinLines ts) (.inr (.inr hrest))
      refine ⟨tail, t1, ?_⟩
      rw [t2, if_pos ⟨hps, hrest, hnl⟩]
      cases hmp : ps.map joinLines with
      | nil => simp at hmp; exact absurd hmp hps
      | cons q qs => rw [List.map_cons, hmp, intercalate_cons_cons]; simp

/-- C48: the text of a doc comment whose paragraphs are `ps`: the lines of a paragraph are joined by one space, the
paragraphs by one line break.  If the comment starts with a blank line there is one more line break in front. -/
theorem C48_text {lines : List Str} {ps : List (List Str)} (h : Paragraphs lines ps) :
    docOf lines = (if ps ≠ [] ∧ startsBlank lines = true then ['\n'] else [])
      ++ List.intercalate ['\n'] (ps.map joinLines) := by
  obtain ⟨tail, t1, t2⟩ := fold_paragraphs h [] (.inl rfl)
  unfold docOf
  rw [t2]
  simp only [List.nil_append, List.getLast?_nil, ne_eq, reduceCtorEq, not_false_eq_true, and_true]
  by_cases hps : ps = []
  · subst hps
    simp only [not_true_eq_false, false_and, if_false, List.map_nil, List.nil_append]
    exact trimEnd_append t1 (by intro c hc; cases hc)
  · apply trimEnd_append t1
    intro c hc
    obtain ⟨c', h1, h2⟩ := intercalate_last (sep := ['\n']) (by simpa using hps) (paragraphs_last h)
      (if ¬ps = [] ∧ startsBlank lines = true then ['\n'] else [])
    rw [hc] at h1
    cases h1
    exact h2

/-- C48: every doc comment has paragraphs. -/
theorem C48_paragraphs (lines : List Str) : ∃ ps, Paragraphs lines ps := paragraphs_exist lines

/-- C48: the text has no trailing white space. -/
theorem C48_no_trailing (lines : List Str) (c : Char) (h : (docOf lines).getLast? = some c) : White c = false := by
  unfold docOf at h
  obtain ⟨_, _, _, h3⟩ := trimEnd_split (lines.foldl docExtend [])
  exact h3 c h

theorem takeWhile_first {x rest : Str} (hx : '\n' ∉ x) :
    (x ++ '\n' :: rest).takeWhile (· ≠ '\n') = x ∧ x.takeWhile (· ≠ '\n') = x := by
  induction x with
  | nil => simp
  | cons c x ih =>
    simp only [List.mem_cons, not_or] at hx
    have := ih hx.2
    simp only [List.cons_append, List.takeWhile_cons, ne_eq, Ne.symm hx.1, not_false_eq_true, decide_true, if_true] at this ⊢
    exact ⟨congrArg (c :: ·) this.1, congrArg (c :: ·) this.2⟩

theorem joinLines_nonl {ts : List Str} (h : ∀ t ∈ ts, '\n' ∉ t) : '\n' ∉ joinLines ts := by
  unfold joinLines
  induction ts with
  | nil => simp
  | cons t ts ih =>
    cases ts with
    | nil => rw [intercalate_single]; exact h t (by simp)
    | cons u us =>
      rw [intercalate_cons_cons]
      have h1 := h t (by simp)
      have h2 := ih (fun x hx => h x (by simp [hx]))
      simp only [List.mem_append, List.mem_singleton]
      rintro ((hc | hc) | hc)
      · exact h1 hc
      · cases hc
      · exact h2 hc

/-- C48: the first line of the text is the first paragraph, and the text starts with no white space.  Full statement: for
every doc comment.  Missing: comments starting with a blank line, for which it is false (`C48_leading_blank`). -/
theorem C48_first_paragraph_partial {lines : List Str} {p : List Str} {ps : List (List Str)} (h : Paragraphs lines (p :: ps))
    (hb : ∀ l, lines.head? = some l → ¬ Blank l) (hnl : ∀ l ∈ lines, '\n' ∉ l) :
    (docOf lines).takeWhile (· ≠ '\n') = joinLines p ∧ ∀ c, (docOf lines).head? = some c → White c = false := by
  rw [C48_text h]
  have hno : startsBlank lines = false := by
    cases hs : startsBlank lines with
    | false => rfl
    | true => obtain ⟨l, h1, h2⟩ := startsBlank_iff.1 hs; exact absurd h2 (hb l h1)
  simp only [hno, Bool.false_eq_true, and_false, if_false, List.nil_append, List.map_cons]
  cases h with
  | @cons blanks ls rest ts ps hbl hne hl ht htr hr hp =>
    have hts := trims_eq ht htr
    have hmem : ∀ t ∈ p, '\n' ∉ t := by
      intro t hmt hc
      rw [hts] at hmt
      obtain ⟨l, hlm, rfl⟩ := List.mem_map.1 hmt
      obtain ⟨pre, post, he, -, -⟩ := (trimAscii_trimmed l).parts
      exact hnl l (by simp [hlm]) (by rw [he]; simp [hc])
    have hj := joinLines_nonl hmem
    constructor
    · cases hq : ps.map joinLines with
      | nil => rw [intercalate_single]; exact (takeWhile_first (rest := []) hj).2
      | cons q qs =>
        rw [intercalate_cons_cons, List.append_assoc]
        exact (takeWhile_first hj).1
    · intro c hc
      cases ls with
      | nil => exact absurd rfl hne
      | cons l ls =>
        have hl0 : trimAscii l ≠ [] := fun h => hl l (by simp) (trimAscii_nil_iff.1 h)
        have hfirst : ∀ rest' : Str, (trimAscii l ++ rest').head? = some c → White c = false := by
          intro rest' hh
          cases hx : trimAscii l with
          | nil => exact absurd hx hl0
          | cons x xs =>
            rw [hx] at hh
            simp at hh
            subst hh
            exact (trimAscii_trimmed l).first x (by rw [hx]; rfl)
        subst hts
        have hjl : ∃ r, joinLines ((l :: ls).map trimAscii) = trimAscii l ++ r := by
          unfold joinLines
          cases ls with
          | nil => exact ⟨[], by simp⟩
          | cons l' ls => exact ⟨_, by rw [List.map_cons, List.map_cons, intercalate_cons_cons, List.append_assoc]⟩
        obtain ⟨r, hr2⟩ := hjl
        cases hq : ps.map joinLines with
        | nil => rw [hq, intercalate_single, hr2] at hc; exact hfirst _ hc
        | cons q qs =>
          rw [hq, intercalate_cons_cons, hr2] at hc
          simp only [List.append_assoc] at hc
          exact hfirst _ hc

/-- C48, finding 6: a doc comment that starts with a blank line keeps a line break in front, so its first line is empty. -/
theorem C48_leading_blank : docOf [lit "", lit " Hello", lit " world"] = lit "\nHello world"
    ∧ (docOf [lit "", lit " Hello", lit " world"]).takeWhile (· ≠ '\n') = [] := by decide +kernel

example : docOf [lit " Adds  files", lit " to the index.", lit "", lit " ", lit " More.", lit ""]
    = lit "Adds  files to the index.\nMore." := by decide +kernel

theorem Sample.paragraph (ls : List Str) (i : Nat) (l t : Str) (h1 : ls[i]? = some l) (h2 : (ls.map trimAscii)[i]? = some t) :
    Trimmed l t := by
  rw [List.getElem?_map, h1, Option.map_some, Option.some.injEq] at h2
  exact h2 ▸ trimAscii_trimmed l

instance (l : Str) : Decidable (Blank l) := inferInstanceAs (Decidable (∀ c ∈ l, White c = true))

/-- Two paragraphs, the first of two lines. -/
example : Paragraphs [lit " Adds  files ", lit " to the index.", lit "", lit " ", lit " More."]
      [[lit "Adds  files", lit "to the index."], [lit "More."]]
    ∧ (∀ l, [lit " Adds  files ", lit " to the index.", lit "", lit " ", lit " More."].head? = some l → ¬ Blank l)
    ∧ ∀ l ∈ [lit " Adds  files ", lit " to the index.", lit "", lit " ", lit " More."], '\n' ∉ l := by
  have e1 : [lit "Adds  files", lit "to the index."] = [lit " Adds  files ", lit " to the index."].map trimAscii := by decide +kernel
  have e2 : [lit "More."] = [lit " More."].map trimAscii := by decide +kernel
  refine ⟨?_, by intro l hl; cases hl; decide +kernel, by decide +kernel⟩
  rw [e1, e2]
  exact .cons (blanks := []) (ls := [lit " Adds  files ", lit " to the index."]) (rest := [lit "", lit " ", lit " More."]) (by simp)
    (by simp) (by decide +kernel) (by simp) (Sample.paragraph _) (by intro l hl; cases hl; decide +kernel)
    (.cons (blanks := [lit "", lit " "]) (ls := [lit " More."]) (rest := []) (by decide +kernel) (by simp) (by decide +kernel)
      (by simp) (Sample.paragraph _) (by intro l hl; cases hl) (.nil (by simp)))

end Palc
