import Verif.Codegen
/-! Parsing changes values of places only: their kinds and the frames they are in stay the same. -/

namespace Palc

variable {V : Type}

/-- A place without its value. -/
def Place.blank : Place V → Place V
  | .flag _ => .flag none
  | .vec _ p => .vec none p
  | .vecDelim _ d p => .vecDelim none d p
  | .set _ p => .set none p
  | .setOpt _ p => .setOpt none p

/-- The fields of a frame without their values. -/
def Frame.shape : Frame V → Option (List (Place V))
  | .args f => some (f.fields.map Place.blank)
  | .command _ => none

/-- The frames without values. -/
def shapes (ch : Chain V) : List (Option (List (Place V))) := ch.map Frame.shape

theorem parseFrom_blank {pl pl' : Place V} {v : Option Bytes} (h : pl.parseFrom v = .ok pl') : pl'.blank = pl.blank := by
  cases pl <;> simp only [Place.parseFrom] at h <;> (repeat' split at h) <;> cases h <;> rfl

theorem setDefault_blank {pl pl' : Place V} {v : DefaultOut V} (h : pl.setDefault v = .ok pl') : pl'.blank = pl.blank := by
  cases pl <;> cases v <;> simp only [Place.setDefault, panicR] at h <;> cases h <;> rfl

theorem setDefaultParse_blank {pl pl' : Place V} {s : Str} (h : pl.setDefaultParse s = .ok pl') : pl'.blank = pl.blank := by
  unfold Place.setDefaultParse at h
  split at h
  · cases h; rfl
  · split at h
    · cases h
      exact parseFrom_blank (by assumption)
    · cases h

theorem drain_blank {toks : Toks} : ∀ {pl pl' : Place V}, drain pl toks = .ok pl' → pl'.blank = pl.blank := by
  induction toks with
  | nil => intro pl pl' h; rw [drain] at h; cases h; rfl
  | cons t ts ih =>
    intro pl pl' h
    rw [drain] at h
    split at h
    · rename_i hp
      rw [ih h, parseFrom_blank hp]
    · cases h

theorem assign_blank {attrs : ArgAttrs} {pl pl' : Place V} {inl : InlineValue} {next : Option Bytes} {took : Bool}
    (h : assign attrs pl inl next = .ok (pl', took)) : pl'.blank = pl.blank := by
  unfold assign at h
  split at h
  · cases h
  · split at h
    · rename_i hs
      cases h
      exact parseFrom_blank hs
    · cases h

theorem set_blank {l : List (Place V)} {i : Nat} {pl pl' : Place V} (hi : l[i]? = some pl) (h : pl'.blank = pl.blank) :
    (l.set i pl').map Place.blank = l.map Place.blank := by
  apply List.ext_getElem?
  intro j
  rw [List.getElem?_map, List.getElem?_map, List.getElem?_set]
  by_cases hij : i = j
  · subst hij
    have hlt : i < l.length := by
      rw [List.getElem?_eq_some_iff] at hi
      exact hi.1
    rw [if_pos rfl, if_pos hlt, hi]
    simp [h]
  · rw [if_neg hij]

theorem searchNamed_hit {ch : Chain V} : ∀ {name : Bytes} {glob : Bool} {hit : Hit V}, searchNamed ch name glob = .ok (some hit) →
    ∃ f : ArgsFrame V, ch[hit.depth]? = some (.args f) ∧ f.fields[hit.attrs.getIndex]? = some hit.place := by
  induction ch with
  | nil => intro name glob hit h; rw [searchNamed] at h; cases h
  | cons fr parents ih =>
    intro name glob hit h
    have up : ∀ (g : Bool), (match searchNamed parents name g with
        | .ok (some h) => .ok (some { h with depth := h.depth + 1 })
        | .ok none => .ok none
        | .error e => .error e : R (Option (Hit V))) = .ok (some hit) →
        ∃ f : ArgsFrame V, (fr :: parents)[hit.depth]? = some (.args f) ∧ f.fields[hit.attrs.getIndex]? = some hit.place := by
      intro g hg
      split at hg
      · rename_i h' hs
        cases hg
        obtain ⟨f, h1, h2⟩ := ih hs
        exact ⟨f, by rw [List.getElem?_cons_succ]; exact h1, h2⟩
      · cases hg
      · cases hg
    cases fr with
    | args f =>
      rw [searchNamed] at h
      split at h
      · split at h
        · split at h
          · cases h
            exact ⟨f, rfl, by assumption⟩
          · cases h
        · exact up _ h
      · exact up _ h
    | command n =>
      rw [searchNamed] at h
      exact up _ h

theorem modify_shapes {ch : Chain V} {k i : Nat} {f : ArgsFrame V} {pl pl' : Place V} (hk : ch[k]? = some (.args f))
    (hi : f.fields[i]? = some pl) (h : pl'.blank = pl.blank) : shapes (ch.modify k (·.setField i pl')) = shapes ch := by
  unfold shapes
  apply List.ext_getElem?
  intro j
  rw [List.getElem?_map, List.getElem?_map, List.getElem?_modify]
  by_cases hkj : k = j
  · subst hkj
    rw [hk]
    simp [Frame.setField, Frame.shape, set_blank hi h]
  · simp [hkj]

theorem visitNamed_keeps {cur cur' : ArgsFrame V} {ps ps' : Chain V} {sh : Bool} {name : Bytes} {inl : InlineValue}
    {next : Option Bytes} {fl : Flow} (h : visitNamed cur ps sh name inl next = .ok (cur', ps', fl)) :
    shapes (.args cur' :: ps') = shapes (.args cur :: ps) := by
  unfold visitNamed at h
  split at h
  · cases h
  · split at h <;> cases h
  · rename_i hit hs
    obtain ⟨f, h1, h2⟩ := searchNamed_hit hs
    split at h
    · rename_i pl took ha
      have hb := assign_blank ha
      dsimp only at h
      split at h
      · rename_i hd
        rw [hd] at h1
        cases h1
        cases h
        simp only [shapes, List.map_cons, Frame.shape, set_blank h2 hb]
      · rename_i k hd
        rw [hd, List.getElem?_cons_succ] at h1
        cases h
        have := modify_shapes h1 h2 hb
        simp only [shapes, List.map_cons] at this ⊢
        rw [this]
    · cases h

theorem visitPositional_keeps {cur cur' : ArgsFrame V} {il : Bool} {arg : Bytes} {rest : Toks} {b : Bool}
    (h : visitPositional cur il arg rest = .ok (cur', b)) : cur'.fields.map Place.blank = cur.fields.map Place.blank := by
  unfold visitPositional at h
  dsimp only at h
  split at h
  · split at h <;> cases h
  · split at h
    · cases h
    · split at h
      · cases h
      · rename_i hi
        split at h
        · cases h
        · rename_i hp
          split at h
          · split at h
            · cases h
            · rename_i hd
              cases h
              exact set_blank hi (by rw [drain_blank hd, parseFrom_blank hp])
          · cases h
            exact set_blank hi (parseFrom_blank hp)

theorem dashLoop_keeps {toks : Toks} : ∀ {cur cur' : ArgsFrame V}, dashLoop cur toks = .ok cur' →
    cur'.fields.map Place.blank = cur.fields.map Place.blank := by
  induction toks with
  | nil => intro cur cur' h; rw [dashLoop] at h; cases h; rfl
  | cons t ts ih =>
    intro cur cur' h
    rw [dashLoop] at h
    split at h
    · cases h
    · cases h
      exact visitPositional_keeps (by assumption)
    · rename_i hv
      rw [ih h, visitPositional_keeps hv]

theorem enterDash_keeps {cur cur' : ArgsFrame V} (h : enterDash cur = .ok cur') : cur'.fields = cur.fields := by
  unfold enterDash at h
  split at h
  · split at h
    · split at h
      · cases h
      · cases h; rfl
    · cases h; rfl
  · cases h; rfl

theorem bundleLoop_keeps {b : Bytes} {next : Option Bytes} {cs : Str} : ∀ {cur cur' : ArgsFrame V} {ps ps' : Chain V} {i : Nat}
    {fl : Flow}, bundleLoop b next cur ps i cs = .ok (cur', ps', fl) → shapes (.args cur' :: ps') = shapes (.args cur :: ps) := by
  induction cs with
  | nil => intro cur cur' ps ps' i fl h; rw [bundleLoop] at h; cases h; rfl
  | cons c cs ih =>
    intro cur cur' ps ps' i fl h
    rw [bundleLoop] at h
    split at h
    · cases h
    · split at h
      · cases h
      · cases h
        exact visitNamed_keeps (by assumption)
      · rename_i hv
        rw [ih h, visitNamed_keeps hv]

theorem visitBundle_keeps {cur cur' : ArgsFrame V} {ps ps' : Chain V} {b : Bytes} {next : Option Bytes} {fl : Flow}
    (h : visitBundle cur ps b next = .ok (cur', ps', fl)) : shapes (.args cur' :: ps') = shapes (.args cur :: ps) := by
  unfold visitBundle at h
  dsimp only at h
  split at h
  · cases h
  · cases h
    exact bundleLoop_keeps (by assumption)
  · rename_i hb
    split at h
    · split at h
      · cases h
      · split at h <;> cases h
    · cases h
      exact bundleLoop_keeps hb

theorem visitLong_keeps {cur cur' : ArgsFrame V} {ps ps' : Chain V} {arg : Bytes} {next : Option Bytes} {fl : Flow}
    (h : visitLong cur ps arg next = .ok (cur', ps', fl)) : shapes (.args cur' :: ps') = shapes (.args cur :: ps) := by
  unfold visitLong at h
  split at h <;> exact visitNamed_keeps h

/-- A subcommand leaves the shapes of the frames unchanged. -/
def SubKeeps (s : SubPlace V) : Prop :=
  ∀ i ch toks out ch' toks', s i ch toks = .ok (out, ch', toks') → shapes ch' = shapes ch

theorem runParser_keeps {sub : Option (SubPlace V)} (hs : ∀ s, sub = some s → SubKeeps s) (n : Nat) :
    ∀ {toks : Toks}, toks.length ≤ n → ∀ {cur cur' : ArgsFrame V} {ps ps' : Chain V} {o : Option (Out V)} {toks' : Toks},
    runParser sub cur ps toks = .ok (cur', o, ps', toks') → shapes (.args cur' :: ps') = shapes (.args cur :: ps) := by
  have hshape : ∀ {c c' : ArgsFrame V} {ps : Chain V}, c'.fields.map Place.blank = c.fields.map Place.blank →
      shapes (.args c' :: ps) = shapes (.args c :: ps) := by
    intro c c' ps h
    simp only [shapes, List.map_cons, Frame.shape, h]
  induction n with
  | zero =>
    intro toks hn cur cur' ps ps' o toks' h
    cases toks with
    | nil => rw [runParser] at h; cases h; rfl
    | cons t ts => simp at hn
  | succ n ih =>
    intro toks hn cur cur' ps ps' o toks' h
    cases toks with
    | nil => rw [runParser] at h; cases h; rfl
    | cons arg rest =>
      have hr : rest.length ≤ n := by simpa using hn
      rw [runParser.eq_def] at h
      dsimp only at h
      split at h
      · split at h
        · cases h
        · rename_i he
          split at h
          · cases h
          · rename_i hd
            cases h
            exact hshape (by rw [dashLoop_keeps hd, enterDash_keeps he])
      · split at h
        · cases h
        · rename_i hv
          split at h
          · rw [ih (by simp at hr; omega) h, visitLong_keeps hv]
          · cases h
        · rename_i hv
          rw [ih hr h, visitLong_keeps hv]
      · split at h
        · cases h
        · rename_i hv
          split at h
          · rw [ih (by simp at hr; omega) h, visitBundle_keeps hv]
          · cases h
        · rename_i hv
          rw [ih hr h, visitBundle_keeps hv]
      · split at h
        · rename_i place name idx hhit
          have hp : sub = some place := by
            split at hhit
            · split at hhit
              · split at hhit
                · cases hhit; rfl
                · cases hhit
              · cases hhit
            · cases hhit
          split at h
          · cases h
          · rename_i hpl
            cases h
            have := hs place hp _ _ _ _ _ _ hpl
            simp only [shapes, List.map_cons, List.cons.injEq] at this ⊢
            exact this.2
          · cases h
        · split at h
          · cases h
          · cases h
            exact hshape (visitPositional_keeps (by assumption))
          · rename_i hv
            rw [ih hr h, hshape (visitPositional_keeps hv)]

theorem runParser_noSub (n : Nat) : ∀ {toks : Toks}, toks.length ≤ n → ∀ {cur cur' : ArgsFrame V} {ps ps' : Chain V}
    {o : Option (Out V)} {toks' : Toks}, runParser none cur ps toks = .ok (cur', o, ps', toks') → o = none := by
  induction n with
  | zero =>
    intro toks hn cur cur' ps ps' o toks' h
    cases toks with
    | nil => rw [runParser] at h; cases h; rfl
    | cons t ts => simp at hn
  | succ n ih =>
    intro toks hn cur cur' ps ps' o toks' h
    cases toks with
    | nil => rw [runParser] at h; cases h; rfl
    | cons arg rest =>
      have hr : rest.length ≤ n := by simpa using hn
      rw [runParser.eq_def] at h
      dsimp only at h
      split at h
      · split at h
        · cases h
        · split at h
          · cases h
          · cases h; rfl
      · split at h
        · cases h
        · split at h
          · exact ih (by simp at hr; omega) h
          · cases h
        · exact ih hr h
      · split at h
        · cases h
        · split at h
          · exact ih (by simp at hr; omega) h
          · cases h
        · exact ih hr h
      · split at h
        · cases h
        · cases h; rfl
        · exact ih hr h

/-- A parser leaves the shapes of the frames unchanged, and what it returns has the property. -/
def RunKeeps {α : Type} (P : α → Prop) (run : RunParser V α) : Prop :=
  ∀ cur sub ps toks cur' o ps' toks' a, (∀ s, sub = some s → SubKeeps s) →
    run cur sub ps toks = .ok (cur', o, ps', toks', a) →
    (shapes (.args cur' :: ps') = shapes (.args cur :: ps) ∧ P a) ∧ (sub = none → o = none)

/-- The wrapped part of a parser leaves the shapes of the frames unchanged, and its result has the property. -/
def InnerKeeps {β : Type} (P : β → Prop) (inner : Chain V → Toks → R (β × Chain V × Toks)) : Prop :=
  ∀ ch toks b ch' toks', inner ch toks = .ok (b, ch', toks') → shapes ch' = shapes ch ∧ P b

theorem rawRun_keeps : RunKeeps (V := V) (fun _ => True) rawRun := by
  intro cur sub ps toks cur' o ps' toks' a hs h
  unfold rawRun at h
  split at h
  · rename_i hr
    cases h
    refine ⟨⟨runParser_keeps hs _ (Nat.le_refl _) hr, trivial⟩, ?_⟩
    intro hnone
    subst hnone
    exact runParser_noSub _ (Nat.le_refl _) hr
  · cases h

theorem wrapFrame_keeps {β : Type} {P : β → Prop} {inner : Chain V → Toks → R (β × Chain V × Toks)} (hi : InnerKeeps P inner) :
    RunKeeps P (wrapFrame inner) := by
  intro cur sub ps toks cur' o ps' toks' a _ h
  unfold wrapFrame at h
  split at h
  · cases h
  · rename_i hr
    cases h
    exact ⟨hi _ _ _ _ _ hr, fun _ => rfl⟩
  · cases h

/-- What is known about the result of the innermost part. -/
def FrameShape {α : Type} (P : α → Prop) (pls : List (Place V)) (sub : Option (SubPlace V))
    (b : ArgsFrame V × Option (Out V) × α) : Prop :=
  b.1.fields.map Place.blank = pls.map Place.blank ∧ P b.2.2 ∧ (sub = none → b.2.1 = none)

theorem runInner_keeps {α : Type} {P : α → Prop} {run : RunParser V α} (hr : RunKeeps P run) {fr : ArgsFrame V}
    {sub : Option (SubPlace V)} (hs : ∀ s, sub = some s → SubKeeps s) :
    InnerKeeps (FrameShape P fr.fields sub) (runInner run fr sub) := by
  intro ch toks b ch' toks' h
  unfold runInner at h
  split at h
  · cases h
  · rename_i hrun
    cases h
    have := hr _ _ _ _ _ _ _ _ _ hs hrun
    simp only [shapes, List.map_cons, List.cons.injEq, Frame.shape, Option.some.injEq] at this
    exact ⟨this.1.1.2, this.1.1.1, this.1.2, this.2⟩

mutual
theorem argsParse_keeps : (d : ArgsDef V) → {α : Type} → {P : α → Prop} → {run : RunParser V α} → RunKeeps P run →
    (ch : Chain V) → (toks : Toks) →
    ∀ out ch' toks' a, argsParse d ch run toks = .ok (out, ch', toks', a) → shapes ch' = shapes ch ∧ P a
  | .mk core flats sub, α, P, run, hr, ch, toks => by
    intro out ch' toks' a h
    rw [argsParse] at h
    split at h
    · cases h
    · rename_i hf
      split at h
      · cases h
      · cases h
        have := flatsParse_keeps flats (runInner_keeps hr (subPlace_keeps sub)) ch toks _ _ _ _ hf
        exact ⟨this.1, this.2.2.1⟩
theorem flatsParse_keeps : (fl : Flats V) → {β : Type} → {P : β → Prop} → {inner : Chain V → Toks → R (β × Chain V × Toks)} →
    InnerKeeps P inner → (ch : Chain V) → (toks : Toks) →
    ∀ b outs ch' toks', flatsParse fl inner ch toks = .ok (b, outs, ch', toks') → shapes ch' = shapes ch ∧ P b
  | .nil, β, P, inner, hi, ch, toks => by
    intro b outs ch' toks' h
    rw [flatsParse] at h
    split at h
    · cases h
    · rename_i hin
      cases h
      exact hi _ _ _ _ _ hin
  | .cons ident d rest, β, P, inner, hi, ch, toks => by
    intro b outs ch' toks' h
    rw [flatsParse] at h
    split at h
    · cases h
    · rename_i hf
      cases h
      refine flatsParse_keeps rest (P := fun b => P b.1) ?_ ch toks _ _ _ _ hf
      intro ch toks b ch' toks' h
      dsimp only at h
      cases ha : argsParse d ch (wrapFrame inner) toks with
      | error e => rw [ha] at h; cases h
      | ok r =>
        rw [ha] at h
        cases h
        exact argsParse_keeps d (wrapFrame_keeps hi) ch toks _ _ _ _ ha
theorem subPlace_keeps : (sub : SubField V) → ∀ s, subPlace sub = some s → SubKeeps s
  | .none => by intro s h; rw [subPlace] at h; cases h
  | .some _ _ vs => by
    intro s h
    rw [subPlace] at h
    cases h
    intro i ch toks out ch' toks' h
    exact variantsParse_keeps vs i ch toks _ _ _ h
theorem variantsParse_keeps : (vs : Variants V) → (i : Nat) → (ch : Chain V) → (toks : Toks) →
    ∀ out ch' toks', variantsParse vs i ch toks = .ok (out, ch', toks') → shapes ch' = shapes ch
  | .nil, _, _, _ => by intro _ _ _ h; rw [variantsParse] at h; cases h
  | .cons v _, 0, ch, toks => by intro _ _ _ h; rw [variantsParse] at h; exact variantParse_keeps v ch toks _ _ _ h
  | .cons _ rest, i + 1, ch, toks => by
    intro _ _ _ h
    rw [variantsParse] at h
    exact variantsParse_keeps rest i ch toks _ _ _ h
theorem variantParse_keeps : (v : Variant V) → (ch : Chain V) → (toks : Toks) →
    ∀ out ch' toks', variantParse v ch toks = .ok (out, ch', toks') → shapes ch' = shapes ch
  | .unit ident n cmeta, ch, toks => by
    intro _ _ _ h
    rw [variantParse] at h
    split at h
    · cases h
    · rename_i hr
      cases h
      have := (rawRun_keeps _ _ _ _ _ _ _ _ _ (by intro s h; cases h) hr).1.1
      simp only [shapes, List.map_cons, List.cons.injEq] at this
      exact this.2
  | .args ident n d, ch, toks => by
    intro _ _ _ h
    rw [variantParse] at h
    split at h
    · cases h
    · rename_i hr
      cases h
      exact (argsParse_keeps d rawRun_keeps ch toks _ _ _ _ hr).1
end

/-! ## Naturality -/

/-- Apply a function to what a parsing function returns. -/
def mapOut {α β : Type} (g : α → β) : R (Out V × Chain V × Toks × α) → R (Out V × Chain V × Toks × β)
  | .error e => .error e
  | .ok (out, ch, toks, a) => .ok (out, ch, toks, g a)

/-- The same for parsers. -/
def mapRun {α β : Type} (g : α → β) (run : RunParser V α) : RunParser V β := fun cur sub ps toks =>
  match run cur sub ps toks with
  | .error e => .error e
  | .ok (cur, o, ps, toks, a) => .ok (cur, o, ps, toks, g a)

/-- The same for the wrapped part. -/
def mapInner {α β : Type} (g : α → β) (r : R (α × Chain V × Toks)) : R (β × Chain V × Toks) :=
  match r with
  | .error e => .error e
  | .ok (a, ch, toks) => .ok (g a, ch, toks)

/-- The same for flattened structs. -/
def mapFlats {α β : Type} (g : α → β) : R (α × List (Str × Out V) × Chain V × Toks) → R (β × List (Str × Out V) × Chain V × Toks)
  | .error e => .error e
  | .ok (a, outs, ch, toks) => .ok (g a, outs, ch, toks)

theorem wrapFrame_nat {α β : Type} (g : α → β) (inner : Chain V → Toks → R (α × Chain V × Toks)) :
    wrapFrame (fun ch toks => mapInner g (inner ch toks)) = mapRun g (wrapFrame inner) := by
  funext cur sub ps toks
  unfold wrapFrame mapRun
  dsimp only
  cases h : inner (.args cur :: ps) toks with
  | error e => rfl
  | ok r =>
    obtain ⟨b, ch, ts⟩ := r
    dsimp only [mapInner]
    rcases ch with _ | ⟨_ | _, _⟩ <;> rfl

theorem runInner_nat {α β : Type} (g : α → β) (run : RunParser V α) (fr : ArgsFrame V) (sub : Option (SubPlace V)) :
    runInner (mapRun g run) fr sub
      = fun ch toks => mapInner (fun b => (b.1, b.2.1, g b.2.2)) (runInner run fr sub ch toks) := by
  funext ch toks
  unfold runInner mapRun
  cases run fr sub ch toks with
  | error e => rfl
  | ok r => rfl

mutual
theorem argsParse_nat : (d : ArgsDef V) → {α β : Type} → (g : α → β) → (ch : Chain V) → (run : RunParser V α) → (toks : Toks) →
    argsParse d ch (mapRun g run) toks = mapOut g (argsParse d ch run toks)
  | .mk core flats sub, α, β, g, ch, run, toks => by
    rw [argsParse, argsParse]
    rw [runInner_nat, flatsParse_nat flats]
    cases flatsParse flats (runInner run ⟨core.fields.map (·.initializer), (ArgsDef.mk core flats sub).info, 0⟩ (subPlace sub))
        ch toks with
    | error e => rfl
    | ok r =>
      dsimp only [mapFlats]
      cases finish core sub (ArgsDef.mk core flats sub).info r.1.1.fields r.2.1 r.1.2.1 with
      | error e => rfl
      | ok o => rfl
theorem flatsParse_nat : (fl : Flats V) → {α β : Type} → (g : α → β) → (inner : Chain V → Toks → R (α × Chain V × Toks)) →
    (ch : Chain V) → (toks : Toks) →
    flatsParse fl (fun ch toks => mapInner g (inner ch toks)) ch toks = mapFlats g (flatsParse fl inner ch toks)
  | .nil, α, β, g, inner, ch, toks => by
    rw [flatsParse, flatsParse]
    cases inner ch toks with
    | error e => rfl
    | ok r => rfl
  | .cons ident d rest, α, β, g, inner, ch, toks => by
    rw [flatsParse, flatsParse]
    have hin : (fun ch toks => pairOut (argsParse d ch (wrapFrame (fun ch toks => mapInner g (inner ch toks))) toks))
        = fun ch toks => mapInner (fun b => (g b.1, b.2)) (pairOut (argsParse d ch (wrapFrame inner) toks)) := by
      funext ch toks
      rw [wrapFrame_nat, argsParse_nat d]
      cases argsParse d ch (wrapFrame inner) toks with
      | error e => rfl
      | ok r => rfl
    rw [hin, flatsParse_nat rest]
    cases flatsParse rest (fun ch toks => pairOut (argsParse d ch (wrapFrame inner) toks)) ch toks with
    | error e => rfl
    | ok r => rfl
end

end Palc
