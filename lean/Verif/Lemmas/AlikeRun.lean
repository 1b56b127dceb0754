import Verif.Lemmas.Alike
/-! Runs of definitions with renamed fields. -/

namespace Palc

open Spec

variable {V : Type} {cx : Cx V} {N : Str → Str → Prop}

/-- The same error, or related results. -/
def Lift {α α' : Type} (Q : α → α' → Prop) : R α → R α' → Prop
  | .ok a, .ok a' => Q a a'
  | .error e, .error e' => e = e'
  | _, _ => False

theorem Lift.both {α α' : Type} {Q : α → α' → Prop} {r : R α} {r' : R α'} (h : Lift Q r r') :
    (∃ a a', r = .ok a ∧ r' = .ok a' ∧ Q a a') ∨ ∃ e, r = .error e ∧ r' = .error e := by
  cases r with
  | ok a =>
    cases r' with
    | ok a' => exact .inl ⟨a, a', rfl, rfl, h⟩
    | error e => exact h.elim
  | error e =>
    cases r' with
    | ok a' => exact h.elim
    | error e' => cases h; exact .inr ⟨e, rfl, rfl⟩

/-- The subcommand parsed, if any. -/
inductive AlikeOpt (N : Str → Str → Prop) : Option (Out V) → Option (Out V) → Prop
  | none : AlikeOpt N .none .none
  | some {o o' : Out V} (h : RenamedOut N o o') : AlikeOpt N (.some o) (.some o')

theorem AlikeOpt.isSome {o o' : Option (Out V)} (h : AlikeOpt N o o') : o'.isSome = o.isSome := by cases h <;> rfl

theorem renamedFields_append {l l' k k' : List (Str × Out V)} (h : RenamedFields N l l') (hk : RenamedFields N k k') :
    RenamedFields N (l ++ k) (l' ++ k') := by
  induction l generalizing l' with
  | nil => cases h; exact hk
  | cons x l ih =>
    cases h with
    | cons hi ho h => exact .cons hi ho (ih h)

/-! ## Validation -/

/-- The same place of a renamed field. -/
def AlikeVar (N : Str → Str → Prop) (ρ : Str → Str) (x x' : FieldInfo V × Place V) : Prop := x'.2 = x.2 ∧ AlikeField N ρ x.1 x'.1

section
variable {ρ : Str → Str}

theorem isSet_alike {vars vars' : Vars V} (h : All₂ (AlikeVar N ρ) vars vars') {i : Str}
    (hi : ∀ x ∈ vars, ρ x.1.ident = ρ i → x.1.ident = i) : vars'.isSet (ρ i) = vars.isSet i := by
  unfold Vars.isSet
  rcases h.with_mem.find₂ (p := fun x : FieldInfo V × Place V => decide (x.1.ident = i)) (p' := fun x : FieldInfo V × Place V => decide (x.1.ident = ρ i)) (fun x x' hx => by
    rw [hx.2.2.2.ident]
    have := hi x hx.1
    by_cases hc : x.1.ident = i
    · simp [hc]
    · rw [decide_eq_false hc, decide_eq_false (fun hcc => hc (this hcc))]) with ⟨h1, h2⟩ | ⟨x, x', h1, h2, h3⟩
  · rw [h1, h2]
  · rw [h1, h2]
    show Except.ok x'.2.isSet = Except.ok x.2.isSet
    rw [h3.2.2.1]

theorem firstRef_alike {vars vars' : Vars V} (h : All₂ (AlikeVar N ρ) vars vars') (want : Bool) :
    ∀ (ids : List Str) (ns : List Nat), (∀ i ∈ ids, ∀ x ∈ vars, ρ x.1.ident = ρ i → x.1.ident = i) →
    firstRef vars' want ((ids.map ρ).zip ns) = firstRef vars want (ids.zip ns)
  | [], _, _ => rfl
  | i :: ids, [], _ => rfl
  | i :: ids, n :: ns, hi => by
    simp only [List.map_cons, List.zip_cons_cons, firstRef]
    rw [isSet_alike h (hi i List.mem_cons_self), firstRef_alike h want ids ns (fun j hj => hi j (List.mem_cons_of_mem _ hj))]

theorem refHit_alike {vars vars' : Vars V} (h : All₂ (AlikeVar N ρ) vars vars') (want : Bool) {ids : List Str} {o o' : Option (List Nat)}
    (hi : ∀ i ∈ ids, ∀ x ∈ vars, ρ x.1.ident = ρ i → x.1.ident = i) (ho : ids = [] ∨ o' = o) :
    refHit vars' want (ids.map ρ) o' = refHit vars want ids o := by
  rcases ho with rfl | rfl
  · cases o <;> cases o' <;> rfl
  · cases o' with
    | none => rfl
    | some ns => exact firstRef_alike h want ids ns hi

/-- References of a field are known and told apart by their new names. -/
def RefsOk (ρ : Str → Str) (vars : Vars V) (f : FieldInfo V) : Prop :=
  ∀ i, i ∈ f.dependencies ∨ i ∈ f.conflicts → ∀ x ∈ vars, ρ x.1.ident = ρ i → x.1.ident = i

theorem onSetCheck_alike {vars vars' : Vars V} (h : All₂ (AlikeVar N ρ) vars vars') (info : ArgsInfo) (total : Nat) {f f' : FieldInfo V}
    (hf : AlikeField N ρ f f') (hr : RefsOk ρ vars f) (pl : Place V) :
    onSetCheck info vars' total f' pl = onSetCheck info vars total f pl := by
  unfold onSetCheck
  rw [hf.exclusive, hf.attrs, hf.deps, hf.confs, refHit_alike h false (fun i hi => hr i (.inl hi)) hf.depsIdx,
    refHit_alike h true (fun i hi => hr i (.inr hi)) hf.confsIdx]

theorem onSetChecks_alike {vars vars' : Vars V} (h : All₂ (AlikeVar N ρ) vars vars') (info : ArgsInfo) (total : Nat) {k k' : Vars V}
    (hk : All₂ (AlikeVar N ρ) k k') (hr : ∀ x ∈ k, RefsOk ρ vars x.1) : onSetChecks info vars' total k' = onSetChecks info vars total k := by
  induction hk with
  | nil => rfl
  | @cons x x' k k' hx _ ih =>
    obtain ⟨f, pl⟩ := x
    obtain ⟨f', pl'⟩ := x'
    obtain ⟨rfl, hf⟩ := hx
    simp only [onSetChecks]
    rw [onSetCheck_alike h info total hf (hr _ List.mem_cons_self), ih (fun y hy => hr y (List.mem_cons_of_mem _ hy))]

theorem onUnsets_alike (info : ArgsInfo) {k k' : Vars V} (hk : All₂ (AlikeVar N ρ) k k') :
    Lift (All₂ (AlikeVar N ρ)) (onUnsets info k) (onUnsets info k') := by
  induction hk with
  | nil => exact .nil
  | @cons x x' k k' hx _ ih =>
    obtain ⟨f, pl⟩ := x
    obtain ⟨f', pl'⟩ := x'
    obtain ⟨rfl, hf⟩ := hx
    have he : onUnset info f' pl' = onUnset info f pl' := by
      unfold onUnset
      rw [hf.default, hf.required, hf.attrs]
    simp only [onUnsets]
    rw [he]
    cases onUnset info f pl' with
    | error e => exact rfl
    | ok q =>
      dsimp only
      rcases ih.both with ⟨a, a', h1, h2, h3⟩ | ⟨e, h1, h2⟩
      · rw [h1, h2]; exact .cons ⟨rfl, hf⟩ h3
      · rw [h1, h2]; exact rfl

theorem extractAll_alike {k k' : Vars V} (hk : All₂ (AlikeVar N ρ) k k') : Lift (RenamedFields N) (extractAll k) (extractAll k') := by
  induction hk with
  | nil => exact .nil
  | @cons x x' k k' hx _ ih =>
    obtain ⟨f, pl⟩ := x
    obtain ⟨f', pl'⟩ := x'
    obtain ⟨rfl, hf⟩ := hx
    have he : f'.extract pl' = f.extract pl' := by
      unfold FieldInfo.extract
      rw [hf.kind]
    simp only [extractAll]
    rw [he]
    cases f.extract pl' with
    | error e => exact rfl
    | ok q =>
      dsimp only
      rcases ih.both with ⟨a, a', h1, h2, h3⟩ | ⟨e, h1, h2⟩
      · rw [h1, h2]; exact .cons hf.name .field h3
      · rw [h1, h2]; exact rfl
end

theorem extractSub_alike {s s' : SubField V} (hs : AlikeSub N s s') {o o' : Option (Out V)} (ho : AlikeOpt N o o') :
    Lift (RenamedFields N) (extractSub s o) (extractSub s' o') := by
  cases hs with
  | none => exact .nil
  | @some i i' b vs vs' hi h =>
    cases b with
    | true =>
      refine RenamedFields.cons hi ?_ .nil
      cases ho with
      | none => exact .none
      | some h => exact .some h
    | false =>
      cases ho with
      | none => exact rfl
      | some h => exact RenamedFields.cons hi h .nil

theorem finish_alike {c c' : Core V} (hc : AlikeCore N c c') {s s' : SubField V} (hs : AlikeSub N s s') (info : ArgsInfo) (places : List (Place V))
    {fo fo' : List (Str × Out V)} (hfo : RenamedFields N fo fo') {o o' : Option (Out V)} (ho : AlikeOpt N o o') :
    Lift (RenamedOut N) (finish c s info places fo o) (finish c' s' info places fo' o') := by
  obtain ⟨ρ, hf, hinj, href⟩ := hc.ex
  have hv : All₂ (AlikeVar N ρ) (c.fields.zip places) (c'.fields.zip places) := hf.zip_same places
  have hr : ∀ x ∈ c.fields.zip places, RefsOk ρ (c.fields.zip places) x.1 := by
    rintro ⟨f, p⟩ hx i hi ⟨y, q⟩ hy he
    obtain ⟨g, hg, rfl⟩ := href f (List.of_mem_zip hx).1 i hi
    exact hinj y (List.of_mem_zip hy).1 g hg he
  have ht : totalArgs (c'.fields.zip places) o'.isSome = totalArgs (c.fields.zip places) o.isSome := by
    unfold totalArgs
    rw [ho.isSome, (hv.filter (p := fun x => x.2.isSet) (fun x x' hx => by rw [hx.1])).length]
  have hx : c'.fields.any (·.exclusive) = c.fields.any (·.exclusive) := hf.any_eq (fun f f' h => h.exclusive)
  unfold finish
  simp only [hx, ht]
  cases (if (c.fields.any (·.exclusive)) = true then totalArgs (c.fields.zip places) o.isSome else .ok 0 : R Nat) with
  | error e => exact rfl
  | ok total =>
    dsimp only
    rw [onSetChecks_alike hv info total hv hr]
    cases onSetChecks info (c.fields.zip places) total (c.fields.zip places) with
    | error e => exact rfl
    | ok u =>
      dsimp only
      rcases (onUnsets_alike info hv).both with ⟨a, a', h1, h2, h3⟩ | ⟨e, h1, h2⟩
      · rw [h1, h2]
        dsimp only
        have ha : a'.any (fun x => x.1.kind = .value && !x.1.required && !x.2.isSet) = a.any (fun x => x.1.kind = .value && !x.1.required && !x.2.isSet) :=
          h3.any_eq (fun x x' h => by rw [h.1, h.2.kind, h.2.required])
        rw [ha]
        have tail : Lift (RenamedOut N)
            (if (a.any (fun x => x.1.kind = .value && !x.1.required && !x.2.isSet)) = true then panicR
              else match extractAll a with
                | .error e => .error e
                | .ok direct => match extractSub s o with
                  | .error e => .error e
                  | .ok s => .ok (.struct (direct ++ fo ++ s)))
            (if (a.any (fun x => x.1.kind = .value && !x.1.required && !x.2.isSet)) = true then panicR
              else match extractAll a' with
                | .error e => .error e
                | .ok direct => match extractSub s' o' with
                  | .error e => .error e
                  | .ok s => .ok (.struct (direct ++ fo' ++ s))) := by
          split
          · exact rfl
          · rcases (extractAll_alike h3).both with ⟨b, b', g1, g2, g3⟩ | ⟨e, g1, g2⟩
            · rw [g1, g2]
              dsimp only
              rcases (extractSub_alike hs ho).both with ⟨d, d', k1, k2, k3⟩ | ⟨e, k1, k2⟩
              · rw [k1, k2]
                exact RenamedOut.struct (renamedFields_append (renamedFields_append g3 hfo) k3)
              · rw [k1, k2]; exact rfl
            · rw [g1, g2]; exact rfl
        cases hs with
        | none => exact tail
        | @some i i' b vs vs' hi h =>
          cases b with
          | true => exact tail
          | false =>
            cases ho with
            | none => exact rfl
            | some h => exact tail
      · rw [h1, h2]; exact rfl

/-! ## Runs -/

/-- Results of a subcommand. -/
def SubRes (N : Str → Str → Prop) (x x' : Out V × Chain V × Toks) : Prop := RenamedOut N x.1 x'.1 ∧ x'.2 = x.2

/-- Parsers of subcommands. -/
def SubAlike (N : Str → Str → Prop) : Option (SubPlace V) → Option (SubPlace V) → Prop
  | none, none => True
  | some p, some p' => ∀ idx ch ts, Lift (SubRes N) (p idx ch ts) (p' idx ch ts)
  | _, _ => False

/-- Results of a run. -/
def RunRes (N : Str → Str → Prop) (x x' : ArgsFrame V × Option (Out V) × Chain V × Toks) : Prop :=
  x'.1 = x.1 ∧ AlikeOpt N x.2.1 x'.2.1 ∧ x'.2.2 = x.2.2

theorem runParser_alike {sub sub' : Option (SubPlace V)} (hs : SubAlike N sub sub') : ∀ (n : Nat) (ts : Toks), ts.length ≤ n →
    ∀ (cur : ArgsFrame V) (parents : Chain V), Lift (RunRes N) (runParser sub cur parents ts) (runParser sub' cur parents ts) := by
  intro n
  induction n with
  | zero =>
    intro ts hn cur parents
    cases ts with
    | nil => rw [runParser, runParser]; exact ⟨rfl, .none, rfl⟩
    | cons a ts => simp at hn
  | succ n ih =>
    intro ts hn cur parents
    cases ts with
    | nil => rw [runParser, runParser]; exact ⟨rfl, .none, rfl⟩
    | cons arg rest =>
      rw [runParser.eq_def sub, runParser.eq_def sub']
      dsimp only
      have hrest : rest.length ≤ n := by simpa using hn
      cases argShape arg with
      | dashDash =>
        dsimp only
        cases enterDash cur with
        | error e => exact rfl
        | ok cur =>
          dsimp only
          cases dashLoop cur rest with
          | error e => exact rfl
          | ok cur => exact ⟨rfl, .none, rfl⟩
      | long =>
        dsimp only
        cases visitLong cur parents arg rest.head? with
        | error e => exact rfl
        | ok x =>
          obtain ⟨c, ps, _ | b⟩ := x
          · exact ih rest hrest _ _
          · cases b with
            | false => exact ih rest hrest _ _
            | true =>
              cases rest with
              | nil => exact rfl
              | cons _ rest => exact ih rest (by simp at hrest; omega) _ _
      | bundle b =>
        dsimp only
        cases visitBundle cur parents b rest.head? with
        | error e => exact rfl
        | ok x =>
          obtain ⟨c, ps, _ | b⟩ := x
          · exact ih rest hrest _ _
          · cases b with
            | false => exact ih rest hrest _ _
            | true =>
              cases rest with
              | nil => exact rfl
              | cons _ rest => exact ih rest (by simp at hrest; omega) _ _
      | plain =>
        dsimp only
        have hpos : Lift (RunRes N) (match visitPositional cur false arg rest with
            | .error e => .error e
            | .ok (cur, true) => .ok (cur, none, parents, [])
            | .ok (cur, false) => runParser sub cur parents rest)
            (match visitPositional cur false arg rest with
            | .error e => .error e
            | .ok (cur, true) => .ok (cur, none, parents, [])
            | .ok (cur, false) => runParser sub' cur parents rest) := by
          cases visitPositional cur false arg rest with
          | error e => exact rfl
          | ok x =>
            obtain ⟨c, b⟩ := x
            cases b with
            | true => exact ⟨rfl, .none, rfl⟩
            | false => exact ih rest hrest _ _
        match sub, sub', hs with
        | none, none, _ => exact hpos
        | some p, some p', hs =>
          cases hi : cur.info.subcmdInfo with
          | none => exact hpos
          | some si =>
            dsimp only
            cases hse : si.search arg with
            | none => exact hpos
            | some x =>
              obtain ⟨name, idx⟩ := x
              dsimp only
              rcases (hs idx (.command name :: .args cur :: parents) rest).both with ⟨⟨o, ch, ts⟩, ⟨o', _⟩, h1, h2, h3, rfl⟩ | ⟨e, h1, h2⟩
              · rw [h1, h2]
                rcases ch with _ | ⟨_ | _, _ | ⟨_ | _, _⟩⟩ <;> first | exact rfl | exact ⟨rfl, .some h3, rfl⟩
              · rw [h1, h2]; exact rfl

section
variable {α α' : Type} {Q : α → α' → Prop}

/-- Results of a parser with what its closures assign. -/
def ParserRes (N : Str → Str → Prop) (Q : α → α' → Prop) (x : ArgsFrame V × Option (Out V) × Chain V × Toks × α)
    (x' : ArgsFrame V × Option (Out V) × Chain V × Toks × α') : Prop :=
  x'.1 = x.1 ∧ AlikeOpt N x.2.1 x'.2.1 ∧ x'.2.2.1 = x.2.2.1 ∧ x'.2.2.2.1 = x.2.2.2.1 ∧ Q x.2.2.2.2 x'.2.2.2.2

/-- Related parsers. -/
def RunAlike (N : Str → Str → Prop) (Q : α → α' → Prop) (run : RunParser V α) (run' : RunParser V α') : Prop :=
  ∀ cur sub sub' ch ts, SubAlike N sub sub' → Lift (ParserRes N Q) (run cur sub ch ts) (run' cur sub' ch ts)

/-- Results of what the closures of flattened structs call. -/
def InnerRes (Q : α → α' → Prop) (x : α × Chain V × Toks) (x' : α' × Chain V × Toks) : Prop := Q x.1 x'.1 ∧ x'.2 = x.2

/-- What the closures of flattened structs call. -/
def InnerAlike (Q : α → α' → Prop) (f : Chain V → Toks → R (α × Chain V × Toks)) (f' : Chain V → Toks → R (α' × Chain V × Toks)) : Prop :=
  ∀ ch ts, Lift (InnerRes Q) (f ch ts) (f' ch ts)

theorem wrapFrame_alike {f : Chain V → Toks → R (α × Chain V × Toks)} {f' : Chain V → Toks → R (α' × Chain V × Toks)} (h : InnerAlike Q f f') :
    RunAlike N Q (wrapFrame f) (wrapFrame f') := by
  intro cur sub sub' ch ts _
  unfold wrapFrame
  rcases (h (.args cur :: ch) ts).both with ⟨⟨a, b, c⟩, ⟨a', _⟩, h1, h2, h3, rfl⟩ | ⟨e, h1, h2⟩
  · rw [h1, h2]
    rcases b with _ | ⟨_ | _, _⟩ <;> first | exact rfl | exact ⟨rfl, .none, rfl, rfl, h3⟩
  · rw [h1, h2]; exact rfl

/-- What `runInner` returns. -/
def TripleRes (N : Str → Str → Prop) (Q : α → α' → Prop) (x : ArgsFrame V × Option (Out V) × α) (x' : ArgsFrame V × Option (Out V) × α') : Prop :=
  x'.1 = x.1 ∧ AlikeOpt N x.2.1 x'.2.1 ∧ Q x.2.2 x'.2.2

theorem runInner_alike {run : RunParser V α} {run' : RunParser V α'} (h : RunAlike N Q run run') (fr : ArgsFrame V)
    {sub sub' : Option (SubPlace V)} (hs : SubAlike N sub sub') : InnerAlike (TripleRes N Q) (runInner run fr sub) (runInner run' fr sub') := by
  intro ch ts
  unfold runInner
  rcases (h fr sub sub' ch ts hs).both with ⟨⟨a, b, c, d, x⟩, ⟨_, b', _, _, x'⟩, h1, h2, rfl, h3, rfl, rfl, h4⟩ | ⟨e, h1, h2⟩
  · rw [h1, h2]; exact ⟨⟨rfl, h3, h4⟩, rfl⟩
  · rw [h1, h2]; exact rfl

/-- Results of `argsParse`. -/
def ArgsRes (N : Str → Str → Prop) (Q : α → α' → Prop) (x : Out V × Chain V × Toks × α) (x' : Out V × Chain V × Toks × α') : Prop :=
  RenamedOut N x.1 x'.1 ∧ x'.2.1 = x.2.1 ∧ x'.2.2.1 = x.2.2.1 ∧ Q x.2.2.2 x'.2.2.2

/-- Results of `pairOut`. -/
def PairRes (N : Str → Str → Prop) (Q : α → α' → Prop) (x : α × Out V) (x' : α' × Out V) : Prop := Q x.1 x'.1 ∧ RenamedOut N x.2 x'.2

theorem pairOut_alike {r : R (Out V × Chain V × Toks × α)} {r' : R (Out V × Chain V × Toks × α')} (h : Lift (ArgsRes N Q) r r') :
    Lift (InnerRes (PairRes N Q)) (pairOut r) (pairOut r') := by
  rcases h.both with ⟨⟨a, b, c, d⟩, ⟨a', _, _, d'⟩, h1, h2, h3, rfl, rfl, h4⟩ | ⟨e, h1, h2⟩
  · rw [h1, h2]; exact ⟨⟨h4, h3⟩, rfl⟩
  · rw [h1, h2]; exact rfl

/-- Results of `flatsParse`. -/
def FlatRes (N : Str → Str → Prop) (Q : α → α' → Prop) (x : α × List (Str × Out V) × Chain V × Toks) (x' : α' × List (Str × Out V) × Chain V × Toks) : Prop :=
  Q x.1 x'.1 ∧ RenamedFields N x.2.1 x'.2.1 ∧ x'.2.2 = x.2.2
end

theorem rawRun_alike : RunAlike (V := V) N (fun _ _ => True) rawRun rawRun := by
  intro cur sub sub' ch ts hs
  unfold rawRun
  rcases (runParser_alike hs _ ts (Nat.le_refl _) cur ch).both with ⟨⟨a, b, c, d⟩, ⟨_, b', _, _⟩, h1, h2, rfl, h3, h4⟩ | ⟨e, h1, h2⟩
  · rw [h1, h2]
    cases h4
    exact ⟨rfl, h3, rfl, rfl, trivial⟩
  · rw [h1, h2]; exact rfl

mutual
theorem argsParse_alike : {d d' : ArgsDef V} → AlikeArgs N d d' → {α α' : Type} → {Q : α → α' → Prop} → {run : RunParser V α} → {run' : RunParser V α'} →
    RunAlike N Q run run' → (ch : Chain V) → (ts : Toks) → Lift (ArgsRes N Q) (argsParse d ch run ts) (argsParse d' ch run' ts)
  | _, _, .mk (c := c) (c' := c') (fl := fl) (fl' := fl') (s := s) (s' := s') hc hf hs, _, _, _, run, run', h, ch, ts => by
    have hi : (ArgsDef.mk c' fl' s').info = (ArgsDef.mk c fl s).info := info_alike (.mk hc hf hs)
    rw [argsParse, argsParse, hi, hc.initializers]
    rcases (flatsParse_alike hf (runInner_alike h
      { fields := c.fields.map (·.initializer), info := (ArgsDef.mk c fl s).info, nextPositional := 0 }
      (subPlace_alike hs)) ch ts).both with ⟨⟨⟨a, b, x⟩, y, z, w⟩, ⟨⟨a', b', x'⟩, y', z', w'⟩, h1, h2, ⟨hq, h3, h4⟩, h5, hw⟩ | ⟨e, h1, h2⟩
    · rw [h1, h2]
      dsimp only at hq h3 h4 h5 hw ⊢
      subst hq
      cases hw
      rcases (finish_alike hc hs (ArgsDef.mk c fl s).info a'.fields h5 h3).both with ⟨o, o', g1, g2, g3⟩ | ⟨e, g1, g2⟩
      · rw [g1, g2]; exact ⟨g3, rfl, rfl, h4⟩
      · rw [g1, g2]; exact rfl
    · rw [h1, h2]; exact rfl
theorem flatsParse_alike : {fl fl' : Flats V} → AlikeFlats N fl fl' → {β β' : Type} → {Q : β → β' → Prop} → {f : Chain V → Toks → R (β × Chain V × Toks)} →
    {f' : Chain V → Toks → R (β' × Chain V × Toks)} → InnerAlike Q f f' → (ch : Chain V) → (ts : Toks) →
    Lift (FlatRes N Q) (flatsParse fl f ch ts) (flatsParse fl' f' ch ts)
  | _, _, .nil, _, _, _, f, f', h, ch, ts => by
    rw [flatsParse, flatsParse]
    rcases (h ch ts).both with ⟨⟨a, b, c⟩, ⟨a', _⟩, h1, h2, h3, rfl⟩ | ⟨e, h1, h2⟩
    · rw [h1, h2]; exact ⟨h3, .nil, rfl⟩
    · rw [h1, h2]; exact rfl
  | _, _, .cons (d := d) (d' := d') hi hd hr, _, _, _, f, f', h, ch, ts => by
    rw [flatsParse, flatsParse]
    rcases (flatsParse_alike hr (f := fun chain toks => pairOut (argsParse d chain (wrapFrame f) toks))
      (f' := fun chain toks => pairOut (argsParse d' chain (wrapFrame f') toks))
      (fun ch ts => pairOut_alike (argsParse_alike hd (wrapFrame_alike h) ch ts)) ch ts).both with
      ⟨⟨⟨a, b⟩, c, x⟩, ⟨⟨a', b'⟩, c', _⟩, h1, h2, ⟨h3, h4⟩, h5, rfl⟩ | ⟨e, h1, h2⟩
    · rw [h1, h2]; exact ⟨h3, .cons hi h4 h5, rfl⟩
    · rw [h1, h2]; exact rfl
theorem subPlace_alike : {s s' : SubField V} → AlikeSub N s s' → SubAlike N (subPlace s) (subPlace s')
  | _, _, .none => by rw [subPlace]; trivial
  | _, _, .some _ h => by
    rw [subPlace, subPlace]
    exact fun idx ch ts => variantsParse_alike h idx ch ts
theorem variantsParse_alike : {vs vs' : Variants V} → AlikeVariants N vs vs' → (idx : Nat) → (ch : Chain V) → (ts : Toks) →
    Lift (SubRes N) (variantsParse vs idx ch ts) (variantsParse vs' idx ch ts)
  | _, _, .nil, _, _, _ => by rw [variantsParse]; exact rfl
  | _, _, .unit (cm := cm) hi h, 0, ch, ts => by
    rw [variantsParse, variantsParse, variantParse, variantParse]
    rcases (rawRun_alike (N := N) { fields := [], info := unitInfo cm, nextPositional := 0 } none none ch ts trivial).both with
      ⟨⟨a, b, c, d, _⟩, ⟨_, b', _, _, _⟩, h1, h2, rfl, _, rfl, rfl, _⟩ | ⟨e, h1, h2⟩
    · rw [h1]; exact ⟨.variant hi (.struct .nil), rfl⟩
    · rw [h1]; exact rfl
  | _, _, .args hi hd h, 0, ch, ts => by
    rw [variantsParse, variantsParse, variantParse, variantParse]
    rcases (argsParse_alike hd rawRun_alike ch ts).both with ⟨⟨a, b, c, _⟩, ⟨a', _, _, _⟩, h1, h2, h3, rfl, rfl, _⟩ | ⟨e, h1, h2⟩
    · rw [h1, h2]; exact ⟨.variant hi h3, rfl⟩
    · rw [h1, h2]; exact rfl
  | _, _, .unit _ h, idx + 1, ch, ts => by rw [variantsParse, variantsParse]; exact variantsParse_alike h idx ch ts
  | _, _, .args _ _ h, idx + 1, ch, ts => by rw [variantsParse, variantsParse]; exact variantsParse_alike h idx ch ts
end

theorem tryParseFrom_alike {d d' : ArgsDef V} (h : AlikeArgs N d d') (argv : List Bytes) :
    Lift (RenamedOut N) (tryParseFrom d argv) (tryParseFrom d' argv) := by
  unfold tryParseFrom
  cases argv with
  | nil => exact rfl
  | cons a ts =>
    dsimp only
    unfold structRunParser
    rcases (argsParse_alike h rawRun_alike [.command (lossy ((fileName a).getD a))] ts).both with
      ⟨⟨a, b, c, _⟩, ⟨a', _, _, _⟩, h1, h2, h3, rfl, rfl, _⟩ | ⟨e, h1, h2⟩
    · rw [h1, h2]; exact h3
    · rw [h1, h2]; exact rfl

end Palc
