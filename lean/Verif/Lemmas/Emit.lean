import Verif.Emit
import Verif.Lemmas.Keep
import Verif.Lemmas.Declared
/-! Execution of the emitted code. -/

namespace Palc.Emit

variable {V : Type}

theorem set_same (env : Env V) (x : Str) (v : Val V) : env.set x v x = some v := by
  unfold Env.set; rw [if_pos rfl]

theorem set_other (env : Env V) {x y : Str} (v : Val V) (h : y ≠ x) : env.set x v y = env y := by
  unfold Env.set; rw [if_neg h]

theorem execB_append (info : ArgsInfo) (a b : List (St V)) : ∀ env : Env V, execB info env (a ++ b)
    = match execB info env a with
      | .ok env' => execB info env' b
      | .error s => .error s := by
  induction a with
  | nil => intro env; rw [List.nil_append, execB]
  | cons s a ih =>
    intro env
    rw [List.cons_append, execB, execB]
    cases execS info env s with
    | error st => rfl
    | ok env' => exact ih env'

theorem execB_one (info : ArgsInfo) (env : Env V) (s : St V) : execB info env [s] = execS info env s := by
  rw [execB]
  cases execS info env s with
  | error st => rfl
  | ok env' => dsimp only; rw [execB]

/-- Direct fields are bound to their places, and nothing else is. -/
structure HoldsVars (env : Env V) (vars : Vars V) : Prop where
  held : ∀ x ∈ vars, env x.1.ident = some (.place x.2)
  other : ∀ i, i ∉ vars.map (·.1.ident) → ∀ p, env i ≠ some (.place p)

/-! ## The number of set arguments -/

theorem evalE_isSet {info : ArgsInfo} {env : Env V} {i : Str} {p : Place V} (h : env i = some (.place p)) :
    evalE info env (.isSome (.dot0 (.var i))) = .ok (.bool p.isSet)
    ∧ evalE info env (.isNone (.dot0 (.var i))) = .ok (.bool !p.isSet) := by
  simp only [evalE, h, and_self]

/-- A sum that may have overflowed. -/
def u8Sum (n : Nat) : Except Stop (Val V) := if n < 256 then .ok (.u8 n) else stuck

theorem evalE_add {info : ArgsInfo} {env : Env V} {a b : Ex} {m : Nat} {c : Bool} (ha : evalE info env a = u8Sum m)
    (hb : evalE info env b = .ok (.u8 (if c then 1 else 0))) :
    evalE info env (.add a b) = u8Sum (m + if c then 1 else 0) := by
  rw [evalE, ha]
  unfold u8Sum
  by_cases hm : m < 256
  · rw [if_pos hm]
    dsimp only
    rw [hb]
  · rw [if_neg hm]
    dsimp only [stuck]
    rw [if_neg (by omega)]

theorem sumSet_fold {info : ArgsInfo} {env : Env V} : ∀ (vars : Vars V) (acc : Ex) (m : Nat),
    (∀ x ∈ vars, env x.1.ident = some (.place x.2)) → evalE info env acc = u8Sum m →
    evalE info env ((vars.map (·.1.ident)).foldl (fun acc y => .add acc (.asU8 (.isSome (.dot0 (.var y))))) acc)
      = u8Sum (m + (vars.filter (fun x => x.2.isSet)).length) := by
  intro vars
  induction vars with
  | nil => intro acc m _ h; simpa using h
  | cons x vars ih =>
    intro acc m hv h
    rw [List.map_cons, List.foldl_cons, ih _ (m + if x.2.isSet then 1 else 0)]
    · rw [List.filter_cons]
      cases x.2.isSet
      · simp
      · simp only [if_pos]
        rw [List.length_cons]
        congr 1
        omega
    · intro y hy
      exact hv y (List.mem_cons_of_mem _ hy)
    · apply evalE_add h
      rw [evalE, (evalE_isSet (hv x List.mem_cons_self)).1]

theorem sumSet_eval {info : ArgsInfo} {env : Env V} {vars : Vars V} (hv : ∀ x ∈ vars, env x.1.ident = some (.place x.2))
    {sum : Ex} (h : sumSet (vars.map (·.1.ident)) = some sum) :
    evalE info env sum = u8Sum (vars.filter (fun x => x.2.isSet)).length := by
  cases vars with
  | nil => simp [sumSet] at h
  | cons x vars =>
    rw [List.map_cons, sumSet, Option.some.injEq] at h
    subst h
    rw [sumSet_fold vars _ (if x.2.isSet then 1 else 0) (fun y hy => hv y (List.mem_cons_of_mem _ hy))]
    · rw [List.filter_cons]
      cases x.2.isSet
      · simp
      · simp only [if_pos]
        rw [List.length_cons]
        congr 1
        omega
    · rw [evalE, (evalE_isSet (hv x List.mem_cons_self)).1]
      cases x.2.isSet <;> rfl

/-- Result of a part of the model as that of a statement. -/
def toStop {α β : Type} (g : α → Except Stop β) : R α → Except Stop β
  | .error e => .error (.fail e)
  | .ok a => g a

theorem emitTotal_exec {info : ArgsInfo} {env : Env V} {vars : Vars V} (hv : ∀ x ∈ vars, env x.1.ident = some (.place x.2))
    {sub : Option (Str × Bool)} {subOut : Option (Out V)} (hs : ∀ i o, sub = some (i, o) → env i = some (.opt subOut))
    (hn : sub = none → subOut = none) (ht : env totalName = none) :
    execB info env (emitTotal (vars.map (·.1)) sub)
      = toStop (fun total => .ok (if (vars.map (·.1)).any (·.exclusive) then env.set totalName (.u8 total) else env))
          (if (vars.map (·.1)).any (·.exclusive) then totalArgs vars subOut.isSome else .ok 0) := by
  unfold emitTotal
  cases hany : (vars.map (·.1)).any (·.exclusive) with
  | false => simp only [Bool.false_eq_true, if_false]; rw [execB]; rfl
  | true =>
    simp only [if_true]
    cases hsum : sumSet ((vars.map (·.1)).map (·.ident)) with
    | none =>
      cases vars with
      | nil => simp at hany
      | cons x vars => simp [sumSet] at hsum
    | some sum =>
      dsimp only
      have hsum' : evalE info env sum = u8Sum (vars.filter (fun x => x.2.isSet)).length :=
        sumSet_eval hv (by rw [List.map_map] at hsum; exact hsum)
      have hall : evalE info env (addSub sum sub) = u8Sum ((vars.filter (fun x => x.2.isSet)).length + if subOut.isSome then 1 else 0) := by
        cases sub with
        | none => rw [hn rfl, addSub]; simpa using hsum'
        | some x =>
          obtain ⟨i, o⟩ := x
          apply evalE_add hsum'
          simp only [evalE, hs i o rfl]
      rw [execB_one, execS, hall, ht]
      unfold totalArgs u8Sum
      dsimp only
      generalize (vars.filter (fun x => x.2.isSet)).length + (if subOut.isSome then 1 else 0) = n
      by_cases h : n < 256
      · rw [if_pos h, if_pos h]; rfl
      · rw [if_neg h, if_neg h]; rfl

/-! ## Checks of arguments that are set -/

theorem find_var {vars : Vars V} (hn : (vars.map (·.1.ident)).Nodup) {x : FieldInfo V × Place V} (hx : x ∈ vars) :
    vars.find? (fun y => y.1.ident = x.1.ident) = some x := by
  induction vars with
  | nil => cases hx
  | cons y vars ih =>
    rw [List.map_cons, List.nodup_cons] at hn
    rw [List.find?_cons]
    by_cases hy : y.1.ident = x.1.ident
    · simp only [hy, decide_true]
      rcases List.mem_cons.1 hx with rfl | hx
      · rfl
      · exact absurd (List.mem_map.2 ⟨x, hx, hy.symm⟩) hn.1
    · simp only [hy, decide_false]
      rcases List.mem_cons.1 hx with rfl | hx
      · exact absurd rfl hy
      · exact ih hn.2 hx

theorem evalE_ref {info : ArgsInfo} {env : Env V} {vars : Vars V} (hn : (vars.map (·.1.ident)).Nodup) (hv : HoldsVars env vars)
    (i : Str) : evalE info env (.dot0 (.var i)) = toStop (fun b => .ok (.present b)) (vars.isSet i) := by
  unfold Vars.isSet
  by_cases hi : i ∈ vars.map (·.1.ident)
  · obtain ⟨x, hx, rfl⟩ := List.mem_map.1 hi
    rw [find_var hn hx]
    simp only [evalE, hv.held x hx, toStop]
  · have : vars.find? (fun y => y.1.ident = i) = none := by
      rw [List.find?_eq_none]
      intro y hy h
      exact hi (List.mem_map.2 ⟨y, hy, by simpa using h⟩)
    rw [this]
    simp only [evalE]
    cases he : env i with
    | none => rfl
    | some v =>
      cases v with
      | place p => exact absurd he (hv.other i hi p)
      | _ => rfl

theorem refChain_eval {info : ArgsInfo} {env : Env V} {vars : Vars V} (hn : (vars.map (·.1.ident)).Nodup)
    (hv : HoldsVars env vars) (want : Bool) (l : Label) (refs : List (Str × Nat)) :
    evalE info env (refChain (if want then .isSome else .isNone) l refs)
      = toStop (fun o => match o with
          | some idx => .ok (.u8 idx)
          | none => .error (.brk l)) (firstRef vars want refs) := by
  induction refs with
  | nil => rw [refChain, firstRef, evalE]; rfl
  | cons r refs ih =>
    obtain ⟨i, idx⟩ := r
    rw [refChain, firstRef, evalE]
    have ht : evalE info env ((if want then Ex.isSome else Ex.isNone) (.dot0 (.var i)))
        = toStop (fun b => .ok (.bool (b == want))) (vars.isSet i) := by
      cases want with
      | true =>
        simp only [if_true]
        rw [evalE, evalE_ref hn hv]
        cases vars.isSet i with
        | error e => rfl
        | ok b => cases b <;> rfl
      | false =>
        simp only [Bool.false_eq_true, if_false]
        rw [evalE, evalE_ref hn hv]
        cases vars.isSet i with
        | error e => rfl
        | ok b => cases b <;> rfl
    rw [ht]
    cases vars.isSet i with
    | error e => rfl
    | ok b =>
      dsimp only [toStop]
      by_cases hb : b = want
      · subst hb
        rw [beq_self_eq_true, if_pos rfl]
        dsimp only
        rw [evalE]
      · have : (b == want) = false := by simpa using hb
        rw [this, if_neg hb]
        exact ih

theorem labeled_exec {info : ArgsInfo} {env : Env V} {vars : Vars V} (hn : (vars.map (·.1.ident)).Nodup)
    (hv : HoldsVars env vars) (want : Bool) (l : Label) (fn : ErrFn) (k : ErrorKind) (pick : Nat → Nat → Nat) (idx : Nat)
    (hfn : ∀ m n, callErr info fn [m, n] = some (withArgIdx k info (pick m n))) (refs : List (Str × Nat)) :
    execS info env (.labeled l [.ret (.call2 fn (.u8 idx) (refChain (if want then .isSome else .isNone) l refs))])
      = toStop (fun o => match o with
          | some i2 => .error (.fail (.error (withArgIdx k info (pick idx i2))))
          | none => .ok env) (firstRef vars want refs) := by
  rw [execS, execB_one, execS, evalE]
  have : evalE info env (.u8 idx) = .ok (.u8 idx) := by rw [evalE]
  rw [this]
  dsimp only
  rw [refChain_eval hn hv]
  cases firstRef vars want refs with
  | error e => rfl
  | ok o =>
    cases o with
    | none => dsimp only [toStop]; rw [if_pos rfl]
    | some i2 =>
      dsimp only [toStop]
      rw [hfn]

theorem setChecks_exec {info : ArgsInfo} {env : Env V} {vars : Vars V} (hn : (vars.map (·.1.ident)).Nodup)
    (hv : HoldsVars env vars) {total : Nat} {f : FieldInfo V} (ht : f.exclusive = true → env totalName = some (.u8 total))
    {pl : Place V} (hset : pl.isSet = true) :
    execB info env (setChecks f) = toStop (fun () => .ok env) (onSetCheck info vars total f pl) := by
  have hdep : execB info env (match f.dependenciesIdx with
      | some idxs => [.labeled .dependency
          [.ret (.call2 .dependency (.u8 f.attrs.getIndex) (refChain .isNone .dependency (f.dependencies.zip idxs)))]]
      | none => []) = toStop (fun o => match o with
          | some i2 => .error (.fail (.error (withArgIdx .constraintRequired info i2)))
          | none => .ok env) (refHit vars false f.dependencies f.dependenciesIdx) := by
    cases f.dependenciesIdx with
    | none => dsimp only [refHit]; rw [execB]; rfl
    | some idxs =>
      dsimp only [refHit]
      rw [execB_one]
      exact labeled_exec hn hv false .dependency .dependency .constraintRequired (fun _ n => n) f.attrs.getIndex
        (fun _ _ => rfl) _
  have hconf : execB info env (match f.conflictsIdx with
      | some idxs => [.labeled .conflict
          [.ret (.call2 .conflict (.u8 f.attrs.getIndex) (refChain .isSome .conflict (f.conflicts.zip idxs)))]]
      | none => []) = toStop (fun o => match o with
          | some _ => .error (.fail (.error (withArgIdx .constraintConflict info f.attrs.getIndex)))
          | none => .ok env) (refHit vars true f.conflicts f.conflictsIdx) := by
    cases f.conflictsIdx with
    | none => dsimp only [refHit]; rw [execB]; rfl
    | some idxs =>
      dsimp only [refHit]
      rw [execB_one]
      exact labeled_exec hn hv true .conflict .conflict .constraintConflict (fun m _ => m) f.attrs.getIndex
        (fun _ _ => rfl) _
  have hrest : execB info env ((match f.dependenciesIdx with
      | some idxs => [.labeled .dependency
          [.ret (.call2 .dependency (.u8 f.attrs.getIndex) (refChain .isNone .dependency (f.dependencies.zip idxs)))]]
      | none => []) ++ (match f.conflictsIdx with
      | some idxs => [.labeled .conflict
          [.ret (.call2 .conflict (.u8 f.attrs.getIndex) (refChain .isSome .conflict (f.conflicts.zip idxs)))]]
      | none => [])) = toStop (fun () => .ok env) (match refHit vars false f.dependencies f.dependenciesIdx with
        | .error e => .error e
        | .ok (some idx2) => errR (withArgIdx .constraintRequired info idx2)
        | .ok none =>
          match refHit vars true f.conflicts f.conflictsIdx with
          | .error e => .error e
          | .ok (some _) => errR (withArgIdx .constraintConflict info f.attrs.getIndex)
          | .ok none => .ok ()) := by
    rw [execB_append, hdep]
    cases refHit vars false f.dependencies f.dependenciesIdx with
    | error e => rfl
    | ok o =>
      cases o with
      | some i => rfl
      | none =>
        dsimp only [toStop]
        rw [hconf]
        cases refHit vars true f.conflicts f.conflictsIdx with
        | error e => rfl
        | ok o => cases o <;> rfl
  unfold setChecks onSetCheck
  rw [if_pos hset, List.append_assoc, execB_append]
  cases hx : f.exclusive with
  | false =>
    simp only [Bool.false_eq_true, if_false, Bool.false_and]
    rw [execB]
    exact hrest
  | true =>
    simp only [if_true, Bool.true_and]
    rw [execB_one, execS, evalE, evalE, ht hx]
    dsimp only
    rw [evalE]
    dsimp only
    by_cases hgt : total > 1
    · simp only [hgt, decide_true, if_true]
      rw [execB_one, execS, evalE, evalE]
      rfl
    · simp only [hgt, decide_false, Bool.false_eq_true, if_false]
      exact hrest

theorem emitOnSet_exec {info : ArgsInfo} {env : Env V} {vars : Vars V} (hn : (vars.map (·.1.ident)).Nodup)
    (hv : HoldsVars env vars) {total : Nat} {x : FieldInfo V × Place V} (hx : x ∈ vars)
    (ht : x.1.exclusive = true → env totalName = some (.u8 total)) :
    execB info env (emitOnSet x.1) = toStop (fun () => .ok env) (onSetCheck info vars total x.1 x.2) := by
  unfold emitOnSet
  cases hset : x.2.isSet with
  | true =>
    have hc := setChecks_exec (info := info) hn hv ht hset
    cases hsc : setChecks x.1 with
    | nil => rw [hsc] at hc; exact hc
    | cons s rest =>
      rw [hsc] at hc
      dsimp only
      rw [execB_one, execS, evalE, evalE, hv.held x hx]
      dsimp only
      rw [hset, if_pos rfl]
      exact hc
  | false =>
    have hc : onSetCheck info vars total x.1 x.2 = .ok () := by
      unfold onSetCheck
      rw [hset]
      rfl
    rw [hc]
    cases setChecks x.1 with
    | nil => dsimp only; rw [execB]; rfl
    | cons s rest =>
      dsimp only
      rw [execB_one, execS, evalE, evalE, hv.held x hx]
      dsimp only
      rw [hset]
      rfl

theorem onSets_exec {info : ArgsInfo} {env : Env V} {vars : Vars V} (hn : (vars.map (·.1.ident)).Nodup)
    (hv : HoldsVars env vars) {total : Nat} : ∀ todo : Vars V, (∀ x ∈ todo, x ∈ vars) →
    (∀ x ∈ todo, x.1.exclusive = true → env totalName = some (.u8 total)) →
    execB info env ((todo.map (·.1)).flatMap emitOnSet) = toStop (fun () => .ok env) (onSetChecks info vars total todo) := by
  intro todo
  induction todo with
  | nil => intro _ _; rw [onSetChecks]; rfl
  | cons x todo ih =>
    intro hm ht
    rw [List.map_cons, List.flatMap_cons, execB_append,
      emitOnSet_exec hn hv (hm x List.mem_cons_self) (ht x List.mem_cons_self), onSetChecks]
    cases onSetCheck info vars total x.1 x.2 with
    | error e => rfl
    | ok u => exact ih (fun y hy => hm y (List.mem_cons_of_mem _ hy)) (fun y hy => ht y (List.mem_cons_of_mem _ hy))

/-! ## Defaults -/

theorem emitOnUnset_exec {info : ArgsInfo} {env : Env V} {f : FieldInfo V} {pl : Place V} (hv : env f.ident = some (.place pl)) :
    (∀ e, onUnset info f pl = .error e → execB info env (emitOnUnset f) = .error (.fail e))
    ∧ ∀ pl', onUnset info f pl = .ok pl' → ∃ env', execB info env (emitOnUnset f) = .ok env'
      ∧ env' f.ident = some (.place pl') ∧ ∀ y, y ≠ f.ident → env' y = env y := by
  unfold emitOnUnset onUnset
  have hset : ∀ (r : R (Place V)) (st : St V), execS info env st = toStop (fun p => .ok (env.set f.ident (.place p))) r →
      execB info env [.ifLetNone (.dot0 (.var f.ident)) [st]]
        = if pl.isSet then .ok env else toStop (fun p => .ok (env.set f.ident (.place p))) r := by
    intro r st h
    rw [execB_one, execS, evalE, evalE, hv]
    dsimp only
    rw [execB_one, h]
  have hfin : ∀ (r : R (Place V)) (sts : List (St V)),
      execB info env sts = (if pl.isSet then .ok env else toStop (fun p => .ok (env.set f.ident (.place p))) r) →
      (∀ e, (if pl.isSet then .ok pl else r) = .error e → execB info env sts = .error (.fail e))
      ∧ ∀ pl', (if pl.isSet then .ok pl else r) = .ok pl' → ∃ env', execB info env sts = .ok env'
        ∧ env' f.ident = some (.place pl') ∧ ∀ y, y ≠ f.ident → env' y = env y := by
    intro r sts h
    rw [h]
    cases pl.isSet with
    | true =>
      simp only [if_true]
      exact ⟨by intro e h; (cases h), by intro pl' h; cases h; exact ⟨env, rfl, hv, fun _ _ => rfl⟩⟩
    | false =>
      simp only [Bool.false_eq_true, if_false]
      cases r with
      | error e => exact ⟨by intro e h; cases h; rfl, by intro pl' h; cases h⟩
      | ok p =>
        refine ⟨by intro e h; (cases h), ?_⟩
        intro pl' h
        cases h
        exact ⟨_, rfl, set_same _ _ _, fun y hy => set_other _ _ hy⟩
  cases hd : f.defaultValue with
  | some dv =>
    cases dv with
    | valueExpr v s =>
      dsimp only
      apply hfin
      apply hset
      rw [execS, hv]
      dsimp only
      cases pl.setDefault v <;> rfl
    | parseStr s =>
      dsimp only
      apply hfin
      apply hset
      rw [execS, hv]
      dsimp only
      cases pl.setDefaultParse s <;> rfl
  | none =>
    dsimp only
    cases hr : f.required with
    | true =>
      simp only [if_true]
      apply hfin
      apply hset
      rw [execS, evalE, evalE]
      rfl
    | false =>
      simp only [Bool.false_eq_true, if_false]
      apply hfin
      rw [execB]
      cases pl.isSet
      · simp only [Bool.false_eq_true, if_false, toStop]
        congr 1
        funext y
        unfold Env.set
        split
        · rename_i hy; rw [hy, hv]
        · rfl
      · rfl

theorem onUnsets_exec {info : ArgsInfo} : ∀ (todo : Vars V) (env : Env V), (todo.map (·.1.ident)).Nodup →
    (∀ x ∈ todo, env x.1.ident = some (.place x.2)) →
    (∀ e, onUnsets info todo = .error e → execB info env ((todo.map (·.1)).flatMap emitOnUnset) = .error (.fail e))
    ∧ ∀ todo', onUnsets info todo = .ok todo' → ∃ env', execB info env ((todo.map (·.1)).flatMap emitOnUnset) = .ok env'
      ∧ (∀ x ∈ todo', env' x.1.ident = some (.place x.2)) ∧ ∀ y, y ∉ todo.map (·.1.ident) → env' y = env y := by
  intro todo
  induction todo with
  | nil =>
    intro env _ _
    rw [onUnsets]
    refine ⟨by intro e h; (cases h), ?_⟩
    intro todo' h
    cases h
    exact ⟨env, by rw [List.map_nil, List.flatMap_nil, execB], by intro x hx; (cases hx), fun _ _ => rfl⟩
  | cons x todo ih =>
    intro env hn hv
    rw [List.map_cons, List.nodup_cons] at hn
    obtain ⟨h1, h2⟩ := emitOnUnset_exec (info := info) (hv x List.mem_cons_self)
    rw [List.map_cons, List.flatMap_cons, execB_append]
    obtain ⟨f, pl⟩ := x
    rw [onUnsets]
    cases hu : onUnset info f pl with
    | error e =>
      rw [h1 e hu]
      exact ⟨by intro e h; cases h; rfl, by intro t h; cases h⟩
    | ok pl' =>
      obtain ⟨env1, he1, he2, he3⟩ := h2 pl' hu
      rw [he1]
      dsimp only
      obtain ⟨i1, i2⟩ := ih env1 hn.2 (by
        intro y hy
        rw [he3, hv y (List.mem_cons_of_mem _ hy)]
        intro heq
        exact hn.1 (List.mem_map.2 ⟨y, hy, heq⟩))
      cases hus : onUnsets info todo with
      | error e =>
        refine ⟨?_, by intro t h; cases h⟩
        intro e' h
        cases h
        exact i1 e hus
      | ok rest' =>
        refine ⟨by intro e h; (cases h), ?_⟩
        intro todo' h
        cases h
        obtain ⟨env2, g1, g2, g3⟩ := i2 rest' hus
        refine ⟨env2, g1, ?_, ?_⟩
        · intro y hy
          rcases List.mem_cons.1 hy with rfl | hy
          · rw [g3 _ hn.1]
            exact he2
          · exact g2 y hy
        · intro y hy
          rw [List.map_cons, List.mem_cons, not_or] at hy
          rw [g3 y hy.2, he3 y hy.1]

theorem onUnsets_fst {info : ArgsInfo} : ∀ {todo todo' : Vars V}, onUnsets info todo = .ok todo' →
    todo'.map (·.1) = todo.map (·.1) := by
  intro todo
  induction todo with
  | nil => intro t h; rw [onUnsets] at h; cases h; rfl
  | cons x todo ih =>
    intro t h
    obtain ⟨f, pl⟩ := x
    rw [onUnsets] at h
    split at h
    · cases h
    · split at h
      · cases h
      · rename_i hr
        cases h
        rw [List.map_cons, List.map_cons, ih hr]

theorem onUnset_blank {info : ArgsInfo} {f : FieldInfo V} {pl pl' : Place V} (h : onUnset info f pl = .ok pl') :
    pl'.blank = pl.blank := by
  unfold onUnset at h
  split at h
  · cases h; rfl
  · split at h
    · exact setDefault_blank h
    · exact setDefaultParse_blank h
    · split at h
      · cases h
      · cases h; rfl

theorem onUnsets_blank {info : ArgsInfo} : ∀ {todo todo' : Vars V}, onUnsets info todo = .ok todo' →
    (∀ x ∈ todo, x.2.blank = x.1.initializer) → ∀ x ∈ todo', x.2.blank = x.1.initializer := by
  intro todo
  induction todo with
  | nil => intro t h _; rw [onUnsets] at h; cases h; intro x hx; cases hx
  | cons x todo ih =>
    intro t h hb
    obtain ⟨f, pl⟩ := x
    rw [onUnsets] at h
    split at h
    · cases h
    · rename_i hu
      split at h
      · cases h
      · rename_i hr
        cases h
        intro y hy
        rcases List.mem_cons.1 hy with rfl | hy
        · show Place.blank _ = _
          rw [onUnset_blank hu]
          exact hb (f, pl) List.mem_cons_self
        · exact ih hr (fun z hz => hb z (List.mem_cons_of_mem _ hz)) y hy

/-! ## The assertion and the output -/

theorem orFold {info : ArgsInfo} {env : Env V} {α : Type} (g : α → Ex) (b : α → Bool) : ∀ (l : List α) (acc : Ex) (c : Bool),
    (∀ a ∈ l, evalE info env (g a) = .ok (.bool (b a))) → evalE info env acc = .ok (.bool c) →
    evalE info env (l.foldl (fun acc a => .or acc (g a)) acc) = .ok (.bool (c || l.any b)) := by
  intro l
  induction l with
  | nil => intro acc c _ h; simpa using h
  | cons a l ih =>
    intro acc c hg h
    rw [List.foldl_cons, ih _ (c || b a)]
    · rw [List.any_cons, Bool.or_assoc]
    · intro x hx; exact hg x (List.mem_cons_of_mem _ hx)
    · rw [evalE, h]
      cases c with
      | true => rfl
      | false =>
        dsimp only
        rw [hg a List.mem_cons_self]
        rfl

theorem emitAssert_exec {info : ArgsInfo} {env : Env V} {vars : Vars V} (hv : ∀ x ∈ vars, env x.1.ident = some (.place x.2))
    {flatOuts : List (Str × Out V)} (hf : ∀ x ∈ flatOuts, env x.1 = some (.opt (some x.2)))
    (ho : env (lit "__out") = some (.opt none)) :
    execS info env (emitAssert (vars.map (·.1)) (flatOuts.map (·.1)))
      = if vars.any (fun x => x.1.kind = .value && !x.1.required && !x.2.isSet) then stuck else .ok env := by
  unfold emitAssert
  rw [execS]
  have h1 : evalE info env ((flatOuts.map (·.1)).foldl (fun acc ident => .or acc (.isNone (.var ident)))
      (.isSome (.var (lit "__out")))) = .ok (.bool false) := by
    rw [List.foldl_map]
    rw [orFold (fun x : Str × Out V => .isNone (.var x.1)) (fun _ => false) flatOuts _ false]
    · simp
    · intro a ha
      simp only [evalE, hf a ha, Option.isNone]
    · simp only [evalE, ho, Option.isSome]
  have h2 : evalE info env (((vars.map (·.1)).filter (fun f => decide (f.kind = .value) && !f.required)).foldl
      (fun acc f => .or acc (.isNone (.dot0 (.var f.ident))))
      ((flatOuts.map (·.1)).foldl (fun acc ident => .or acc (.isNone (.var ident))) (.isSome (.var (lit "__out")))))
      = .ok (.bool (vars.any (fun x => x.1.kind = .value && !x.1.required && !x.2.isSet))) := by
    rw [List.filter_map, List.foldl_map]
    rw [orFold (fun x : FieldInfo V × Place V => .isNone (.dot0 (.var x.1.ident))) (fun x => !x.2.isSet) _ _ false _ h1]
    · rw [Bool.false_or, List.any_filter]
      rfl
    · intro x hx
      exact (evalE_isSet (hv x (List.mem_filter.1 hx).1)).2
  rw [h2]
  cases vars.any (fun x => x.1.kind = .value && !x.1.required && !x.2.isSet) with
  | true => simp only [if_true]; rw [execB_one, execS]
  | false => rfl

theorem evalExtr_eq {env : Env V} {f : FieldInfo V} {pl : Place V} (hv : env f.ident = some (.place pl))
    (hb : pl.blank = f.initializer) : evalExtr env f.ident (extractor f)
      = match f.extract pl with
        | .error e => .error e
        | .ok o => .ok (.field o) := by
  unfold FieldInfo.initializer at hb
  unfold extractor FieldInfo.extract
  cases hk : f.kind <;> rw [hk] at hb <;> dsimp only at hb ⊢ <;> (try split at hb) <;> cases pl <;>
    simp only [Place.blank, reduceCtorEq] at hb <;> simp only [evalExtr, hv]
  all_goals rename_i s _
  all_goals cases s <;> rfl

theorem evalOutput_append {env : Env V} (a b : List (Str × Extr)) : evalOutput env (a ++ b)
    = match evalOutput env a with
      | .error e => .error e
      | .ok x =>
        match evalOutput env b with
        | .error e => .error e
        | .ok y => .ok (x ++ y) := by
  induction a with
  | nil => rw [List.nil_append, evalOutput]; dsimp only; cases evalOutput env b <;> rfl
  | cons x a ih =>
    obtain ⟨i, e⟩ := x
    rw [List.cons_append, evalOutput, evalOutput, ih]
    cases evalExtr env i e with
    | error e => rfl
    | ok o =>
      dsimp only
      cases evalOutput env a with
      | error e => rfl
      | ok x =>
        dsimp only
        cases evalOutput env b <;> rfl

theorem evalOutput_fields {env : Env V} : ∀ {vars : Vars V}, (∀ x ∈ vars, env x.1.ident = some (.place x.2)) →
    (∀ x ∈ vars, x.2.blank = x.1.initializer) →
    evalOutput env ((vars.map (·.1)).map (fun f => (f.ident, extractor f))) = extractAll vars := by
  intro vars
  induction vars with
  | nil => intro _ _; rw [extractAll, List.map_nil, List.map_nil, evalOutput]
  | cons x vars ih =>
    intro hv hb
    obtain ⟨f, pl⟩ := x
    rw [List.map_cons, List.map_cons, evalOutput, evalExtr_eq (hv (f, pl) List.mem_cons_self) (hb (f, pl) List.mem_cons_self),
      extractAll, ih (fun y hy => hv y (List.mem_cons_of_mem _ hy)) (fun y hy => hb y (List.mem_cons_of_mem _ hy))]
    cases f.extract pl with
    | error e => rfl
    | ok o => rfl

theorem evalOutput_flats {env : Env V} : ∀ {flatOuts : List (Str × Out V)}, (∀ x ∈ flatOuts, env x.1 = some (.opt (some x.2))) →
    evalOutput env ((flatOuts.map (·.1)).map (fun i => (i, Extr.unwrap))) = .ok flatOuts := by
  intro outs
  induction outs with
  | nil => intro _; rw [List.map_nil, List.map_nil, evalOutput]
  | cons x outs ih =>
    intro h
    rw [List.map_cons, List.map_cons, evalOutput, ih (fun y hy => h y (List.mem_cons_of_mem _ hy))]
    simp only [evalExtr, h x List.mem_cons_self]

theorem evalOutput_sub {env : Env V} {sub : SubField V} {subOut : Option (Out V)}
    (hs : ∀ i o, subIdent sub = some (i, o) → env i = some (.opt subOut)) :
    evalOutput env ((subIdent sub).toList.map (fun x => (x.1, if x.2 then Extr.plain else .unwrap))) = extractSub sub subOut := by
  cases sub with
  | none => simp only [subIdent, Option.toList, List.map_nil, evalOutput, extractSub]
  | some i o vs =>
    have h := hs i o rfl
    cases o with
    | true => simp only [subIdent, Option.toList, List.map_cons, List.map_nil, evalOutput, extractSub, evalExtr, h, if_true]
    | false =>
      simp only [subIdent, Option.toList, List.map_cons, List.map_nil, evalOutput, extractSub, evalExtr, h,
        Bool.false_eq_true, if_false]
      cases subOut <;> rfl

/-! ## Validation -/

/-- A required subcommand is missing. -/
def lackSub (sub : SubField V) (subOut : Option (Out V)) : Bool :=
  match sub with
  | .some _ false _ => subOut.isNone
  | _ => false

theorem emitSubcmd_exec {info : ArgsInfo} {env : Env V} {sub : SubField V} {subOut : Option (Out V)}
    (hs : ∀ i o, subIdent sub = some (i, o) → env i = some (.opt subOut)) :
    execB info env (emitSubcmd (subIdent sub))
      = if lackSub sub subOut then .error (.fail (.error (Error.new .missingRequiredSubcommand))) else .ok env := by
  cases sub with
  | none => simp only [subIdent, emitSubcmd, execB, lackSub, Bool.false_eq_true, if_false]
  | some i o vs =>
    have h := hs i o rfl
    cases o with
    | true => simp only [subIdent, emitSubcmd, execB, lackSub, Bool.false_eq_true, if_false]
    | false =>
      simp only [subIdent, emitSubcmd, execB_one, execS, evalE, h, lackSub]
      cases subOut with
      | none => simp [callErr]
      | some o => simp

/-- The output as a result. -/
def structOut (r : R (List (Str × Out V))) : R (Out V) :=
  match r with
  | .error e => .error e
  | .ok fields => .ok (.struct fields)

/-- Validation and output of the emitted code. -/
def emitFinish (info : ArgsInfo) (env : Env V) (stmts : List (St V)) (output : List (Str × Extr)) : R (Out V) :=
  match execB info env stmts with
  | .error s => .error s.toFail
  | .ok env => structOut (evalOutput env output)

theorem finish_exec {core : Core V} {flats : Flats V} {sub : SubField V} {info : ArgsInfo} {places : List (Place V)}
    {flatOuts : List (Str × Out V)} {subOut : Option (Out V)} {env : Env V}
    (hlen : places.map Place.blank = core.fields.map (·.initializer))
    (hn : (stateIdents core flats sub).Nodup) (hres : ∀ x ∈ stateIdents core flats sub, x ∉ reserved)
    (hfo : flatOuts.map (·.1) = flatIdents flats)
    (hv : HoldsVars env (core.fields.zip places)) (hf : ∀ x ∈ flatOuts, env x.1 = some (.opt (some x.2)))
    (hs : ∀ i o, subIdent sub = some (i, o) → env i = some (.opt subOut)) (hnone : subIdent sub = none → subOut = none)
    (ho : env (lit "__out") = some (.opt none)) (ht : env totalName = none) :
    emitFinish info env (emitValidate core.fields (flatIdents flats) (subIdent sub))
        ((stateVars core.fields (flatIdents flats) (subIdent sub)).map (fun (x, _, e) => (x, e)))
      = finish core sub info places flatOuts subOut := by
  have hfst : (core.fields.zip places).map (·.1) = core.fields := by
    apply List.map_fst_zip
    have := congrArg List.length hlen
    simp only [List.length_map] at this
    omega
  have hids : (core.fields.zip places).map (·.1.ident) = core.fields.map (·.ident) := by
    rw [show (fun x : FieldInfo V × Place V => x.1.ident) = FieldInfo.ident ∘ Prod.fst from rfl, ← List.map_map]
    exact congrArg (List.map FieldInfo.ident) hfst
  have hnd : ((core.fields.zip places).map (·.1.ident)).Nodup := by
    rw [hids]
    unfold stateIdents at hn
    exact (List.nodup_append.1 (List.nodup_append.1 hn).1).1
  have hblank : ∀ x ∈ core.fields.zip places, x.2.blank = x.1.initializer := by
    intro x hx
    obtain ⟨i, hi⟩ := List.mem_iff_getElem?.1 hx
    rw [List.getElem?_zip_eq_some] at hi
    have := congrArg (·[i]?) hlen
    simp only [List.getElem?_map, hi.1, hi.2, Option.map_some, Option.some.injEq] at this
    exact this
  generalize hvars : core.fields.zip places = vars at *
  have hmem : ∀ x ∈ vars, x.1.ident ∈ stateIdents core flats sub := by
    intro x hx
    unfold stateIdents
    rw [List.append_assoc, ← hids]
    exact List.mem_append_left _ (List.mem_map.2 ⟨x, hx, rfl⟩)
  have hfmem : ∀ x ∈ flatOuts, x.1 ∈ stateIdents core flats sub := by
    intro x hx
    unfold stateIdents
    rw [← hfo]
    exact List.mem_append_left _ (List.mem_append_right _ (List.mem_map.2 ⟨x, hx, rfl⟩))
  have hsmem : ∀ i o, subIdent sub = some (i, o) → i ∈ stateIdents core flats sub := by
    intro i o h
    unfold stateIdents
    rw [h]
    exact List.mem_append_right _ (by simp)
  have htot : ∀ x ∈ stateIdents core flats sub, x ≠ totalName := by
    intro x hx h
    exact hres x hx (by rw [h]; simp [reserved])
  have hdisj : ∀ x, x ∈ flatIdents flats ∨ x ∈ (subIdent sub).toList.map (·.1) → x ∉ vars.map (·.1.ident) := by
    intro x hx hx'
    rw [hids] at hx'
    unfold stateIdents at hn
    rw [List.append_assoc, List.nodup_append] at hn
    exact hn.2.2 x hx' x (List.mem_append.2 hx) rfl
  unfold finish
  dsimp only
  rw [hvars]
  unfold emitFinish emitValidate
  rw [← hfst] at *
  rw [hfst, ← hfst, execB_append, execB_append, execB_append, execB_append, emitTotal_exec hv.held hs hnone ht]
  cases (if (vars.map (·.1)).any (·.exclusive) then totalArgs vars subOut.isSome else (.ok 0 : R Nat)) with
  | error e => rfl
  | ok total =>
    dsimp only [toStop]
    generalize henv1 : (if (vars.map (·.1)).any (·.exclusive) = true then env.set totalName (.u8 total) else env) = env1
    have hsame : ∀ y, y ≠ totalName → env1 y = env y := by
      intro y hy
      rw [← henv1]
      split
      · exact set_other _ _ hy
      · rfl
    have hv1 : HoldsVars env1 vars := by
      constructor
      · intro x hx
        rw [hsame _ (htot _ (hmem x hx))]
        exact hv.held x hx
      · intro i hi p
        by_cases hit : i = totalName
        · rw [hit, ← henv1]
          split
          · rw [set_same]; intro h; cases h
          · rw [ht]; intro h; cases h
        · rw [hsame i hit]
          exact hv.other i hi p
    rw [onSets_exec (total := total) hnd hv1 vars (fun _ h => h) (by
      intro x hx hex
      rw [← henv1, if_pos (by
        rw [List.any_eq_true]
        exact ⟨x.1, List.mem_map.2 ⟨x, hx, rfl⟩, hex⟩), set_same])]
    cases onSetChecks info vars total vars with
    | error e => rfl
    | ok u =>
      dsimp only [toStop]
      obtain ⟨u1, u2⟩ := onUnsets_exec (info := info) vars env1 hnd hv1.held
      cases hu : onUnsets info vars with
      | error e => rw [u1 e hu]; rfl
      | ok vars' =>
        obtain ⟨env2, e1, e2, e3⟩ := u2 vars' hu
        rw [e1]
        dsimp only
        have hsame2 : ∀ y, y ∉ vars.map (·.1.ident) → y ≠ totalName → env2 y = env y := by
          intro y h1 h2
          rw [e3 y h1, hsame y h2]
        have hs2 : ∀ i o, subIdent sub = some (i, o) → env2 i = some (.opt subOut) := by
          intro i o h
          rw [hsame2 i (hdisj i (.inr (by rw [h]; simp))) (htot _ (hsmem i o h))]
          exact hs i o h
        have hf2 : ∀ x ∈ flatOuts, env2 x.1 = some (.opt (some x.2)) := by
          intro x hx
          rw [hsame2 x.1 (hdisj x.1 (.inl (by rw [← hfo]; exact List.mem_map.2 ⟨x, hx, rfl⟩))) (htot _ (hfmem x hx))]
          exact hf x hx
        have ho2 : env2 (lit "__out") = some (.opt none) := by
          rw [hsame2 _ (fun h => ?_) (by decide), ho]
          obtain ⟨x, hx, hxe⟩ := List.mem_map.1 h
          exact hres _ (hmem x hx) (by rw [hxe]; simp [reserved])
        rw [emitSubcmd_exec hs2]
        cases hc : lackSub sub subOut with
        | true =>
          refine Eq.trans ?_ (if_pos hc).symm
          rfl
        | false =>
          have hc' : ¬ lackSub sub subOut = true := by rw [hc]; exact Bool.false_ne_true
          refine Eq.trans ?_ (if_neg hc').symm
          simp only [Bool.false_eq_true, if_false]
          have hfst' := onUnsets_fst hu
          rw [← hfst', ← hfo, execB_one, emitAssert_exec e2 hf2 ho2]
          generalize (vars'.any (fun x => x.1.kind = .value && !x.1.required && !x.2.isSet)) = c
          cases c with
          | true => rfl
          | false =>
            simp only [Bool.false_eq_true, if_false]
            unfold stateVars
            rw [List.map_append, List.map_append, evalOutput_append, evalOutput_append]
            rw [List.map_map, List.map_map, List.map_map]
            have o1 := evalOutput_fields e2 (onUnsets_blank hu hblank)
            have o2 := evalOutput_flats hf2
            have o3 := evalOutput_sub hs2
            simp only [Function.comp_def, List.map_map] at o1 o2 o3 ⊢
            rw [o1]
            cases extractAll vars' with
            | error e => rfl
            | ok direct =>
              dsimp only
              rw [o2]
              dsimp only
              rw [o3]
              cases extractSub sub subOut <;> rfl

/-! ## Variables -/

theorem execLets_spec : ∀ (l : List (Str × Init V)) (env : Env V), (l.map (·.1)).Nodup → (∀ x ∈ l.map (·.1), env x = none) →
    ∃ env', execLets env l = some env' ∧ (∀ x ∈ l, env' x.1 = some x.2.val) ∧ ∀ y, y ∉ l.map (·.1) → env' y = env y := by
  intro l
  induction l with
  | nil => intro env _ _; exact ⟨env, rfl, by intro x hx; (cases hx), fun _ _ => rfl⟩
  | cons x l ih =>
    intro env hn hnone
    rw [List.map_cons, List.nodup_cons] at hn
    obtain ⟨env', h1, h2, h3⟩ := ih (env.set x.1 x.2.val) hn.2 (by
      intro y hy
      rw [set_other]
      · exact hnone y (by rw [List.map_cons]; exact List.mem_cons_of_mem _ hy)
      · intro h; rw [h] at hy; exact hn.1 hy)
    refine ⟨env', ?_, ?_, ?_⟩
    · obtain ⟨i, v⟩ := x
      rw [execLets, hnone i (by simp)]
      exact h1
    · intro y hy
      rcases List.mem_cons.1 hy with rfl | hy
      · rw [h3 _ hn.1, set_same]
      · exact h2 y hy
    · intro y hy
      rw [List.map_cons, List.mem_cons, not_or] at hy
      rw [h3 y hy.2, set_other _ _ hy.1]

theorem readRefs_eq {env : Env V} : ∀ {vars : Vars V}, (∀ x ∈ vars, env x.1.ident = some (.place x.2)) →
    readRefs env (vars.map (·.1.ident)) = some (vars.map (·.2)) := by
  intro vars
  induction vars with
  | nil => intro _; rfl
  | cons x vars ih =>
    intro h
    rw [List.map_cons, readRefs, h x List.mem_cons_self]
    dsimp only
    rw [ih (fun y hy => h y (List.mem_cons_of_mem _ hy))]
    rfl

theorem writeRefs_spec : ∀ (refs : List Str) (ps : List (Place V)) (env : Env V), refs.Nodup → refs.length = ps.length →
    ∃ env', writeRefs env refs ps = some env' ∧ (∀ x ∈ refs.zip ps, env' x.1 = some (.place x.2))
      ∧ ∀ y, y ∉ refs → env' y = env y := by
  intro refs
  induction refs with
  | nil =>
    intro ps env _ hl
    cases ps with
    | nil => exact ⟨env, rfl, by intro x hx; (cases hx), fun _ _ => rfl⟩
    | cons p ps => simp at hl
  | cons r refs ih =>
    intro ps env hn hl
    cases ps with
    | nil => simp at hl
    | cons p ps =>
      rw [List.nodup_cons] at hn
      obtain ⟨env', h1, h2, h3⟩ := ih ps env hn.2 (by simpa using hl)
      refine ⟨env'.set r (.place p), by rw [writeRefs, h1]; rfl, ?_, ?_⟩
      · intro x hx
        rw [List.zip_cons_cons] at hx
        rcases List.mem_cons.1 hx with rfl | hx
        · rw [set_same]
        · rw [set_other]
          · exact h2 x hx
          · intro h
            exact hn.1 (h ▸ (List.of_mem_zip (a := x.1) (b := x.2) hx).1)
      · intro y hy
        rw [List.mem_cons, not_or] at hy
        rw [set_other _ _ hy.1, h3 y hy.2]

/-- Variables of flattened structs after parsing. -/
def writeOuts (env : Env V) (outs : List (Str × Out V)) : Env V := outs.foldl (fun env x => env.set x.1 (.opt (some x.2))) env

theorem writeOuts_spec : ∀ (outs : List (Str × Out V)) (env : Env V), (outs.map (·.1)).Nodup →
    (∀ x ∈ outs, writeOuts env outs x.1 = some (.opt (some x.2))) ∧ ∀ y, y ∉ outs.map (·.1) → writeOuts env outs y = env y := by
  intro outs
  induction outs with
  | nil => intro env _; exact ⟨by intro x hx; (cases hx), fun _ _ => rfl⟩
  | cons o outs ih =>
    intro env hn
    rw [List.map_cons, List.nodup_cons] at hn
    obtain ⟨h1, h2⟩ := ih (env.set o.1 (.opt (some o.2))) hn.2
    constructor
    · intro x hx
      rcases List.mem_cons.1 hx with rfl | hx
      · exact (h2 _ hn.1).trans (set_same _ _ _)
      · exact h1 x hx
    · intro y hy
      rw [List.map_cons, List.mem_cons, not_or] at hy
      exact (h2 y hy.2).trans (set_other _ _ hy.1)

/-! ## The parsing functions -/

mutual
/-- All names are usable as variables. -/
def Scoped : ArgsDef V → Prop
  | .mk core flats sub => (stateIdents core flats sub).Nodup ∧ (∀ x ∈ stateIdents core flats sub, x ∉ reserved)
      ∧ ScopedFlats flats ∧ ScopedSub sub
def ScopedFlats : Flats V → Prop
  | .nil => True
  | .cons _ d rest => Scoped d ∧ ScopedFlats rest
def ScopedSub : SubField V → Prop
  | .none => True
  | .some _ _ vs => ScopedVariants vs
def ScopedVariants : Variants V → Prop
  | .nil => True
  | .cons v rest => ScopedVariant v ∧ ScopedVariants rest
def ScopedVariant : Variant V → Prop
  | .unit _ _ _ => True
  | .args _ _ d => Scoped d
end

/-- What flattened structs return, joined. -/
def joinFlats {α β : Type} (g : β → Env V × α) : R (β × List (Str × Out V) × Chain V × Toks) → R ((Env V × α) × Chain V × Toks)
  | .error e => .error e
  | .ok (b, outs, ch, toks) => .ok ((writeOuts (g b).1 outs, (g b).2), ch, toks)

theorem flatsParse_idents : (fl : Flats V) → {β : Type} → (inner : Chain V → Toks → R (β × Chain V × Toks)) → (ch : Chain V) →
    (toks : Toks) → ∀ b outs ch' toks', flatsParse fl inner ch toks = .ok (b, outs, ch', toks') → outs.map (·.1) = flatIdents fl
  | .nil, β, inner, ch, toks => by
    intro b outs ch' toks' h
    rw [flatsParse] at h
    split at h
    · cases h
    · cases h; rfl
  | .cons i d rest, β, inner, ch, toks => by
    intro b outs ch' toks' h
    rw [flatsParse] at h
    split at h
    · cases h
    · rename_i hf
      cases h
      rw [List.map_cons, flatIdents, flatsParse_idents rest _ _ _ _ _ _ _ hf]

/-- The variables after the call of the parser. -/
def afterRun {α : Type} (env : Env V) (refs : List Str) (sub : Option Str) (b : ArgsFrame V × Option (Out V) × α) : Env V × α :=
  (writeSub ((writeRefs env refs b.1.fields).getD env) sub b.2.1, b.2.2)

theorem evalRun_run {α : Type} {info : ArgsInfo} {tbl : Str → ParseFn V} {subp : Option (SubPlace V)} {run : RunParser V α}
    {P : α → Prop} (hr : RunKeeps P run) {env : Env V} {refs : List Str} {places : List (Place V)} {sub : Option Str}
    (hsk : ∀ s, subp = some s → SubKeeps s) (hs : sub = none → subp = none) (hrefs : env (lit "__fields") = some (.refs refs))
    (hread : readRefs env refs = some places) (hnd : refs.Nodup) (hlen : refs.length = places.length) (ch : Chain V) (toks : Toks) :
    evalRun info tbl subp run (.run sub) env ch toks
      = mapInner (afterRun env refs sub) (runInner run { fields := places, info, nextPositional := 0 } subp ch toks) := by
  rw [evalRun, hrefs]
  dsimp only
  rw [hread]
  dsimp only
  have hsub : (if sub.isSome then subp else none) = subp := by
    cases sub with
    | none => rw [hs rfl]; rfl
    | some x => rfl
  rw [hsub]
  have hk := runInner_keeps hr (fr := { fields := places, info, nextPositional := 0 }) hsk ch toks
  unfold runInner at hk ⊢
  cases hrun : run { fields := places, info, nextPositional := 0 } subp ch toks with
  | error e => rfl
  | ok r =>
    obtain ⟨fr, o, ch', toks', a⟩ := r
    rw [hrun] at hk
    have := (hk _ _ _ rfl).2.1
    dsimp only at this
    have hl := congrArg List.length this
    simp only [List.length_map] at hl
    obtain ⟨env', h1, _, _⟩ := writeRefs_spec refs fr.fields env hnd (by omega)
    dsimp only [mapInner, afterRun]
    rw [h1]
    rfl

mutual
theorem execArgs_eq : (d : ArgsDef V) → Scoped d → {α : Type} → {P : α → Prop} → {run : RunParser V α} → RunKeeps P run →
    (ch : Chain V) → (toks : Toks) → execArgs d α ch run toks = argsParse d ch run toks
  | .mk core flats sub, hsc, α, P, run, hr, ch, toks => by
    rw [Scoped] at hsc
    obtain ⟨hn, hres, hscf, hscs⟩ := hsc
    have hsub := execSub_eq sub hscs
    rw [execArgs, argsParse, execBody]
    have hst : (stateVars core.fields (flatIdents flats) (subIdent sub)).map (·.1) = stateIdents core flats sub := by
      unfold stateVars stateIdents
      simp only [List.map_append, List.map_map, Function.comp_def, List.map_id']
    have hout : ∀ x ∈ stateIdents core flats sub, params (V := V) x = none := by
      intro x hx
      unfold params
      rw [if_neg]
      intro h
      exact hres x hx (by rw [h]; simp [reserved])
    have hlets : (emitBody core.fields (flatIdents flats) (subIdent sub)).lets.map (·.1) = stateIdents core flats sub := by
      unfold emitBody
      dsimp only
      rw [List.map_map, ← hst]
      rfl
    obtain ⟨env0, l1, l2, l3⟩ := execLets_spec (emitBody core.fields (flatIdents flats) (subIdent sub)).lets params
      (by rw [hlets]; exact hn) (by rw [hlets]; exact hout)
    rw [hlets] at l3
    have hother : ∀ y ∈ reserved, y ∉ stateIdents core flats sub := fun y hy h => hres y h hy
    rw [l1]
    dsimp only
    have hfields : env0 (lit "__fields") = none := by
      rw [l3 _ (hother _ (by simp [reserved]))]
      unfold params
      rw [if_neg (by decide)]
    rw [hfields]
    simp only [Option.isSome_none, Bool.false_eq_true, if_false]
    generalize henv : env0.set (lit "__fields") (.refs (emitBody core.fields (flatIdents flats) (subIdent sub)).fieldRefs) = env
    have hrefs : (emitBody core.fields (flatIdents flats) (subIdent sub)).fieldRefs = core.fields.map (·.ident) := rfl
    have hidn : ∀ x ∈ stateIdents core flats sub, x ≠ lit "__fields" := by
      intro x hx h
      exact hres x hx (by rw [h]; simp [reserved])
    have hsame : ∀ y, y ≠ lit "__fields" → env y = env0 y := by
      intro y hy
      rw [← henv, set_other _ _ hy]
    have hfmem : ∀ f ∈ core.fields, f.ident ∈ stateIdents core flats sub := by
      intro f hf
      unfold stateIdents
      rw [List.append_assoc]
      exact List.mem_append_left _ (List.mem_map.2 ⟨f, hf, rfl⟩)
    have hinit : ∀ f ∈ core.fields, env f.ident = some (.place f.initializer) := by
      intro f hf
      rw [hsame _ (hidn _ (hfmem f hf))]
      refine l2 (f.ident, .place f.initializer) ?_
      unfold emitBody stateVars
      dsimp only
      refine List.mem_map.2 ⟨(f.ident, .place f.initializer, extractor f), ?_, rfl⟩
      rw [List.append_assoc]
      exact List.mem_append_left _ (List.mem_map.2 ⟨f, hf, rfl⟩)
    have hnd : (core.fields.map (·.ident)).Nodup := by
      unfold stateIdents at hn
      exact (List.nodup_append.1 (List.nodup_append.1 hn).1).1
    have hndf : (flatIdents flats).Nodup := by
      unfold stateIdents at hn
      exact (List.nodup_append.1 (List.nodup_append.1 hn).1).2.1
    have hread : readRefs env (core.fields.map (·.ident)) = some (core.fields.map (·.initializer)) := by
      have := readRefs_eq (env := env) (vars := core.fields.map (fun f => (f, f.initializer))) (by
        intro x hx
        obtain ⟨f, hf, rfl⟩ := List.mem_map.1 hx
        exact hinit f hf)
      rw [List.map_map, List.map_map] at this
      exact this
    have hinner := evalRun_run (info := (ArgsDef.mk core flats sub).info) (tbl := execFlats flats) (subp := subPlace sub) hr
      (env := env) (refs := core.fields.map (·.ident)) (places := core.fields.map (·.initializer)) (sub := (subIdent sub).map (·.1))
      (subPlace_keeps sub) (by
        intro h
        cases sub with
        | none => rw [subPlace]
        | some i o vs => simp [subIdent] at h)
      (by rw [← henv, set_same, hrefs]) hread hnd (by simp)
    have hkeep := runInner_keeps hr (fr := { fields := core.fields.map (·.initializer), info := (ArgsDef.mk core flats sub).info, nextPositional := 0 })
      (subPlace_keeps sub)
    have hflats := execFlats_eq flats hscf hndf (info := (ArgsDef.mk core flats sub).info) (tbl := execFlats flats)
      (subp := subPlace sub) (run := run) (env := env) (fun _ _ => rfl) hkeep hinner ch toks
    rw [hsub]
    unfold emitBody runExpr
    dsimp only
    rw [hflats]
    cases hfp : flatsParse flats (runInner run
        { fields := core.fields.map (·.initializer), info := (ArgsDef.mk core flats sub).info, nextPositional := 0 }
        (subPlace sub)) ch toks with
    | error e => rfl
    | ok r =>
      obtain ⟨⟨fr, o, a⟩, outs, ch', toks'⟩ := r
      obtain ⟨_, hsh, _, ho⟩ := flatsParse_keeps flats hkeep ch toks _ _ _ _ hfp
      have hids := flatsParse_idents flats _ ch toks _ _ _ _ hfp
      dsimp only [joinFlats, afterRun]
      have hbl : fr.fields.map Place.blank = core.fields.map (·.initializer) := by
        refine Eq.trans hsh ?_
        rw [List.map_map]
        apply List.map_congr_left
        intro f _
        show f.initializer.blank = f.initializer
        unfold FieldInfo.initializer
        cases f.kind <;> (try cases f.valueDelimiter) <;> rfl
      have hlen : (core.fields.map (·.ident)).length = fr.fields.length := by
        have := congrArg List.length hbl
        simp only [List.length_map] at this ⊢
        omega
      obtain ⟨env1, w1, w2, w3⟩ := writeRefs_spec (core.fields.map (·.ident)) fr.fields env hnd hlen
      rw [w1, Option.getD_some]
      generalize henv2 : writeSub env1 ((subIdent sub).map (·.1)) o = env2
      obtain ⟨o1, o2⟩ := writeOuts_spec outs env2 (by rw [hids]; exact hndf)
      have hdis1 : ∀ x ∈ core.fields.map (·.ident), x ∉ flatIdents flats ∧ ∀ i b, subIdent sub = some (i, b) → x ≠ i := by
        intro x hx
        unfold stateIdents at hn
        rw [List.append_assoc, List.nodup_append] at hn
        refine ⟨fun h => hn.2.2 x hx x (List.mem_append_left _ h) rfl, ?_⟩
        intro i b hi
        exact hn.2.2 x hx i (List.mem_append_right _ (by rw [hi]; simp))
      have hdis2 : ∀ i b, subIdent sub = some (i, b) → i ∉ flatIdents flats := by
        intro i b hi h
        unfold stateIdents at hn
        rw [List.nodup_append] at hn
        exact hn.2.2 i (List.mem_append_right _ h) i (by rw [hi]; simp) rfl
      have hw2 : ∀ y, (∀ i b, subIdent sub = some (i, b) → y ≠ i) → env2 y = env1 y := by
        intro y hy
        rw [← henv2]
        unfold writeSub
        cases hsi : subIdent sub with
        | none => rfl
        | some x =>
          obtain ⟨i, b⟩ := x
          exact set_other _ _ (hy i b hsi)
      have hresv : ∀ y ∈ reserved, y ≠ lit "__fields" → writeOuts env2 outs y = params y := by
        intro y hy hne
        have hy' := hother y hy
        unfold stateIdents at hy'
        rw [List.mem_append, List.mem_append, not_or, not_or] at hy'
        rw [o2 y (by rw [hids]; exact hy'.1.2), hw2 y (by
          intro i b hi h
          exact hy'.2 (by rw [hi, h]; simp)), w3 y hy'.1.1, hsame y hne, l3 y (hother y hy)]
      have hsubv : ∀ i b, subIdent sub = some (i, b) → env2 i = some (.opt o) := by
        intro i b hi
        rw [← henv2, hi]
        exact set_same _ _ _
      have hholds : HoldsVars (writeOuts env2 outs) (core.fields.zip fr.fields) := by
        constructor
        · intro x hx
          have hm : x.1.ident ∈ core.fields.map (·.ident) :=
            List.mem_map.2 ⟨x.1, (List.of_mem_zip (a := x.1) (b := x.2) hx).1, rfl⟩
          rw [o2 _ (by rw [hids]; exact (hdis1 _ hm).1), hw2 _ (hdis1 _ hm).2]
          refine w2 (x.1.ident, x.2) ?_
          rw [List.zip_map_left]
          exact List.mem_map.2 ⟨x, hx, rfl⟩
        · intro i hi p hp
          have hi' : i ∉ core.fields.map (·.ident) := by
            intro h
            apply hi
            rw [show (fun x : FieldInfo V × Place V => x.1.ident) = FieldInfo.ident ∘ Prod.fst from rfl, ← List.map_map,
              List.map_fst_zip (by simp only [List.length_map] at hlen; omega)]
            exact h
          by_cases hif : i ∈ outs.map (·.1)
          · obtain ⟨x, hx, rfl⟩ := List.mem_map.1 hif
            rw [o1 x hx] at hp
            cases hp
          · rw [o2 i hif] at hp
            by_cases his : ∃ b, subIdent sub = some (i, b)
            · obtain ⟨b, hb⟩ := his
              rw [hsubv i b hb] at hp
              cases hp
            · rw [hw2 i (by
                intro j b hj h
                exact his ⟨b, by rw [h]; exact hj⟩), w3 i hi'] at hp
              by_cases hfi : i = lit "__fields"
              · rw [hfi, ← henv, set_same] at hp
                cases hp
              · rw [hsame i hfi, l3 i (by
                  unfold stateIdents
                  rw [List.mem_append, List.mem_append, not_or, not_or]
                  refine ⟨⟨hi', by rw [← hids]; exact hif⟩, ?_⟩
                  intro h
                  obtain ⟨x, hx, rfl⟩ := List.mem_map.1 h
                  exact his ⟨x.2, Option.mem_toList.1 hx⟩)] at hp
                unfold params at hp
                split at hp <;> cases hp
      have hfin := finish_exec (info := (ArgsDef.mk core flats sub).info) (subOut := o) hbl hn hres hids hholds o1 (by
        intro i b hi
        rw [o2 i (by rw [hids]; exact hdis2 i b hi)]
        exact hsubv i b hi) (by
        intro h
        apply ho
        cases sub with
        | none => rw [subPlace]
        | some i o vs => simp [subIdent] at h)
        (by rw [hresv _ (by simp [reserved]) (by decide)]; rfl)
        (by rw [hresv _ (by simp [reserved]) (by decide)]; rfl)
      rw [← hfin]
      unfold emitFinish
      cases execB (ArgsDef.mk core flats sub).info (writeOuts env2 outs)
          (emitValidate core.fields (flatIdents flats) (subIdent sub)) with
      | error s => rfl
      | ok env3 =>
        dsimp only
        cases evalOutput env3 ((stateVars core.fields (flatIdents flats) (subIdent sub)).map (fun (x, _, e) => (x, e))) <;> rfl
theorem execFlats_eq : (fl : Flats V) → ScopedFlats fl → (flatIdents fl).Nodup → {α β : Type} → {info : ArgsInfo} →
    {tbl : Str → ParseFn V} → {subp : Option (SubPlace V)} → {run : RunParser V α} → {env : Env V} → {r0 : RunEx} → {P : β → Prop} →
    {inner : Chain V → Toks → R (β × Chain V × Toks)} → {g : β → Env V × α} →
    (∀ i ∈ flatIdents fl, tbl i = execFlats fl i) → InnerKeeps P inner →
    (∀ ch toks, evalRun info tbl subp run r0 env ch toks = mapInner g (inner ch toks)) → (ch : Chain V) → (toks : Toks) →
    evalRun info tbl subp run ((flatIdents fl).foldl (fun runParser ident => .flatten ident runParser) r0) env ch toks
      = joinFlats g (flatsParse fl inner ch toks)
  | .nil, _, _, α, β, info, tbl, subp, run, env, r0, P, inner, g, _, _, h, ch, toks => by
    rw [flatsParse, flatIdents, List.foldl_nil, h]
    cases inner ch toks with
    | error e => rfl
    | ok r => rfl
  | .cons i d rest, hsc, hn, α, β, info, tbl, subp, run, env, r0, P, inner, g, htbl, hk, h, ch, toks => by
    rw [ScopedFlats] at hsc
    rw [flatIdents, List.nodup_cons] at hn
    rw [flatsParse, flatIdents, List.foldl_cons]
    have hk' : InnerKeeps (fun b => P b.1) (fun chain toks => pairOut (argsParse d chain (wrapFrame inner) toks)) := by
      intro ch toks b ch' toks' h
      dsimp only at h
      cases ha : argsParse d ch (wrapFrame inner) toks with
      | error e => rw [ha] at h; cases h
      | ok r =>
        rw [ha] at h
        cases h
        exact argsParse_keeps d (wrapFrame_keeps hk) ch toks _ _ _ _ ha
    have hstep : ∀ ch toks, evalRun info tbl subp run (.flatten i r0) env ch toks
        = mapInner (fun b => ((g b.1).1.set i (.opt (some b.2)), (g b.1).2)) (pairOut (argsParse d ch (wrapFrame inner) toks)) := by
      intro ch toks
      rw [evalRun, htbl i (by rw [flatIdents]; simp), execFlats, if_pos rfl]
      have hin : evalRun info tbl subp run r0 env = fun ch toks => mapInner g (inner ch toks) := by
        funext ch toks; exact h ch toks
      have hkg : InnerKeeps (fun _ => True) (fun ch toks => mapInner g (inner ch toks)) := by
        intro ch toks b ch' toks' h
        dsimp only at h
        cases hi : inner ch toks with
        | error e => rw [hi] at h; cases h
        | ok r =>
          rw [hi] at h
          cases h
          exact ⟨(hk _ _ _ _ _ hi).1, trivial⟩
      rw [hin, execArgs_eq d hsc.1 (wrapFrame_keeps hkg), wrapFrame_nat, argsParse_nat]
      cases argsParse d ch (wrapFrame inner) toks with
      | error e => rfl
      | ok r => rfl
    rw [execFlats_eq rest hsc.2 hn.2 (by
      intro j hj
      rw [htbl j (by rw [flatIdents]; exact List.mem_cons_of_mem _ hj)]
      funext α ch run toks
      rw [execFlats, if_neg]
      intro h
      rw [h] at hj
      exact hn.1 hj) hk' hstep]
    cases flatsParse rest (fun chain toks => pairOut (argsParse d chain (wrapFrame inner) toks)) ch toks with
    | error e => rfl
    | ok r => rfl
theorem execSub_eq : (sub : SubField V) → ScopedSub sub → execSub sub = subPlace sub
  | .none, _ => by rw [execSub, subPlace]
  | .some _ _ vs, h => by
    rw [ScopedSub] at h
    rw [execSub, subPlace]
    congr 1
    funext i ch toks
    exact execVariants_eq vs h i ch toks
theorem execVariants_eq : (vs : Variants V) → ScopedVariants vs → (i : Nat) → (ch : Chain V) → (toks : Toks) →
    execVariants vs i ch toks = variantsParse vs i ch toks
  | .nil, _, _, _, _ => by rw [execVariants, variantsParse]
  | .cons v _, h, 0, ch, toks => by
    rw [ScopedVariants] at h
    rw [execVariants, variantsParse]
    exact execVariant_eq v h.1 ch toks
  | .cons _ rest, h, i + 1, ch, toks => by
    rw [ScopedVariants] at h
    rw [execVariants, variantsParse]
    exact execVariants_eq rest h.2 i ch toks
theorem execVariant_eq : (v : Variant V) → ScopedVariant v → (ch : Chain V) → (toks : Toks) →
    execVariant v ch toks = variantParse v ch toks
  | .unit _ _ cmeta, _, ch, toks => by
    rw [execVariant, variantParse]
    cases rawRun (V := V) { fields := [], info := unitInfo cmeta, nextPositional := 0 } none ch toks <;> rfl
  | .args _ _ d, h, ch, toks => by
    rw [ScopedVariant] at h
    rw [execVariant, variantParse, execArgs_eq d h rawRun_keeps]
    cases argsParse d ch rawRun toks <;> rfl
end

theorem emitted_eq {d : ArgsDef V} (h : Scoped d) (argv : List Bytes) : emittedTryParseFrom d argv = tryParseFrom d argv := by
  unfold emittedTryParseFrom tryParseFrom
  cases argv with
  | nil => rfl
  | cons arg0 toks =>
    dsimp only [structRunParser]
    rw [execArgs_eq d h rawRun_keeps]
    cases argsParse d [.command (lossy ((fileName arg0).getD arg0))] rawRun toks <;> rfl

/-! ## Names of accepted structs -/

theorem flatIdents_ofList (l : List (Str × ArgsDef V)) : flatIdents (Flats.ofList l) = l.map (·.1) := by
  induction l with
  | nil => rfl
  | cons x l ih =>
    obtain ⟨i, d⟩ := x
    rw [Flats.ofList, flatIdents, ih, List.map_cons]

theorem idents_split (cx : Cx V) (ds : List (FieldDecl V)) :
    ((declFields cx ds).map (·.ident) ++ (ds.filterMap declFlat).map (·.1) ++ (ds.filterMap declSub).map (·.1)).Perm
      (ds.map (·.ident)) := by
  induction ds with
  | nil => exact .nil
  | cons x ds ih =>
    cases x with
    | arg i ty m =>
      have h1 : declFields cx (.arg i ty m :: ds) = (argField cx i ty m).2 :: declFields cx ds := by
        simp [declFields, declField]
      rw [h1, List.map_cons, (argField_src cx i ty m).2.1]
      exact ih.cons i
    | subcommand i o vs =>
      have h1 : declFields cx (.subcommand i o vs :: ds) = declFields cx ds := rfl
      have h2 : (FieldDecl.subcommand i o vs :: ds).filterMap declFlat = ds.filterMap declFlat := rfl
      have h3 : (FieldDecl.subcommand i o vs :: ds).filterMap declSub = (i, o, vs) :: ds.filterMap declSub := rfl
      rw [h1, h2, h3, List.map_cons, List.map_cons]
      exact List.perm_middle.trans (ih.cons i)
    | flatten i d =>
      have h1 : declFields cx (.flatten i d :: ds) = declFields cx ds := rfl
      have h2 : (FieldDecl.flatten i d :: ds).filterMap declFlat = (i, d) :: ds.filterMap declFlat := rfl
      have h3 : (FieldDecl.flatten i d :: ds).filterMap declSub = ds.filterMap declSub := rfl
      rw [h1, h2, h3, List.map_cons, List.map_cons, List.append_assoc, List.cons_append]
      refine List.perm_middle.trans (List.Perm.cons i ?_)
      rw [← List.append_assoc]
      exact ih

theorem derive_nodup {cx : Cx V} {cmeta : Option CommandMeta} {ds : List (FieldDecl V)} {core : Core V} {flats : Flats V}
    {sub : SubField V} (h : deriveArgs cx cmeta ds = .ok (.mk core flats sub)) : (stateIdents core flats sub).Nodup := by
  have acc := deriveArgs_ok h
  have hids : (ds.map (·.ident)).Nodup := by
    apply identsDistinct_nodup
    unfold deriveArgs at h
    split at h
    · cases h
    · obtain ⟨he, _⟩ := ite_ok h
      simp only [List.append_eq_nil_iff] at he
      refine Classical.byContradiction fun hne => ?_
      have := he.2
      rw [if_neg hne] at this
      cases this
  have h1 : (core.fields.map (·.ident)).Perm ((declFields cx ds).map (·.ident)) :=
    fields_perm h (·.ident) (fun _ _ => rfl)
  have h2 : flatIdents flats = (ds.filterMap declFlat).map (·.1) := by rw [acc.flatsEq, flatIdents_ofList]
  have h3 : (subIdent sub).toList.map (·.1) = (ds.filterMap declSub).map (·.1) := by
    rw [← acc.subEq]
    cases sub <;> rfl
  unfold stateIdents
  rw [h2, h3, (((h1.append_right _).append_right _).trans (idents_split cx ds)).nodup_iff]
  exact hids

theorem scoped_ofList {l : List (Str × ArgsDef V)} (h : ∀ x ∈ l, NoReserved x.2 → Scoped x.2)
    (hn : NoReservedFlats (Flats.ofList l)) : ScopedFlats (Flats.ofList l) := by
  induction l with
  | nil => rw [Flats.ofList, ScopedFlats]; trivial
  | cons x l ih =>
    obtain ⟨i, d⟩ := x
    rw [Flats.ofList, NoReservedFlats] at hn
    rw [Flats.ofList, ScopedFlats]
    exact ⟨h _ List.mem_cons_self hn.1, ih (fun y hy => h y (List.mem_cons_of_mem _ hy)) hn.2⟩

theorem scoped_deriveSub {cx : Cx V} {l : List (VariantDecl V)} (h : ∀ i d, VariantDecl.args i d ∈ l → NoReserved d → Scoped d)
    (hn : NoReservedVariants (deriveSub cx l)) : ScopedVariants (deriveSub cx l) := by
  induction l with
  | nil => rw [deriveSub, ScopedVariants]; trivial
  | cons x l ih =>
    have ih := ih (fun i d hd => h i d (List.mem_cons_of_mem _ hd))
    cases x with
    | unit i c =>
      rw [deriveSub, NoReservedVariants] at hn
      rw [deriveSub, ScopedVariants, ScopedVariant]
      exact ⟨trivial, ih hn.2⟩
    | args i d =>
      rw [deriveSub, NoReservedVariants, NoReservedVariant] at hn
      rw [deriveSub, ScopedVariants, ScopedVariant]
      exact ⟨h i d List.mem_cons_self hn.1, ih hn.2⟩

theorem derived_scoped {cx : Cx V} {d : ArgsDef V} (h : DerivedArgs cx d) : NoReserved d → Scoped d := by
  refine DerivedArgs.rec (motive_1 := fun d _ => NoReserved d → Scoped d)
    (motive_2 := fun vs _ => NoReservedVariants vs → ScopedVariants vs) ?_ ?_ h
  · intro d cmeta ds _ _ h ihf ihs hn
    obtain ⟨core, flats, sub⟩ := d
    have acc := deriveArgs_ok h
    rw [NoReserved] at hn
    rw [Scoped]
    refine ⟨derive_nodup h, hn.1, ?_, ?_⟩
    · have hn := hn.2.1
      rw [acc.flatsEq] at hn ⊢
      refine scoped_ofList ?_ hn
      intro x hx
      rw [List.mem_filterMap] at hx
      obtain ⟨y, hy, hyx⟩ := hx
      cases y with
      | flatten i d => simp only [declFlat, Option.some.injEq] at hyx; subst hyx; exact ihf i d hy
      | arg => simp [declFlat] at hyx
      | subcommand => simp [declFlat] at hyx
    · have hns := hn.2.2
      have := acc.subEq
      cases sub with
      | none => rw [ScopedSub]; trivial
      | some i o vs =>
        rw [NoReservedSub] at hns
        rw [ScopedSub]
        have hm : (i, o, vs) ∈ ds.filterMap declSub := by rw [← this]; simp [subToList]
        rw [List.mem_filterMap] at hm
        obtain ⟨y, hy, hyx⟩ := hm
        cases y with
        | subcommand i' o' vs' =>
          simp only [declSub, Option.some.injEq, Prod.mk.injEq] at hyx
          obtain ⟨rfl, rfl, rfl⟩ := hyx
          exact ihs _ _ _ hy hns
        | arg => simp [declSub] at hyx
        | flatten => simp [declSub] at hyx
  · intro vs l _ h ih hn
    subst h
    exact scoped_deriveSub ih hn

end Palc.Emit
