import Verif.Lemmas.Legal
import Verif.Example
/-!
# Which structs the derive macros accept (C54)
-/

namespace Palc

open Spec

variable {V : Type} {cx : Cx V} {cmeta : Option CommandMeta} {ds ds' : List (FieldDecl V)} {d : ArgsDef V}

/-- C54: a struct is accepted exactly if its fields follow the rules of `Spec.Legal`. -/
theorem C54_accepted_iff (hflat : ∀ i d', FieldDecl.flatten i d' ∈ ds → DerivedArgs cx d') :
    (∃ d, deriveArgs cx cmeta ds = .ok d) ↔ Legal cx ds :=
  deriveArgs_legal (fun i d' hd => by
    have := (hflat i d' hd).wf
    obtain ⟨core, flats, sub⟩ := d'
    rw [WFArgs.eq_def] at this
    exact this.1)

theorem order_pairwise {P Q : FieldDecl V → Bool} (l : List (FieldDecl V)) :
    (∀ pre x mid y post, l = pre ++ x :: mid ++ y :: post → P x = true → Q y = false)
      ↔ l.Pairwise (fun x y => P x = true → Q y = false) := by
  induction l with
  | nil =>
    refine ⟨fun _ => List.Pairwise.nil, fun _ pre x mid y post he => ?_⟩
    simp at he
  | cons a l ih =>
    rw [List.pairwise_cons, ← ih]
    constructor
    · intro h
      refine ⟨fun b hb => ?_, fun pre x mid y post he => h (a :: pre) x mid y post (by rw [he]; simp)⟩
      obtain ⟨s, t, rfl⟩ := List.append_of_mem hb
      exact h [] a s b t (by simp)
    · rintro ⟨h1, h2⟩ pre x mid y post he
      cases pre with
      | nil =>
        simp only [List.nil_append, List.cons_append, List.cons.injEq] at he
        obtain ⟨rfl, rfl⟩ := he
        exact h1 y (by simp)
      | cons p pre =>
        simp only [List.cons_append, List.cons.injEq] at he
        exact h2 pre x mid y post he.2

/-- Positional arguments before `--`. -/
def isPosDecl (x : FieldDecl V) : Bool := isSinglePos x || isManyPos x

theorem order_filter (l : List (FieldDecl V)) :
    l.Pairwise (fun x y => isManyPos x = true → isSinglePos y = false)
      ↔ (l.filter isPosDecl).Pairwise (fun x y => isManyPos x = true → isSinglePos y = false) := by
  induction l with
  | nil => simp
  | cons a l ih =>
    rw [List.pairwise_cons, List.filter_cons, ih]
    by_cases ha : isPosDecl a = true
    · rw [if_pos ha, List.pairwise_cons]
      refine and_congr_left fun _ => ⟨fun h b hb => h b (List.mem_filter.mp hb).1, fun h b hb => ?_⟩
      by_cases hb' : isPosDecl b = true
      · exact h b (List.mem_filter.mpr ⟨hb, hb'⟩)
      · intro _
        simp only [isPosDecl, Bool.or_eq_true, not_or, Bool.not_eq_true] at hb'
        exact hb'.1
    · rw [if_neg ha]
      simp only [isPosDecl, Bool.or_eq_true, not_or, Bool.not_eq_true] at ha
      constructor
      · exact fun h => h.2
      · refine fun h => ⟨fun b _ hm => ?_, h⟩
        rw [ha.2] at hm; cases hm

/-- C54: whether a struct is accepted does not depend on the order of its fields, as long as the positional arguments keep
theirs. -/
theorem C54_reorder (hflat : ∀ i d', FieldDecl.flatten i d' ∈ ds → DerivedArgs cx d') (hp : ds.Perm ds')
    (hpos : ds.filter (fun x => isSinglePos x || isManyPos x) = ds'.filter (fun x => isSinglePos x || isManyPos x)) :
    (∃ d, deriveArgs cx cmeta ds = .ok d) ↔ ∃ d, deriveArgs cx cmeta ds' = .ok d := by
  have key : ∀ {a b : List (FieldDecl V)}, a.Perm b →
      a.filter (fun x => isSinglePos x || isManyPos x) = b.filter (fun x => isSinglePos x || isManyPos x) →
      Legal cx a → Legal cx b := by
    intro a b hp hpos h
    refine { size := hp.length_eq ▸ h.size, idents := (hp.map _).nodup_iff.mp h.idents,
             args := fun i ty m hm => h.args i ty m (hp.mem_iff.mpr hm), names := (hp.flatMap_right _).nodup_iff.mp h.names,
             oneSub := (hp.filter _).length_eq ▸ h.oneSub, oneMany := (hp.filter _).length_eq ▸ h.oneMany,
             oneLast := (hp.filter _).length_eq ▸ h.oneLast, order := ?_, refs := ?_, flat := ?_, exclusive := ?_ }
    · rw [order_pairwise, order_filter]
      have := h.order
      rw [order_pairwise, order_filter] at this
      unfold isPosDecl at this ⊢
      rwa [← hpos]
    · intro i ty m hm r hr
      obtain ⟨ty', m', hh⟩ := h.refs i ty m (hp.mem_iff.mpr hm) r hr
      exact ⟨ty', m', hp.mem_iff.mp hh⟩
    · exact fun i d hd => h.flat i d (hp.mem_iff.mpr hd)
    · exact fun i d hd j ty m hm => h.exclusive i d (hp.mem_iff.mpr hd) j ty m (hp.mem_iff.mpr hm)
  rw [C54_accepted_iff hflat, C54_accepted_iff (fun i d' hd => hflat i d' (hp.mem_iff.mpr hd))]
  exact ⟨key hp hpos, key hp.symm hpos.symm⟩

theorem sublist_flatMap {α β : Type} {l l' : List α} (h : l.Sublist l') (f : α → List β) : (l.flatMap f).Sublist (l'.flatMap f) := by
  induction h with
  | slnil => exact List.Sublist.refl _
  | cons a _ ih => rw [List.flatMap_cons]; exact ih.trans (List.sublist_append_right _ _)
  | cons_cons a _ ih => rw [List.flatMap_cons, List.flatMap_cons]; exact (List.Sublist.refl _).append ih

/-- C54: removing fields keeps a struct accepted, unless another argument refers to a removed one. -/
theorem C54_remove (hflat : ∀ i d', FieldDecl.flatten i d' ∈ ds → DerivedArgs cx d') (hs : ds'.Sublist ds)
    (hrefs : ∀ i ty m, FieldDecl.arg i ty m ∈ ds' → ∀ r, r ∈ m.requires ∨ r ∈ m.conflictsWith → ∃ ty' m', FieldDecl.arg r ty' m' ∈ ds')
    (h : ∃ d, deriveArgs cx cmeta ds = .ok d) : ∃ d, deriveArgs cx cmeta ds' = .ok d := by
  rw [C54_accepted_iff hflat] at h
  rw [C54_accepted_iff (fun i d' hd => hflat i d' (hs.subset hd))]
  have hf : ∀ p : FieldDecl V → Bool, (ds.filter p).length ≤ 1 → (ds'.filter p).length ≤ 1 :=
    fun p hh => Nat.le_trans (hs.filter p).length_le hh
  refine { size := Nat.le_trans hs.length_le h.size, idents := (hs.map _).nodup h.idents,
           args := fun i ty m hm => h.args i ty m (hs.subset hm), names := ?_,
           oneSub := hf _ h.oneSub, oneMany := hf _ h.oneMany, oneLast := hf _ h.oneLast, order := ?_, refs := hrefs, flat := ?_, exclusive := ?_ }
  · exact (sublist_flatMap hs _).nodup h.names
  · rw [order_pairwise]
    exact ((order_pairwise ds).mp h.order).sublist hs
  · exact fun i d hd => h.flat i d (hs.subset hd)
  · exact fun i d hd j ty m hm => h.exclusive i d (hs.subset hd) j ty m (hs.subset hm)

namespace Sample

theorem cli_flats : ∀ i (d' : ArgsDef Val), FieldDecl.flatten i d' ∈ cliDecls → DerivedArgs Sample.cx d' := by
  intro i d' h
  simp only [cliDecls, List.mem_cons, reduceCtorEq, FieldDecl.flatten.injEq, List.not_mem_nil, false_or, or_false] at h
  rw [h.2]
  exact derived_leaf (by decide) (by decide)

/-- The sample follows all rules. -/
example : Legal Sample.cx cliDecls := (C54_accepted_iff (cmeta := none) cli_flats).mp ⟨_, get_ok (by decide)⟩

/-- Options may be written in any order. -/
example : ∃ d, deriveArgs Sample.cx none (cliDecls.drop 4 ++ cliDecls.take 4) = .ok d :=
  (C54_reorder cli_flats (List.perm_append_comm (l₁ := cliDecls.take 4) (l₂ := cliDecls.drop 4)) (by rfl)).mp
    ⟨_, get_ok (by decide)⟩

/-- `level` is referred to by `offset`; without both of them the sample is fine. -/
example : ∃ d, deriveArgs Sample.cx none (cliDecls.take 5 ++ cliDecls.drop 7) = .ok d :=
  ⟨_, get_ok (by decide)⟩
example : isOk (deriveArgs Sample.cx none (cliDecls.take 5 ++ cliDecls.drop 6)) = false := by decide

/-- One declaration, rejected or not. -/
def accepts (ds : List (FieldDecl Val)) : Bool := isOk (deriveArgs Sample.cx none ds)

-- tests/ui/args-duplicated-names.rs
example : accepts [.arg (lit "hello") number { short := some .inherit }, .arg (lit "hell") number { short := some .inherit }] = false := by
  decide
example : ¬ Legal Sample.cx [.arg (lit "hello") number { short := some .inherit }, .arg (lit "hell") number { short := some .inherit }] :=
  fun h => absurd h.names (by decide)
example : accepts [.arg (lit "long1") number { long := some .inherit }, .arg (lit "long2") number { long := some (.explicit (lit "long1")) }] = false := by
  decide
-- tests/ui/args-invalid-names.rs
example : accepts [.arg (lit "a") number { long := some (.explicit []) }] = false := by decide
example : accepts [.arg (lit "a") number { long := some (.explicit [nul]) }] = false := by decide
example : accepts [.arg (lit "a") number { long := some (.explicit (lit "-foo")) }] = false := by decide
example : accepts [.arg (lit "a") number { long := some (.explicit (lit "a=b")) }] = false := by decide
example : accepts [.arg (lit "a") number { short := some (.explicit '-') }] = false := by decide
example : accepts [.arg (lit "a") number { short := some (.explicit '=') }] = false := by decide
example : accepts [.arg (lit "a") number { short := some (.explicit (Char.ofNat 30)) }] = false := by decide
-- tests/ui/args-default-value.rs
example : accepts [.arg (lit "a") number { defaultValueT := some (.explicit (.bool true, [])) }] = false := by decide
-- tests/ui/args-flatten-positional.rs, args-flatten-subcommand.rs
example : accepts [.flatten (lit "inner") run] = false := by decide
example : accepts [.flatten (lit "inner") cli] = false := by decide
example : accepts [.flatten (lit "inner") output] = true := by decide
-- tests/ui/args-type-unparsable.rs
example : accepts [.arg (lit "a") (.vec (.other {})) {}] = false := by decide
-- the order of positional arguments
example : accepts [.arg (lit "a") (.vec string) {}, .arg (lit "b") string {}] = false := by decide
example : accepts [.arg (lit "b") string {}, .arg (lit "a") (.vec string) {}] = true := by decide
-- at most one subcommand, one list, one list after `--`
example : accepts [.subcommand (lit "a") true cmd, .subcommand (lit "b") true cmd] = false := by decide
example : accepts [.arg (lit "a") (.vec string) {}, .arg (lit "b") (.vec string) {}] = false := by decide
example : accepts [.arg (lit "a") (.vec string) { last := true }, .arg (lit "b") (.vec string) { last := true }] = false := by decide
example : accepts [.arg (lit "a") (.vec string) {}, .arg (lit "b") (.vec string) { last := true }] = true := by decide
-- exclusive arguments and flattened structs
example : accepts [.arg (lit "a") .bool { long := some .inherit, exclusive := true }, .flatten (lit "o") output] = false := by decide

end Sample

end Palc
