import Verif.SpecOrder
import Verif.Props.Extend
/-!
# The order of subcommands and of fields at any depth (C79)
-/

namespace Palc

open Spec

variable {V : Type} {cx : Cx V} {d d' : ArgsDef V} {argv0 : Bytes} {toks : List Bytes} {evs : List Event} {κ : Ctx V} {out : Out V}

theorem rearranged_fields {G : Name → Prop} {ds ds' : List (FieldDecl V)}
    (fields : (ds.filter (fun x => !isSubDecl x)).Perm (ds'.filter (fun x => !isSubDecl x)))
    (positionals : ds.filter (fun x => isSinglePos x || isManyPos x) = ds'.filter (fun x => isSinglePos x || isManyPos x))
    (flattened : flattenFields ds = flattenFields ds') : AddedFields cx G ds ds' := by
  have hmem : ∀ x, isSubDecl x = false → (x ∈ ds ↔ x ∈ ds') := by
    intro x hx
    have := fields.mem_iff (a := x)
    simpa [List.mem_filter, hx] using this
  refine ⟨fun x hx hs => (hmem x hs).1 hx, by rw [positionals]; exact List.prefix_refl _, ?_, ?_, [], ?_, ?_⟩
  · intro x hx hl
    refine (hmem x ?_).2 hx
    cases x <;> first | rfl | cases hl
  · intro i ty m hm
    exact .inl ((hmem _ rfl).2 hm)
  · rw [List.append_nil, flattened]
  · intro x hx
    cases hx

theorem rearranged_evolved (h : Rearranged cx d d') : ∀ (T : Bytes → Prop) (G : Name → Prop), Evolved cx T G d d' ∧ Evolved cx T G d' d := by
  induction h with
  | same => exact fun T G => ⟨.same, .same⟩
  | @struct cm cm' ds ds' d d' hd hd' fields positionals flattened required subcommand unique C subcommands names subs ih =>
    intro T G
    have hn : ((subVariants d').map Variant.name).Perm ((subVariants d).map Variant.name) := by
      refine (subcommands.map Variant.name).symm.trans ?_
      rw [List.map_map, List.map_congr_left (f := Variant.name ∘ C) (g := Variant.name) (fun v hv => (names v hv).1)]
    have hC : ∀ v ∈ subVariants d, C v ∈ subVariants d' := fun v hv => subcommands.mem_iff.1 (List.mem_map_of_mem hv)
    have hB : ∀ v' : Variant V, ∃ v, v' ∈ subVariants d' → v ∈ subVariants d ∧ C v = v' := by
      intro v'
      by_cases hv : v' ∈ subVariants d'
      · obtain ⟨v, h1, h2⟩ := List.mem_map.1 (subcommands.mem_iff.2 hv)
        exact ⟨v, fun _ => ⟨h1, h2⟩⟩
      · exact ⟨v', fun h => absurd h hv⟩
    obtain ⟨B, hB⟩ := Classical.axiomOfChoice hB
    constructor
    · refine .struct hd hd' (rearranged_fields fields positionals flattened) (by rw [required]; exact id) (hn.nodup_iff.2 unique) C
        (fun v hv => ⟨hC v hv, names v hv⟩) ?_ (fun v hv => (ih v hv T _).1)
      intro v' hv' _
      obtain ⟨h1, h2⟩ := hB v' hv'
      exact ⟨B v', h1, by rw [← (names _ h1).1, h2]⟩
    · refine .struct hd' hd (rearranged_fields fields.symm positionals.symm flattened.symm) (by rw [required]; exact id) unique B ?_ ?_ ?_
      · intro v' hv'
        obtain ⟨h1, h2⟩ := hB v' hv'
        have := names _ h1
        rw [h2] at this
        exact ⟨h1, this.1.symm, this.2.symm⟩
      · intro v hv _
        exact ⟨C v, hC v hv, (names v hv).1⟩
      · intro v' hv'
        obtain ⟨h1, h2⟩ := hB v' hv'
        have := (ih _ h1 T (fun n => G n ∨ ∃ p f, argAt d' p = some f ∧ f.src.global = true ∧ declares cx f n = true)).2
        rw [h2] at this
        exact this

/-- C79: command lines are read in the same way: the same commands are entered, and the same arguments occur in the same order with the
same values. -/
theorem C79_reads (hD' : DerivedArgs cx d') (h : Rearranged cx d d') (hr : Reads cx (start argv0 d) toks evs κ) :
    ∃ evs' κ', After cx d' argv0 toks evs' κ' ∧ κ'.stack.map (·.1) = κ.stack.map (·.1)
      ∧ evs'.map (fun e => ((fieldAt κ'.stack e.1).map (·.ident), e.1.level, e.1.struct, e.2))
        = evs.map (fun e => ((fieldAt κ.stack e.1).map (·.ident), e.1.level, e.1.struct, e.2)) :=
  C66_reads hD' (rearranged_evolved h (fun _ => True) _).1 (fun _ _ => trivial) hr

/-- C79: the same command lines are accepted. -/
theorem C79_accepted (hD : DerivedArgs cx d) (hD' : DerivedArgs cx d') (h : Rearranged cx d d') (argv0 : Bytes) (toks : List Bytes) :
    (∃ out, tryParseFrom d (argv0 :: toks) = .ok out) ↔ ∃ out, tryParseFrom d' (argv0 :: toks) = .ok out := by
  have := rearranged_evolved h (fun _ => True) (fun _ => False)
  constructor
  · rintro ⟨out, hok⟩
    exact C66_accepted hD hD' this.1 (fun _ _ => trivial) hok
  · rintro ⟨out, hok⟩
    exact C66_accepted hD' hD this.2 (fun _ _ => trivial) hok

/-- C79: every argument of every entered command gets the same value, under the same name in the same struct. -/
theorem C79_values (hD' : DerivedArgs cx d') (h : Rearranged cx d d') (hp : Parsed cx d argv0 toks evs κ out) :
    ∃ evs' κ' out', Parsed cx d' argv0 toks evs' κ' out'
      ∧ κ'.stack.map (·.1) = κ.stack.map (·.1)
      ∧ (∀ l s k f, fieldAt κ.stack ⟨l, s, k⟩ = some f → ∃ k' f', fieldAt κ'.stack ⟨l, s, k'⟩ = some f' ∧ f'.ident = f.ident)
      ∧ ∀ l s k f k' f', fieldAt κ.stack ⟨l, s, k⟩ = some f → fieldAt κ'.stack ⟨l, s, k'⟩ = some f' → f'.ident = f.ident →
        outAt κ'.stack out' ⟨l, s, k'⟩ = outAt κ.stack out ⟨l, s, k⟩ := by
  obtain ⟨evs', κ', out', h1, h2, h3, h4, _⟩ := C66_values hD' (rearranged_evolved h (fun _ => True) _).1 (fun _ _ => trivial) hp
  exact ⟨evs', κ', out', h1, h2, h3, h4⟩

/-! ## Examples -/

namespace Sample

def mixedAdd : ArgsDef Val := get (deriveArgs Sample.cx none addDecls.reverse)
def mixedCmd : Variants Val :=
  deriveSub Sample.cx [.unit (lit "Status") none, .args (lit "Drop") drop, .args (lit "Add") mixedAdd, .args (lit "Run") run]

/-- The sample CLI with options, subcommands and options of a subcommand in another order. -/
def mixedDecls : List (FieldDecl Val) :=
  (.subcommand (lit "cmd") true mixedCmd :: cliDecls.filter (fun x => !isSubDecl x)).reverse

def mixedCli : ArgsDef Val := get (deriveArgs Sample.cx none mixedDecls)

theorem mixedAdd_derived : DerivedArgs Sample.cx mixedAdd := derived_leaf (by decide) (by decide)

theorem mixedCmd_derived : DerivedVariants Sample.cx mixedCmd := by
  refine .mk _ ?_ rfl
  intro i d hm
  simp only [List.mem_cons, VariantDecl.args.injEq, reduceCtorEq, List.not_mem_nil, or_false, false_or] at hm
  rcases hm with ⟨_, rfl⟩ | ⟨_, rfl⟩ | ⟨_, rfl⟩
  · exact drop_derived
  · exact mixedAdd_derived
  · exact run_derived

theorem mixedCli_derived : DerivedArgs Sample.cx mixedCli := by
  refine .mk none mixedDecls ?_ ?_ (get_ok (by decide))
  · intro i d hm
    simp [mixedDecls, cliDecls, isSubDecl] at hm
    obtain ⟨_, rfl⟩ := hm
    exact output_derived
  · intro i o vs hm
    simp [mixedDecls, cliDecls, isSubDecl] at hm
    obtain ⟨_, _, rfl⟩ := hm
    exact mixedCmd_derived

/-- Where a subcommand of the sample CLI is found. -/
def mixed : Variant Val → Variant Val
  | .args i n d => .args i n (if i = lit "Add" then mixedAdd else d)
  | v => v

theorem mixedCli_variants : subVariants mixedCli = [.unit (lit "Status") (lit "status") none,
    .args (lit "Drop") (lit "drop") drop, .args (lit "Add") (lit "add") mixedAdd, .args (lit "Run") (lit "run") run] := rfl

theorem cli_rearranged : Rearranged Sample.cx cli mixedCli := by
  have hadd : Rearranged Sample.cx add mixedAdd := by
    have hv : subVariants add = [] := by decide
    have hv' : subVariants mixedAdd = [] := by decide
    refine .struct (ds := addDecls) (ds' := addDecls.reverse) (get_ok (by decide)) (get_ok (by decide)) ((addDecls.reverse_perm.symm).filter _)
      rfl rfl (by decide) (by decide) ?_ id ?_ ?_ ?_
    · rw [hv]; exact List.nodup_nil
    · rw [hv, hv']; exact .nil
    · rw [hv]; exact fun _ h => by cases h
    · rw [hv]; exact fun _ h => by cases h
  have hrun : ¬ lit "Run" = lit "Add" := by decide
  have hdrop : ¬ lit "Drop" = lit "Add" := by decide
  refine .struct (ds := cliDecls) (ds' := mixedDecls) cli_ok (get_ok (by decide)) ?_ rfl rfl (by decide) (by decide) ?_ mixed ?_ ?_ ?_
  · have : mixedDecls.filter (fun x => !isSubDecl x) = (cliDecls.filter (fun x => !isSubDecl x)).reverse := by
      unfold mixedDecls
      rw [List.filter_reverse, List.filter_cons_of_neg (by simp [isSubDecl]), List.filter_filter]
      simp only [Bool.and_self]
    rw [this]
    exact (List.reverse_perm _).symm
  · rw [cli_variants]; decide
  · rw [cli_variants, mixedCli_variants]
    simp only [List.map_cons, List.map_nil, mixed, if_true, if_neg hrun, if_neg hdrop]
    generalize mixedAdd = a, run = b, drop = c
    exact .trans (List.reverse_perm _).symm (.cons _ (.cons _ (.swap ..)))
  · intro v _
    cases v <;> exact ⟨rfl, rfl⟩
  · rw [cli_variants]
    intro v hv
    simp only [List.mem_cons, List.not_mem_nil, or_false] at hv
    rcases hv with rfl | rfl | rfl | rfl
    · simp only [mixed, if_true]
      exact hadd
    · simp only [mixed, if_neg hrun]
      exact .same
    · simp only [mixed, if_neg hdrop]
      exact .same
    · exact .same

end Sample

example (argv0 : Bytes) (toks : List Bytes) :
    (∃ out, tryParseFrom Sample.cli (argv0 :: toks) = .ok out) ↔ ∃ out, tryParseFrom Sample.mixedCli (argv0 :: toks) = .ok out :=
  C79_accepted Sample.cli_derived Sample.mixedCli_derived Sample.cli_rearranged argv0 toks

/-- `--force` is declared first in the one and last in the other; `add` is the first or the third subcommand. -/
example : Sample.value (Sample.parse ["app", "-v", "add", "p", "--force", "--", "q"]) ["cmd", "Add", "force"] = some (.bool true)
    ∧ Sample.value (tryParseFrom Sample.mixedCli ([("app" : String), "-v", "add", "p", "--force", "--", "q"].map blit)) ["cmd", "Add", "force"]
      = some (.bool true) := by
  decide +kernel

example : ∃ evs κ out, Parsed Sample.cx Sample.cli (blit "app") ([("-v" : String), "add", "p", "--force"].map blit) evs κ out
    ∧ ∃ evs' κ' out', Parsed Sample.cx Sample.mixedCli (blit "app") ([("-v" : String), "add", "p", "--force"].map blit) evs' κ' out'
      ∧ κ'.stack.map (·.1) = κ.stack.map (·.1) ∧ κ.stack.length = 2 := by
  obtain ⟨evs, κ, out, h, h0⟩ := Sample.parsed ["-v", "add", "p", "--force"] (fun _ κ _ => decide (κ.stack.length = 2)) (by decide +kernel)
  obtain ⟨evs', κ', out', h1, h2, _⟩ := C79_values Sample.mixedCli_derived Sample.cli_rearranged h
  exact ⟨evs, κ, out, h, evs', κ', out', h1, h2, of_decide_eq_true h0⟩

end Palc
