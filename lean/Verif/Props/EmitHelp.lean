import Verif.Lemmas.EmitHelp
import Verif.Example
/-!
# The emitted formatters of help texts (C71)
-/

namespace Palc

open Spec Emit

variable {V : Type}

/-- C71: the templates emitted for every struct are well-formed, and print what the model of the help says. -/
theorem C71_refines (d : ArgsDef V) : emittedHelp d = some d.info.help := emittedHelp_eq d

/-- C71: the same for variants without fields. -/
theorem C71_unit (cmeta : Option CommandMeta) : emittedUnitHelp cmeta = some (unitInfo cmeta).help := helpArms_none cmeta

theorem infix_left {x a : Str} (b : Str) (h : x <:+: a) : x <:+: a ++ b := by
  obtain ⟨p, q, rfl⟩ := h
  exact ⟨p, q ++ b, by simp only [List.append_assoc]⟩

theorem infix_right {x b : Str} (a : Str) (h : x <:+: b) : x <:+: a ++ b := by
  obtain ⟨p, q, rfl⟩ := h
  exact ⟨a ++ p, q, by simp only [List.append_assoc]⟩

theorem default_infix (s : Str) : (lit "[default: " ++ s ++ lit "]") <:+: lit "          [default: " ++ s ++ lit "]\n" := by
  have e1 : lit "          [default: " = lit "          " ++ lit "[default: " := by decide
  have e2 : lit "]\n" = lit "]" ++ lit "\n" := by decide
  rw [e1, e2]
  exact ⟨lit "          ", lit "\n", by simp only [List.append_assoc]⟩

/-- C71: the label, the documentation and the default of every visible argument are printed verbatim, whatever characters
(braces for example) they contain: options in part 2 of the help, positional arguments in part 3. -/
theorem C71_verbatim {d : ArgsDef V} {f : FieldInfo V} (hf : f ∈ (coreOf d).fields) (hv : f.hide = false) :
    ∃ h n, emittedHelp d = some h ∧ (n = 2 ∨ n = 3) ∧ f.description <:+: h n ∧ f.doc <:+: h n
      ∧ (∀ s, f.defaultValue = some (.parseStr s) → (lit "[default: " ++ s ++ lit "]") <:+: h n)
      ∧ ∀ v s, f.defaultValue = some (.valueExpr v s) → (lit "[default: " ++ s ++ lit "]") <:+: h n := by
  obtain ⟨core, flats, sub⟩ := d
  have key : ∀ {t : Str}, helpFor f <:+: t → f.description <:+: t ∧ f.doc <:+: t
      ∧ (∀ s, f.defaultValue = some (.parseStr s) → (lit "[default: " ++ s ++ lit "]") <:+: t)
      ∧ ∀ v s, f.defaultValue = some (.valueExpr v s) → (lit "[default: " ++ s ++ lit "]") <:+: t := by
    intro t ht
    refine ⟨List.IsInfix.trans ?_ ht, List.IsInfix.trans ?_ ht, fun s hs => List.IsInfix.trans ?_ ht,
      fun v s hs => List.IsInfix.trans ?_ ht⟩
    · unfold helpFor
      exact infix_left _ (infix_left _ (infix_left _ (infix_left _ (infix_right _ (List.infix_refl _)))))
    · unfold helpFor
      refine infix_left _ (infix_left _ (infix_right _ ?_))
      by_cases hd : f.doc = []
      · rw [if_pos hd, hd]; exact List.infix_refl _
      · rw [if_neg hd]; exact infix_left _ (infix_right _ (List.infix_refl _))
    · unfold helpFor
      rw [hs]
      exact infix_left _ (infix_right _ (default_infix s))
    · unfold helpFor
      rw [hs]
      exact infix_left _ (infix_right _ (default_infix s))
  have inHelp : ∀ {fs : List (FieldInfo V)} (t : Str), f ∈ fs → helpFor f <:+: helpOf fs ++ t := by
    intro fs t hm
    have hm : f ∈ fs.filter (fun f => !f.hide) := List.mem_filter.2 ⟨hm, by simp [hv]⟩
    obtain ⟨a, b, hab⟩ := List.append_of_mem hm
    unfold helpOf
    rw [hab, List.flatMap_append, List.flatMap_cons]
    exact infix_left _ (infix_right _ (infix_left _ (List.infix_refl _)))
  have hcase : f ∈ core.named ∨ f ∈ core.positional := by
    have hm : f ∈ core.fields := hf
    rw [← List.take_append_drop core.namedCnt core.fields] at hm
    exact List.mem_append.1 hm
  rcases hcase with hm | hm
  · refine ⟨_, 2, emittedHelp_eq _, .inl rfl, key ?_⟩
    rw [ArgsDef.info]
    exact inHelp _ hm
  · refine ⟨_, 3, emittedHelp_eq _, .inr rfl, key ?_⟩
    rw [ArgsDef.info]
    exact inHelp _ hm

namespace Sample

/-- A struct with braces in its texts. -/
def braces : ArgsDef Val := get (deriveArgs cx (some { doc := lit "Prints {}." })
  [.arg (lit "fmt") string { long := some .inherit, defaultValue := some (lit "{:.3}"), doc := lit "Such as {x} or }}." },
   .arg (lit "file") (.option string) {}])

end Sample

/-- Everything is printed as it was written. -/
example : (emittedHelp Sample.braces).map (fun h => (h 2, h 4)) = some
    (lit "      --fmt <FMT>\n          Such as {x} or }}.\n          [default: {:.3}]\n\n", lit "Prints {}.") := by decide +kernel

/-- Text in the template itself would not compile, or be printed in another way. -/
example : format (lit "Such as {x} or }}.") [] = none ∧ format (lit "{{x}}") [] = some (lit "{x}") := by decide

/-- A visible argument. -/
example : ∃ f ∈ (coreOf Sample.braces).fields, f.hide = false ∧ f.doc = lit "Such as {x} or }}."
    ∧ f.defaultValue = some (.parseStr (lit "{:.3}")) := by
  refine ⟨(coreOf Sample.braces).fields[0]'(by decide), List.getElem_mem _, by decide, by decide, by rfl⟩

end Palc
