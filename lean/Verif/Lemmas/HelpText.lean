import Verif.Codegen
import Verif.Lemmas.Tables
/-! The help text as a concatenation of its parts. -/

namespace Palc

/-- The first line of a text. -/
def firstLine (s : Str) : Str := s.takeWhile (fun c => c != '\n')

theorem firstLine_split (s : Str) : firstLine s = match splitOnceC '\n' s with
    | some (l, _) => l
    | none => s := by
  induction s with
  | nil => rfl
  | cons x s ih =>
    unfold firstLine at *
    rw [List.takeWhile_cons]
    simp only [splitOnceC]
    by_cases hx : x = '\n'
    · simp [hx]
    · simp only [hx, if_false, bne_iff_ne, ne_eq, not_false_eq_true, if_true]
      rw [ih]
      cases splitOnceC '\n' s with
      | none => rfl
      | some y => rfl

/-- The line of one subcommand in the list of commands. -/
def cmdLine (maxLen : Nat) (cmd : Str) (help : HelpFn) : Str :=
  lit "    " ++ cmd ++ List.replicate (min 24 ((maxLen - (enc cmd).length) + 2)) ' ' ++ firstLine (help 4) ++ ['\n']

theorem renderCmdLine_eq (m : Nat) (out cmd : Str) (h : HelpFn) : renderCmdLine m out cmd h = out ++ cmdLine m cmd h := by
  unfold renderCmdLine cmdLine
  dsimp only
  have hpos : 0 < min 24 ((m - (enc cmd).length) + 2) := by omega
  generalize min 24 ((m - (enc cmd).length) + 2) = p at hpos
  have hne : List.replicate p ' ' ++ h 4 ≠ [] := by
    cases p with
    | zero => omega
    | succ p => simp [List.replicate_succ]
  have hf : firstLine (List.replicate p ' ' ++ h 4) = List.replicate p ' ' ++ firstLine (h 4) := by
    clear hpos hne
    unfold firstLine
    induction p with
    | zero => simp
    | succ p ih => rw [List.replicate_succ, List.cons_append, List.takeWhile_cons, ih]; simp
  have hs := firstLine_split (List.replicate p ' ' ++ h 4)
  rw [hf] at hs
  rw [if_neg hne]
  split
  · rename_i l r e
    rw [e] at hs
    simp only at hs
    rw [← hs]
    simp only [List.append_assoc]
  · rename_i e
    rw [e] at hs
    simp only at hs
    rw [← hs]
    simp only [List.append_assoc]

theorem foldl_append_eq {α : Type} (f : α → Str) (g : Str → α → Str) (hg : ∀ o x, g o x = o ++ f x) (xs : List α) (o : Str) :
    xs.foldl g o = o ++ xs.flatMap f := by
  induction xs generalizing o with
  | nil => simp
  | cons x xs ih => rw [List.foldl_cons, ih, hg, List.flatMap_cons, List.append_assoc]

/-- The longest name, in bytes. -/
def maxLen (cmds : List (Str × HelpFn)) : Nat := cmds.foldl (fun m c => max m (enc c.1).length) 0

/-- The list of commands. -/
def cmdList (cmds : List (Str × HelpFn)) : Str :=
  lit "Commands:\n" ++ cmds.flatMap (fun c => cmdLine (maxLen cmds) c.1 c.2) ++ ['\n']

/-- A section, left out if empty. -/
def sectionOf (title body : Str) : Str := if body = [] then [] else title ++ body

/-- About text with its separator. -/
def aboutPart (about : Str) : Str := if about = [] then [] else about ++ lit "\n\n"

/-- `COMMAND` in the usage line. -/
def commandPart (info : ArgsInfo) : Str :=
  match info.subcommandsWithHelp with
  | some _ => if info.isSubcmdOptional then lit " [COMMAND]" else lit " <COMMAND>"
  | none => []

/-- The list of commands, if there are subcommands. -/
def commandsPart (info : ArgsInfo) : Str :=
  match info.subcommandsWithHelp with
  | some cmds => cmdList cmds
  | none => []

/-- The usage line after "Usage:" and the command names. -/
def usagePart (info : ArgsInfo) : Str :=
  info.help 0 ++ (if info.hasOptionalNamed then lit " [OPTIONS]" else []) ++ info.help 1 ++ commandPart info

theorem renderHelp_eq (info : ArgsInfo) (p : Str) : renderHelp info p =
    aboutPart (info.help 4) ++ lit "Usage:" ++ p ++ usagePart info ++ lit "\n\n" ++ commandsPart info
      ++ sectionOf (lit "Arguments:\n") (info.help 3) ++ sectionOf (lit "Options:\n") (info.help 2) ++ info.help 5 := by
  unfold renderHelp usagePart commandPart commandsPart cmdList maxLen aboutPart sectionOf
  cases info.subcommandsWithHelp with
  | none =>
    by_cases h3 : info.help 3 = [] <;> by_cases h2 : info.help 2 = [] <;>
      simp only [h3, h2, if_true, if_false, List.append_assoc, List.append_nil]
  | some cmds =>
    simp only [renderCmdLine_eq]
    rw [foldl_append_eq (fun c : Str × HelpFn => cmdLine (cmds.foldl (fun m c => max m (enc c.1).length) 0) c.1 c.2) _ (fun _ _ => rfl)]
    by_cases h3 : info.help 3 = [] <;> by_cases h2 : info.help 2 = [] <;>
      simp only [h3, h2, if_true, if_false, List.append_assoc, List.append_nil]

end Palc
