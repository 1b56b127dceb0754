import Verif.Props.Style
import Verif.Lemmas.Title
/-!
# Container attributes of flattened structs (C88)

`src/lib.rs` 119-122: "If this struct is used as `#[command(flatten)]`, these container attributes are useless and ignored."
-/

namespace Palc

open Spec

variable {V : Type} {cx : Cx V} {d d' : ArgsDef V}

mutual
theorem retitled_changed {flat : Bool} {d d' : ArgsDef V} : Retitled cx flat d d' → Changed (fun _ => DocsArg) cx d d'
  | .mk _ fields hd hd' => .mk (retitledDecls_changed fields) hd hd'
theorem retitledDecls_changed {ds ds' : List (FieldDecl V)} : RetitledDecls cx ds ds' → ChangedDecls (fun _ => DocsArg) cx ds ds'
  | .nil => .nil
  | .arg h => .arg ⟨rfl, rfl⟩ (retitledDecls_changed h)
  | .flatten he h => .flatten (retitled_changed he) (retitledDecls_changed h)
  | .subcommand hv h => .subcommand (retitledVariants_changed hv) (retitledDecls_changed h)
theorem retitledVariants_changed {vs vs' : Variants V} : RetitledVariants cx vs vs' → ChangedVariants (fun _ => DocsArg) cx vs vs'
  | .nil => .nil
  | .unit h => .unit (retitledVariants_changed h)
  | .args hd h => .args (retitled_changed hd) (retitledVariants_changed h)
end

theorem commandHelp_title {st st' : List (Entry V)} (h : All₂ (fun x x' : Entry V => x'.1 = x.1 ∧ TitleArgs false x.2 x'.2) st st') :
    commandHelp st' = commandHelp st := by
  have hc : cmdline st' = cmdline st := by
    induction h with
    | nil => rfl
    | @cons x x' _ _ hx _ ih =>
      obtain ⟨i, e⟩ := x
      obtain ⟨i', e'⟩ := x'
      have hi : i' = i := hx.1
      rw [cmdline, cmdline, ih, hi]
  cases h with
  | nil => rfl
  | @cons x x' _ _ hx _ =>
    obtain ⟨i, e⟩ := x
    obtain ⟨i', e'⟩ := x'
    rw [commandHelp, commandHelp, hc, (info_title hx.2).2.2 rfl]

/-- C88: with other attributes and other documentation of the flattened structs, a program does the same: every command line has the
same outcome, with the same error texts and the same help texts. -/
theorem C88_same (hd : DerivedArgs cx d) (hd' : DerivedArgs cx d') (h : Retitled cx false d d') (argv : List Bytes) :
    tryParseFrom d' argv = tryParseFrom d argv := by
  cases argv with
  | nil => rfl
  | cons argv0 toks =>
    rcases C78_docs hd hd' (retitled_changed h) (argv0 := argv0) (toks := toks) with he | ⟨evs, κ, κ', rest, h1, h2, h3, h4, h5⟩
    · exact he
    · have hl := linked_title (retitled_args h) (steps_linked h1 .root) (steps_linked h2 .root) h3
      rw [h4, h5]
      unfold helpRequest
      rw [commandHelp_title hl]

/-- C88: so does the process, and `render_long_help`. -/
theorem C88_process (hd : DerivedArgs cx d) (hd' : DerivedArgs cx d') (h : Retitled cx false d d') :
    (∀ (fmt : Error.Fmt) (argv : List Bytes), parseMain fmt d' argv = parseMain fmt d argv)
    ∧ ∀ argv0 : Str, renderLongHelp d' argv0 = renderLongHelp d argv0 := by
  refine ⟨fun fmt argv => ?_, fun argv0 => ?_⟩
  · unfold parseMain
    rw [C88_same hd hd' h]
  · unfold renderLongHelp
    rw [C88_same hd hd' h]

/-- C88: the derive macro accepts a struct whatever the container attributes of itself and of the structs flattened into it. -/
theorem C88_accepted {cm cm' : Option CommandMeta} {ds ds' : List (FieldDecl V)} (fields : RetitledDecls cx ds ds')
    (hd : deriveArgs cx cm ds = .ok d) : ∃ d', deriveArgs cx cm' ds' = .ok d' := by
  have h := retitledDecls_state fields {} {} ⟨.nil, .none, rfl⟩
  have hall : (ds'.foldl (deriveStep cx) {}).all = (ds.foldl (deriveStep cx) {}).all := by rw [h.rest]; rfl
  have herr : (ds'.foldl (deriveStep cx) {}).errors = (ds.foldl (deriveStep cx) {}).errors := by rw [h.rest]
  have hids : ds'.map (·.ident) = ds.map (·.ident) := by
    clear hd h hall herr
    have key : ∀ {ds ds' : List (FieldDecl V)}, RetitledDecls cx ds ds' → ds'.map (·.ident) = ds.map (·.ident) := by
      intro ds
      induction ds with
      | nil => intro ds' h; cases h; rfl
      | cons x ds ih =>
        intro ds' h
        cases h with
        | arg h => rw [List.map_cons, List.map_cons, ih h]
        | flatten _ h => rw [List.map_cons, List.map_cons, ih h]; rfl
        | subcommand _ h => rw [List.map_cons, List.map_cons, ih h]; rfl
    exact key fields
  have hlen : ds'.length = ds.length := by simpa using congrArg List.length hids
  have hemp : (ds'.foldl (deriveStep cx) {}).flats.isEmpty = (ds.foldl (deriveStep cx) {}).flats.isEmpty := by
    have hf := h.flats
    revert hf
    cases (ds.foldl (deriveStep cx) {}).flats <;> cases (ds'.foldl (deriveStep cx) {}).flats <;> intro hf <;> first | rfl | cases hf
  unfold deriveArgs at hd ⊢
  rw [hlen]
  split at hd
  · cases hd
  rename_i hle
  rw [if_neg hle]
  obtain ⟨he, _⟩ := ite_ok hd
  refine ⟨_, if_pos ?_⟩
  unfold DState.all at hall
  simp only [hall, herr, hids, hemp]
  exact he

/-! ## Examples -/

namespace Sample

/-- Container attributes. -/
def titles : CommandMeta := { doc := lit "Where to write", afterLongHelp := some (lit "See also") }

def titledOutput : ArgsDef Val := get (deriveArgs Sample.cx (some titles) outputDecls)

/-- The sample CLI, where the flattened struct is documented. -/
def titledDecls : List (FieldDecl Val) := cliDecls.map (fun
  | .flatten i _ => .flatten i titledOutput
  | x => x)
def titledCli : ArgsDef Val := get (deriveArgs Sample.cx none titledDecls)

theorem retitled_leaf {flat : Bool} {cm cm' : Option CommandMeta} {decls : List (FieldDecl Val)} (hcm : flat = false → cm' = cm)
    (h : isOk (deriveArgs Sample.cx cm decls) = true) (h' : isOk (deriveArgs Sample.cx cm' decls) = true)
    (hl : decls.all (fun x => match x with | .arg .. => true | _ => false) = true) :
    Retitled Sample.cx flat (get (deriveArgs Sample.cx cm decls)) (get (deriveArgs Sample.cx cm' decls)) := by
  refine .mk hcm ?_ (get_ok h) (get_ok h')
  clear h h'
  induction decls with
  | nil => exact .nil
  | cons x ds ih =>
    simp only [List.all_cons, Bool.and_eq_true] at hl
    cases x with
    | arg i ty m => exact .arg (ih hl.2)
    | flatten => cases hl.1
    | subcommand => cases hl.1

theorem titledDecls_retitled : RetitledDecls Sample.cx cliDecls titledDecls := by
  have leaf {decls : List (FieldDecl Val)} := retitled_leaf (flat := false) (cm := none) (decls := decls) (fun _ => rfl)
  have hcmd : RetitledVariants Sample.cx cmd cmd :=
    .args (leaf (by decide) (by decide) (by decide)) (.args (leaf (by decide) (by decide) (by decide))
      (.args (leaf (by decide) (by decide) (by decide)) (.unit .nil)))
  exact .arg (.arg (.arg (.arg (.arg (.arg (.arg (.arg
    (.flatten (retitled_leaf (cm' := some titles) (by simp) (by decide) (by decide) (by decide)) (.subcommand hcmd (.arg .nil))))))))))

theorem titled_retitled : Retitled Sample.cx false cli titledCli := .mk (fun _ => rfl) titledDecls_retitled (get_ok (by decide)) (get_ok (by decide))

theorem titledOutput_derived : DerivedArgs Sample.cx titledOutput := by
  refine .mk (some titles) outputDecls ?_ ?_ (get_ok (by decide))
  · intro i d hm; simp [outputDecls] at hm
  · intro i o vs hm; simp [outputDecls] at hm

theorem titled_derived : DerivedArgs Sample.cx titledCli := by
  refine .mk none titledDecls ?_ ?_ (get_ok (by decide))
  · intro i d hm
    simp only [titledDecls, cliDecls, List.map_cons, List.map_nil, List.mem_cons, FieldDecl.flatten.injEq, reduceCtorEq, List.not_mem_nil,
      or_false, false_or] at hm
    obtain ⟨_, rfl⟩ := hm
    exact titledOutput_derived
  · intro i o vs hm
    simp only [titledDecls, cliDecls, List.map_cons, List.map_nil, List.mem_cons, FieldDecl.subcommand.injEq, reduceCtorEq, List.not_mem_nil,
      or_false, false_or] at hm
    obtain ⟨_, _, rfl⟩ := hm
    exact cmd_derived

example (argv : List Bytes) : tryParseFrom titledCli argv = tryParseFrom cli argv := C88_same cli_derived titled_derived titled_retitled argv

example : ∃ d', deriveArgs Sample.cx (some titles) titledDecls = .ok d' :=
  C88_accepted (d := cli) (cm := none) titledDecls_retitled (get_ok (by decide))

end Sample

/-- The same attributes are shown in the help if the struct is a command. -/
theorem C88_command_titled : Sample.failure (tryParseFrom Sample.titledOutput [blit "app", blit "--help"])
    ≠ Sample.failure (tryParseFrom Sample.output [blit "app", blit "--help"]) := by decide +kernel

end Palc
