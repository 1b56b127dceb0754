import Verif.Lemmas.AlikeRun
import Verif.Example
/-!
# The names of fields (C87)

The names of the fields of a struct are not part of the command line: a program whose fields are renamed, while the names of options
and values are kept, behaves as before.
-/

namespace Palc

open Spec

variable {V : Type} {cx : Cx V} {N : Str → Str → Prop} {d d' : ArgsDef V}

/-- After renaming fields, every command line fails with the same error or gives the same values, in fields with the new names. -/
theorem C87_same (h : Renamed cx N d d') (argv : List Bytes) :
    (∃ e, tryParseFrom d argv = .error e ∧ tryParseFrom d' argv = .error e)
      ∨ ∃ out out', tryParseFrom d argv = .ok out ∧ tryParseFrom d' argv = .ok out' ∧ RenamedOut N out out' := by
  rcases (tryParseFrom_alike (renamed_alike h) argv).both with ⟨a, a', h1, h2, h3⟩ | ⟨e, h1, h2⟩
  · exact .inr ⟨a, a', h1, h2, h3⟩
  · exact .inl ⟨e, h1, h2⟩

/-- What the process prints and its exit status are the same. -/
theorem C87_process (h : Renamed cx N d d') (fmt : Error.Fmt) (argv : List Bytes) (status : Nat) (text : Str) :
    parseMain fmt d argv = .exited status text ↔ parseMain fmt d' argv = .exited status text := by
  unfold parseMain
  rcases C87_same h argv with ⟨e, h1, h2⟩ | ⟨o, o', h1, h2, _⟩
  · rw [h1, h2]
  · rw [h1, h2]; simp

/-- So is the help text. -/
theorem C87_help (h : Renamed cx N d d') (argv0 : Str) : renderLongHelp d' argv0 = renderLongHelp d argv0 := by
  unfold renderLongHelp
  rcases C87_same h [enc argv0, blit "--help"] with ⟨e, h1, h2⟩ | ⟨o, o', h1, h2, _⟩
  · rw [h1, h2]
  · rw [h1, h2]

/-- The derive macro accepts the struct with renamed fields, provided that the new names differ. -/
theorem C87_accepted {ρ : Str → Str} {cm : Option CommandMeta} {ds ds' : List (FieldDecl V)} (fields : RenamedDecls cx N ρ ds ds')
    (distinct : ∀ x ∈ ds, ∀ y ∈ ds, ρ x.ident = ρ y.ident → x.ident = y.ident) (hd : deriveArgs cx cm ds = .ok d) :
    ∃ d', deriveArgs cx cm ds' = .ok d' ∧ Renamed cx N d d' := by
  obtain ⟨d', hd'⟩ := derive_renamed fields distinct hd
  exact ⟨d', hd', .mk fields hd hd'⟩

/-! ## Examples -/

namespace Sample

/-- New names of fields: `level` becomes `threshold`, the others get a suffix. -/
def newName (i : Str) : Str := if i = lit "level" then lit "threshold" else i ++ lit "_arg"

/-- The attributes with all names written out. -/
def written (i : Str) (m : ArgMeta Val) : ArgMeta Val :=
  { m with
    long := (longWritten Sample.cx i m).map .explicit
    short := match shortWritten i m with
      | some (some c) => some (.explicit c)
      | _ => none
    valueName := some (valueWritten Sample.cx i m)
    requires := m.requires.map newName
    conflictsWith := m.conflictsWith.map newName }

/-- A field of a struct without nested ones. -/
def renamedDecl : FieldDecl Val → FieldDecl Val
  | .arg i ty m => .arg (newName i) ty (written i m)
  | x => x

def addNew : ArgsDef Val := get (deriveArgs Sample.cx none (addDecls.map renamedDecl))
def dropNew : ArgsDef Val := get (deriveArgs Sample.cx none (dropDecls.map renamedDecl))
def outputNew : ArgsDef Val := get (deriveArgs Sample.cx none (outputDecls.map renamedDecl))

/-- `Add` becomes `ADD`, which is still typed `add`; `Run` is as before. -/
def cmdNew : Variants Val :=
  .cons (.args (lit "ADD") (lit "add") addNew) (.cons (.args (lit "Run") (lit "run") run)
    (.cons (.args (lit "Drop") (lit "drop") dropNew) (.cons (.unit (lit "STATUS") (lit "status") none) .nil)))

/-- The sample CLI with all fields renamed. -/
def newDecls : List (FieldDecl Val) := cliDecls.map (fun
  | .arg i ty m => .arg (newName i) ty (written i m)
  | .flatten i _ => .flatten (newName i) outputNew
  | .subcommand i o _ => .subcommand (newName i) o cmdNew)
def newCli : ArgsDef Val := get (deriveArgs Sample.cx none newDecls)

/-- What became of the names. -/
def Became (i i' : Str) : Prop := i' = newName i ∨ i' = i ∨ (i, i') ∈ [(lit "Add", lit "ADD"), (lit "Status", lit "STATUS")]

theorem written_ok (i : Str) (m : ArgMeta Val) (hi : i ≠ []) : RenamedArg Sample.cx newName i m (written i m) := by
  refine ⟨?_, ?_, rfl, rfl, rfl, rfl⟩
  · unfold written longWritten
    rcases m.long with _ | _ | _ <;> rfl
  · unfold written shortWritten
    obtain ⟨c, cs, rfl⟩ := List.exists_cons_of_ne_nil hi
    rcases m.short with _ | _ | _ <;> rfl

theorem leaf_renamed (ds : List (FieldDecl Val)) (h : ds.all (fun x => match x with | .arg i _ _ => decide (i ≠ []) | _ => false) = true) :
    RenamedDecls Sample.cx Became newName ds (ds.map renamedDecl) := by
  induction ds with
  | nil => exact .nil
  | cons x ds ih =>
    rw [List.all_cons, Bool.and_eq_true] at h
    cases x with
    | arg i ty m => exact .arg (.inl rfl) (written_ok i m (by simpa using h.1)) (ih h.2)
    | subcommand => simp at h
    | flatten => simp at h

theorem same_written (i : Str) (m : ArgMeta Val) : RenamedArg Sample.cx id i m m := by
  refine ⟨rfl, rfl, rfl, ?_, ?_, rfl⟩ <;> simp

theorem addNew_renamed : Renamed Sample.cx Became add addNew := .mk (leaf_renamed addDecls (by decide)) (get_ok (by decide)) (get_ok (by decide))
theorem dropNew_renamed : Renamed Sample.cx Became drop dropNew := .mk (leaf_renamed dropDecls (by decide)) (get_ok (by decide)) (get_ok (by decide))
theorem outputNew_renamed : Renamed Sample.cx Became output outputNew :=
  .mk (leaf_renamed outputDecls (by decide)) (get_ok (by decide)) (get_ok (by decide))
theorem run_renamed : Renamed Sample.cx Became run run :=
  .mk (ds := runDecls) (ds' := runDecls) (ρ := id) (.arg (.inr (.inl rfl)) (same_written _ _) (.arg (.inr (.inl rfl)) (same_written _ _) .nil))
    (get_ok (by decide)) (get_ok (by decide))

theorem cmdNew_renamed : RenamedVariants Sample.cx Became cmd cmdNew :=
  .args (.inr (.inr (by decide))) addNew_renamed (.args (.inr (.inl rfl)) run_renamed
    (.args (.inr (.inl rfl)) dropNew_renamed (.unit (.inr (.inr (by decide))) .nil)))

theorem newCli_renamed : Renamed Sample.cx Became cli newCli := by
  refine .mk (ds := cliDecls) (ds' := newDecls) (ρ := newName) ?_ (get_ok (by decide)) (get_ok (by decide))
  have a : ∀ (i : Str) (ty : Ty Val) (m : ArgMeta Val) {ds ds' : List (FieldDecl Val)}, i ≠ [] → RenamedDecls Sample.cx Became newName ds ds' →
      RenamedDecls Sample.cx Became newName (.arg i ty m :: ds) (.arg (newName i) ty (written i m) :: ds') :=
    fun i ty m _ _ hi t => .arg (.inl rfl) (written_ok i m hi) t
  exact a _ _ _ (by decide) (a _ _ _ (by decide) (a _ _ _ (by decide) (a _ _ _ (by decide) (a _ _ _ (by decide) (a _ _ _ (by decide)
    (a _ _ _ (by decide) (a _ _ _ (by decide) (.flatten (.inl rfl) outputNew_renamed (.subcommand (.inl rfl) cmdNew_renamed
      (a _ _ _ (by decide) .nil))))))))))

/-- A renamed field whose option is not given its name. -/
def unkept : ArgsDef Val := get (deriveArgs Sample.cx none [.arg (lit "threshold") (.option number) { long := some .inherit }])
def kept : ArgsDef Val := get (deriveArgs Sample.cx none [.arg (lit "level") (.option number) { long := some .inherit }])

end Sample

/-- The values end up in the new fields. -/
example : Sample.value (tryParseFrom Sample.cli ([("-v" : String), "--level=3", "add", "p"].map blit |> (blit "app" :: ·))) ["level"] = some (.option (some (lit "3")))
    ∧ Sample.value (tryParseFrom Sample.newCli ([("-v" : String), "--level=3", "add", "p"].map blit |> (blit "app" :: ·))) ["threshold"]
      = some (.option (some (lit "3")))
    ∧ Sample.value (tryParseFrom Sample.newCli ([("-v" : String), "--level=3", "add", "p"].map blit |> (blit "app" :: ·))) ["cmd_arg", "ADD", "paths_arg"]
      = some (.vec [lit "p"]) := by decide +kernel

/-- The conflict between `--offset` and `--level` and its message are as before. -/
example : (Sample.failure (tryParseFrom Sample.cli ([("--level=3" : String), "--offset=1"].map blit |> (blit "app" :: ·)))).isSome = true
    ∧ Sample.failure (tryParseFrom Sample.newCli ([("--level=3" : String), "--offset=1"].map blit |> (blit "app" :: ·)))
      = Sample.failure (tryParseFrom Sample.cli ([("--level=3" : String), "--offset=1"].map blit |> (blit "app" :: ·))) := by
  refine ⟨by decide +kernel, ?_⟩
  rcases C87_same Sample.newCli_renamed ([("--level=3" : String), "--offset=1"].map blit |> (blit "app" :: ·)) with ⟨e, h1, h2⟩ | ⟨o, o', h1, h2, _⟩
  · rw [h1, h2]
  · rw [h1, h2]; rfl

example (fmt : Error.Fmt) (argv : List Bytes) (status : Nat) (text : Str) :
    parseMain fmt Sample.cli argv = .exited status text ↔ parseMain fmt Sample.newCli argv = .exited status text :=
  C87_process Sample.newCli_renamed fmt argv status text

example : ∃ d', deriveArgs Sample.cx none (Sample.addDecls.map Sample.renamedDecl) = .ok d' ∧ Renamed Sample.cx Sample.Became Sample.add d' :=
  C87_accepted (Sample.leaf_renamed Sample.addDecls (by decide)) (by
    intro x _ y _ h
    unfold Sample.newName at h
    split at h <;> split at h
    · simp_all
    · rename_i h1 h2
      have h3 := congrArg (fun l => List.take 4 (List.reverse l)) h
      simp [lit] at h3
    · rename_i h1 h2
      have h3 := congrArg (fun l => List.take 4 (List.reverse l)) h
      simp [lit] at h3
    · exact List.append_cancel_right h) (Sample.get_ok (by decide))

/-- The names have to be kept: an option named after its field is renamed with it. -/
theorem C87_names_kept : Sample.isOk (tryParseFrom Sample.kept [blit "app", blit "--level", blit "3"]) = true
    ∧ Sample.failure (tryParseFrom Sample.unkept [blit "app", blit "--level", blit "3"])
      = some (.error { kind := .unknownNamedArgument, input := some (blit "--level") }) := by decide +kernel

end Palc
