import Verif.Props.Default
import Verif.Props.Help
import Verif.Props.ValueProps
import Verif.Props.NoPanic
import Verif.ShownDefault
/-!
# The default that help shows (C86)
-/

namespace Palc

open Spec

variable {V : Type} {cx : Cx V} {d : ArgsDef V} {argv0 : Bytes} {pre post : List Bytes} {evs more : List Event}
  {st : List (Entry V)} {k : Nat} {a : Addr} {f : FieldInfo V}

/-- The help page `page` has an entry for the argument `f` that says that the default is `s`. -/
def ShowsDefault (cx : Cx V) (page : Str) (f : FieldInfo V) (s : Str) : Prop :=
  ∃ x doc y, page = x ++ label cx f ++ lit "\n" ++ doc ++ lit "          [default: " ++ s ++ lit "]\n\n" ++ y
    ∧ (doc = [] ∨ doc = lit "          " ++ f.src.doc ++ lit "\n")

theorem shows_default (hd : DerivedArgs cx d) {i : CmdId} {e : ArgsDef V}
    (hpre : Reads cx (start argv0 d) pre evs ⟨(i, e) :: st, k, .opts⟩) (hf : (a, f) ∈ fieldsAt st.length e) (hh : f.src.hide = false)
    {s : Str} (hs : f.defaultValue = some (.parseStr s) ∨ ∃ v, f.defaultValue = some (.valueExpr v s)) (path : Str) :
    ShowsDefault cx (renderHelp e.info path) f s := by
  obtain ⟨_, c, hc, hcf⟩ := fieldsAt_mem_iff.1 hf
  obtain ⟨x, y, z, h⟩ := C46_entry hd (command_of_reads hpre (i, e) (List.mem_cons_self ..)) path (List.mem_of_getElem? hc)
    (List.mem_of_getElem? hcf) hh
  refine ⟨x ++ (if isOption f then lit "Options:\n" else lit "Arguments:\n") ++ y
      ++ (if shortPart f = [] ∧ longPart cx f ≠ [] then lit "      " else lit "  "),
    if f.src.doc = [] then [] else lit "          " ++ f.src.doc ++ lit "\n", z, ?_, ?_⟩
  · rw [h]
    have e2 : lit "]\n\n" = lit "]\n" ++ lit "\n" := by decide
    unfold entryText
    rcases hs with hs | ⟨v, hs⟩
    · rw [e2, hs]
      simp only [List.append_assoc]
    · rw [e2, hs]
      simp only [List.append_assoc]
  · split
    · exact .inl rfl
    · exact .inr rfl

theorem field_of_resolves {i : CmdId} {e : ArgsDef V} {n : Name} (hr : Resolves cx ((i, e) :: st) n a f) (hl : a.level = st.length) :
    (a, f) ∈ fieldsAt st.length e :=
  (fieldsAt_cons_iff (i := i)).2 ⟨hl, resolves_fieldAt hr⟩

/-- C86: the default that the help of the current command shows for an option with `default_value = "s"` is `s`, and giving `s`
explicitly is the same as leaving the option out. -/
theorem C86_text (hd : DerivedArgs cx d) {i : CmdId} {e : ArgsDef V} (hpre : Reads cx (start argv0 d) pre evs ⟨(i, e) :: st, k, .opts⟩)
    {n : Str} (hr : Resolves cx ((i, e) :: st) (.long n) a f) (hl : a.level = st.length) (hh : f.src.hide = false) (hk : f.kind ≠ .bool)
    {s : Str} (hs : f.src.defaultValue = some s) (hne : fieldOut f [] ≠ none)
    (hi : f.src.ignoreCase = true → asciiLower (enc s) = enc s)
    (hng : NotGiven cx ⟨(i, e) :: st, k, .opts⟩ evs post a) (hu : Unconstrained ((i, e) :: st) a f) (path : Str) :
    ShowsDefault cx (renderHelp e.info path) f s
    ∧ tryParseFrom d (argv0 :: (pre ++ (enc ('-' :: '-' :: n) ++ eqSign :: enc s) :: post)) = tryParseFrom d (argv0 :: (pre ++ post)) := by
  have hs' : f.defaultValue = some (.parseStr s) :=
    ((stack_wf hd.wf (reads_steps hpre)).1.field (resolves_fieldAt hr)).defaultStr s |>.2 hs
  exact ⟨shows_default hd hpre (field_of_resolves hr hl) hh (.inl hs') path, C73_default_value_partial hd hpre hr hk hs' hne hi hng hu⟩

/-- C86: the default of an option whose type derives `ValueEnum` is shown by the name of the variant, whether or not the type implements
`Display` as well, and giving this name explicitly is the same as leaving the option out. -/
theorem C86_enum [DecidableEq V] (hd : DerivedArgs cx d) {i : CmdId} {e : ArgsDef V}
    (hpre : Reads cx (start argv0 d) pre evs ⟨(i, e) :: st, k, .opts⟩)
    {n : Str} (hr : Resolves cx ((i, e) :: st) (.long n) a f) (hl : a.level = st.length) (hh : f.src.hide = false)
    (hk : f.kind = .value ∨ f.kind = .option) {variants : List (Str × V)} {en : EnumDef V} (he : deriveValueEnum variants = .ok en)
    (hp : f.parser = .valueEnum en) (hnd : (variants.map Prod.snd).Nodup) {v : V} {shown name : Str} {display : Option (V → Str)}
    (hdef : f.defaultValue = some (.valueExpr (.one v) shown)) (hshow : inferDisplay (some en) display v = some shown)
    (hv : (name, v) ∈ variants) (hng : NotGiven cx ⟨(i, e) :: st, k, .opts⟩ evs post a) (hu : Unconstrained ((i, e) :: st) a f) (path : Str) :
    ShowsDefault cx (renderHelp e.info path) f name
    ∧ tryParseFrom d (argv0 :: (pre ++ (enc ('-' :: '-' :: n) ++ eqSign :: enc name) :: post))
      = tryParseFrom d (argv0 :: (pre ++ post)) := by
  obtain ⟨h1, h2⟩ := C37_display_inverse he hnd name v hv
  have hsn : shown = name := by
    have : en.displayValue v = some shown := hshow
    rw [h1] at this
    exact (Option.some.inj this).symm
  subst hsn
  refine ⟨shows_default hd hpre (field_of_resolves hr hl) hh (.inr ⟨_, hdef⟩) path, ?_⟩
  have hnorm : normalise f (enc shown) = enc shown := by
    unfold normalise
    split
    · rename_i hi
      obtain ⟨-, e', he', hu'⟩ := ((stack_wf hd.wf (reads_steps hpre)).1.field (resolves_fieldAt hr)).ignoreCase hi
      rw [hp] at he'
      cases he'
      exact lower_noUpper ((deriveValueEnum_ok he).2.2.2.1.1 hu' _ hv)
    · rfl
  have hpd : parsed f (enc shown) = some v := by unfold parsed; rw [hp, h2]
  have h0 : fieldOut f [] ≠ none := by
    rcases hk with hk | hk <;> simp [fieldOut, defaultContent, hdef, toField, hk]
  refine C73_long hd hpre hr (by rcases hk with hk | hk <;> rw [hk] <;> decide) (by rw [hdef]; simp) h0 ?_ hng hu
  rcases hk with hk | hk <;> simp [fieldOut, defaultContent, hdef, toField, hk, given, content, hnorm, hpd]

/-- C86: for other types the default is shown as `Display` does it; if the type can parse what it displays, giving this text explicitly is
the same as leaving the option out. -/
theorem C86_display [DecidableEq V] (hd : DerivedArgs cx d) {i : CmdId} {e : ArgsDef V}
    (hpre : Reads cx (start argv0 d) pre evs ⟨(i, e) :: st, k, .opts⟩)
    {n : Str} (hr : Resolves cx ((i, e) :: st) (.long n) a f) (hl : a.level = st.length) (hh : f.src.hide = false)
    (hk : f.kind = .value ∨ f.kind = .option) {v : V} {shown : Str} {display : V → Str}
    (hdef : f.defaultValue = some (.valueExpr (.one v) shown)) (hshow : inferDisplay none (some display) v = some shown)
    (hp : (∃ from', f.parser = .fromStr from' ∧ from' (display v) = .ok v)
      ∨ ∃ from', f.parser = .tryFromOsStr from' ∧ from' (enc (display v)) = .ok v)
    (hng : NotGiven cx ⟨(i, e) :: st, k, .opts⟩ evs post a) (hu : Unconstrained ((i, e) :: st) a f) (path : Str) :
    ShowsDefault cx (renderHelp e.info path) f (display v)
    ∧ tryParseFrom d (argv0 :: (pre ++ (enc ('-' :: '-' :: n) ++ eqSign :: enc (display v)) :: post))
      = tryParseFrom d (argv0 :: (pre ++ post)) := by
  have hsn : display v = shown := Option.some.inj hshow
  rw [hsn]
  refine ⟨shows_default hd hpre (field_of_resolves hr hl) hh (.inr ⟨_, hdef⟩) path, ?_⟩
  have hnorm : normalise f (enc shown) = enc shown := by
    unfold normalise
    split
    · rename_i hi
      obtain ⟨-, e', he', -⟩ := ((stack_wf hd.wf (reads_steps hpre)).1.field (resolves_fieldAt hr)).ignoreCase hi
      rcases hp with ⟨g, hg, _⟩ | ⟨g, hg, _⟩ <;> (rw [hg] at he'; cases he')
    · rfl
  have hpd : parsed f (enc shown) = some v := by
    unfold parsed
    rcases hp with ⟨g, hg, h⟩ | ⟨g, hg, h⟩
    · rw [hg]
      simp [ValueParser.parse, ← hsn, h, fromUtf8_enc]
    · rw [hg]
      simp [ValueParser.parse, ← hsn, h]
  have h0 : fieldOut f [] ≠ none := by
    rcases hk with hk | hk <;> simp [fieldOut, defaultContent, hdef, toField, hk]
  refine C73_long hd hpre hr (by rcases hk with hk | hk <;> rw [hk] <;> decide) (by rw [hdef]; simp) h0 ?_ hng hu
  rcases hk with hk | hk <;> simp [fieldOut, defaultContent, hdef, toField, hk, given, content, hnorm, hpd]

namespace Sample

def formats : List (Str × Val) := [(lit "json", lit "Json"), (lit "text", lit "Text")]

/-- `struct Show { #[arg(long, default_value_t = Format::Text)] format: Format, #[arg(long, default_value_t = 4)] jobs: u32 }`; `Format`
implements `Display` differently. -/
def showDecls : List (FieldDecl Val) :=
  [.arg (lit "format") (.other { valueEnum := some formatEnum })
     { long := some .inherit, ignoreCase := true, doc := lit "How to print", defaultValueT := some (.explicit (.one (lit "Text"), lit "text")) },
   .arg (lit "jobs") number { long := some .inherit, defaultValueT := some (.explicit (.one (lit "4"), lit "4")) }]

def showCli : ArgsDef Val := get (deriveArgs Sample.cx none showDecls)

theorem showCli_derived : DerivedArgs Sample.cx showCli := derived_leaf (by decide) (by decide)

def showRoot : Entry Val := (⟨[], lit "app"⟩, showCli)

theorem show_unconstrained {a : Addr} {f : FieldInfo Val} (ha : a.level = 0 ∧ a.struct = 0)
    (h1 : f.src.requires = []) (h2 : f.src.conflictsWith = []) : Unconstrained [showRoot] a f := by
  refine ⟨h1, h2, ?_⟩
  intro b g hb hl hs
  have hm : ∀ g ∈ (coreOf showCli).fields, g.src.exclusive = false ∧ g.src.requires = [] ∧ g.src.conflictsWith = [] := by decide +kernel
  obtain ⟨l, s, n⟩ := b
  simp only [ha.1, ha.2] at hl hs
  subst hl hs
  have hs0 : (structs showCli)[0]? = some (coreOf showCli) := rfl
  simp only [showRoot, fieldAt, List.length_nil, ↓reduceIte, hs0] at hb
  obtain ⟨x, y, z⟩ := hm g (List.mem_of_getElem? hb)
  exact ⟨x, by rw [y]; simp, by rw [z]; simp⟩

/-- What is shown and what can be typed, for both options. -/
example (path : Str) :
    (∃ f, ShowsDefault Sample.cx (renderHelp showCli.info path) f (lit "text") ∧ label Sample.cx f = lit "--format <FORMAT>")
    ∧ tryParseFrom showCli [blit "app", blit "--format=text", blit "--jobs=5"] = tryParseFrom showCli [blit "app", blit "--jobs=5"]
    ∧ (∃ f, ShowsDefault Sample.cx (renderHelp showCli.info path) f (lit "4") ∧ label Sample.cx f = lit "--jobs <JOBS>")
    ∧ tryParseFrom showCli [blit "app", blit "--jobs=4"] = tryParseFrom showCli [blit "app"] := by
  have hstart : start (blit "app") showCli = ⟨[showRoot], 0, .opts⟩ := by
    unfold start
    rw [show progName (blit "app") = lit "app" by decide +kernel]
    rfl
  obtain ⟨f, hr, hp⟩ := resolve (fun f => decide (f.kind = .value) && decide (f.src.requires = []) && decide (f.src.conflictsWith = [])
      && !f.src.hide && decide (label Sample.cx f = lit "--format <FORMAT>")
      && (match f.defaultValue with | some (.valueExpr (.one v) s) => decide (v = lit "Text" ∧ s = lit "text") | _ => false)
      && (match f.parser with
          | .valueEnum e => decide (e.arms = formatEnum.arms ∧ e.possibleInputsNul = formatEnum.possibleInputsNul ∧ e.noUpperCase = true)
          | _ => false))
    (st := [showRoot]) (n := .long (lit "format")) (a := ⟨0, 0, 0⟩) (by decide +kernel)
  obtain ⟨g, hr', hp'⟩ := resolve (fun f => decide (f.kind = .value) && decide (f.src.requires = []) && decide (f.src.conflictsWith = [])
      && !f.src.hide && decide (label Sample.cx f = lit "--jobs <JOBS>")
      && (match f.defaultValue with | some (.valueExpr (.one v) s) => decide (v = lit "4" ∧ s = lit "4") | _ => false)
      && (match f.parser with | .fromStr p => (match p (lit "4") with | .ok v => decide (v = lit "4") | _ => false) | _ => false))
    (st := [showRoot]) (n := .long (lit "jobs")) (a := ⟨0, 0, 1⟩) (by decide +kernel)
  simp only [Bool.and_eq_true, decide_eq_true_eq, Bool.not_eq_true'] at hp hp'
  obtain ⟨⟨⟨⟨⟨⟨k1, k2⟩, k3⟩, k4⟩, k5⟩, k6⟩, k7⟩ := hp
  obtain ⟨⟨⟨⟨⟨⟨l1, l2⟩, l3⟩, l4⟩, l5⟩, l6⟩, l7⟩ := hp'
  have hdf : f.defaultValue = some (.valueExpr (.one (lit "Text")) (lit "text")) := by
    split at k6
    · rename_i v s h
      simp only [decide_eq_true_eq] at k6
      rw [h, k6.1, k6.2]
    · cases k6
  have hdg : g.defaultValue = some (.valueExpr (.one (lit "4")) (lit "4")) := by
    split at l6
    · rename_i v s h
      simp only [decide_eq_true_eq] at l6
      rw [h, l6.1, l6.2]
    · cases l6
  have hpf : f.parser = .valueEnum formatEnum := by
    split at k7
    · rename_i e h
      simp only [decide_eq_true_eq] at k7
      rw [h]
      congr 1
      cases e
      simp only at k7
      rw [k7.1, k7.2.1, k7.2.2]
      rfl
    · cases k7
  have hpg : ∃ p, g.parser = .fromStr p ∧ p (lit "4") = .ok (lit "4") := by
    split at l7
    · rename_i p h
      refine ⟨p, h, ?_⟩
      split at l7
      · rename_i v hv
        simp only [decide_eq_true_eq] at l7
        rw [hv, l7]
      · cases l7
    · cases l7
  have hjobs : Reads Sample.cx ⟨[showRoot], 0, .opts⟩ [blit "--jobs=5"] [(⟨0, 0, 1⟩, some (blit "5"))] ⟨[showRoot], 0, .opts⟩ := by
    exact .longEq (v := blit "5") hr' (by decide) (by rw [l1]; decide) .done
  have e1 := C86_enum (argv0 := blit "app") (pre := []) (post := [blit "--jobs=5"]) (display := some (fun v => v)) (variants := formats) (en := formatEnum) (name := lit "text")
    showCli_derived (by rw [hstart]; exact .done) hr rfl k4 (.inl k1) rfl hpf (by decide) hdf (by decide) (by decide)
    ⟨by decide, _, by decide, .inl ⟨_, hjobs⟩⟩ (show_unconstrained ⟨rfl, rfl⟩ k2 k3) path
  have e2 := C86_display (argv0 := blit "app") (pre := []) (post := []) (display := fun v => v)
    showCli_derived (by rw [hstart]; exact .done) hr' rfl l4 (.inl l1) hdg rfl (.inl hpg)
    ⟨by decide, _, by decide, .inl ⟨_, .done⟩⟩ (show_unconstrained ⟨rfl, rfl⟩ l2 l3) path
  exact ⟨⟨f, e1.1, k5⟩, e1.2, ⟨g, e2.1, l5⟩, e2.2⟩

example : isOk (tryParseFrom showCli [blit "app", blit "--format=text", blit "--jobs=5"]) = true := by decide +kernel

end Sample

end Palc
