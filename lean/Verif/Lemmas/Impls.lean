import Verif.Lemmas.Legal
import Verif.Lemmas.Program
/-! Value types without the impls that are never used. -/

namespace Palc

variable {V : Type}

/-- The impls that count. -/
def ValTy.norm (v : ValTy V) : ValTy V :=
  match v.valueEnum with
  | some e => { valueEnum := some e, default := v.default }
  | none =>
    match v.tryFromOsStr with
    | some f => { tryFromOsStr := some f, default := v.default }
    | none => v

def Ty.norm : Ty V → Ty V
  | .bool => .bool
  | .option t => .option t.norm
  | .vec t => .vec t.norm
  | .other v => .other v.norm

def FieldDecl.norm : FieldDecl V → FieldDecl V
  | .arg i ty m => .arg i ty.norm m
  | x => x

def normEnv (env : TyExpr → TyInfo V) (t : TyExpr) : TyInfo V := { env t with val := (env t).val.norm }

theorem ValTy.norm_parser (v : ValTy V) : v.norm.parser = v.parser := by
  rw [parser_eq, parser_eq]
  unfold ValTy.norm
  cases h : v.valueEnum with
  | some e => rfl
  | none =>
    cases h2 : v.tryFromOsStr with
    | some f => rfl
    | none => simp [h, h2]

theorem ValTy.norm_default (v : ValTy V) : v.norm.default = v.default := by
  unfold ValTy.norm
  split
  · rfl
  · split <;> rfl

theorem norm_classify (ty : Ty V) : classify ty.norm = ((classify ty).1, (classify ty).2.norm) := by
  unfold classify
  cases ty with
  | bool => rfl
  | option t => cases t <;> rfl
  | vec t => rfl
  | other v => rfl

theorem norm_inferParser (cx : Cx V) (ty : Ty V) : inferParser cx ty.norm = inferParser cx ty := by
  cases ty <;> simp [Ty.norm, inferParser, ValTy.norm_parser]

theorem norm_fieldParser (cx : Cx V) (kind : MagicKind) (ty : Ty V) : fieldParser cx kind ty.norm = fieldParser cx kind ty := by
  unfold fieldParser
  rw [norm_inferParser]

theorem norm_defaultOf (cx : Cx V) (kind : MagicKind) (ty : Ty V) : defaultOf cx kind ty.norm = defaultOf cx kind ty := by
  cases ty <;> simp [Ty.norm, defaultOf, ValTy.norm_default]

theorem norm_fieldDefault (cx : Cx V) (kind : MagicKind) (ty : Ty V) (m : ArgMeta V) :
    fieldDefault cx kind ty.norm m = fieldDefault cx kind ty m := by
  unfold fieldDefault
  rw [norm_defaultOf]

theorem norm_argField (cx : Cx V) (i : Str) (ty : Ty V) (m : ArgMeta V) : argField cx i ty.norm m = argField cx i ty m := by
  unfold argField commonErrors
  simp only [norm_classify, norm_fieldDefault, norm_fieldParser]

theorem norm_deriveStep (cx : Cx V) (s : DState V) (x : FieldDecl V) : deriveStep cx s x.norm = deriveStep cx s x := by
  cases x with
  | arg i ty m => simp only [FieldDecl.norm, deriveStep, norm_argField]
  | subcommand => rfl
  | flatten => rfl

theorem norm_ident (x : FieldDecl V) : x.norm.ident = x.ident := by
  cases x <;> rfl

theorem norm_deriveArgs (cx : Cx V) (cmeta : Option CommandMeta) (ds : List (FieldDecl V)) :
    deriveArgs cx cmeta (ds.map FieldDecl.norm) = deriveArgs cx cmeta ds := by
  unfold deriveArgs
  have h : ∀ s, (ds.map FieldDecl.norm).foldl (deriveStep cx) s = ds.foldl (deriveStep cx) s := by
    induction ds with
    | nil => exact fun _ => rfl
    | cons x xs ih =>
      intro s
      rw [List.map_cons, List.foldl_cons, List.foldl_cons, norm_deriveStep, ih]
  have hi : (ds.map FieldDecl.norm).map (·.ident) = ds.map (·.ident) := by
    rw [List.map_map]
    exact List.map_congr_left (fun x _ => norm_ident x)
  rw [h, hi, List.length_map]

theorem norm_elabTy (env : TyExpr → TyInfo V) (t : TyExpr) : elabTy (normEnv env) t = (elabTy env t).norm := by
  fun_induction elabTy env t with
  | case1 => rfl
  | case2 i h => unfold elabTy; rw [if_neg h]; rfl
  | case3 a ih => rw [elabTy, if_pos rfl, ih]; rfl
  | case4 a h ih => rw [elabTy, if_neg h, if_pos rfl, ih]; rfl
  | case5 i a h1 h2 => unfold elabTy; rw [if_neg h1, if_neg h2]; rfl
  | case6 t h1 h2 => rw [elabTy]; · rfl
                     · exact h1
                     · exact h2

theorem norm_elabField (cx : SrcCx V) (env : TyExpr → TyInfo V) (f : SrcField V) :
    elabField cx (normEnv env) f = ((elabField cx env f).1, (elabField cx env f).2.map FieldDecl.norm) := by
  unfold elabField
  split
  · simp only [norm_elabTy]; rfl
  · split
    simp only [normEnv]
    split <;> rfl
  · simp only [normEnv]
    split <;> rfl

theorem norm_deriveFields (cx : SrcCx V) (env : TyExpr → TyInfo V) (cmeta : Option CommandMeta) (fields : List (SrcField V)) :
    deriveFields cx (normEnv env) cmeta fields = deriveFields cx env cmeta fields := by
  unfold deriveFields
  have h1 : (fields.map (elabField cx (normEnv env))).flatMap (·.1) = (fields.map (elabField cx env)).flatMap (·.1) := by
    simp only [List.flatMap_map, norm_elabField]
  have h2 : (fields.map (elabField cx (normEnv env))).filterMap (·.2)
      = ((fields.map (elabField cx env)).filterMap (·.2)).map FieldDecl.norm := by
    rw [List.filterMap_map, List.filterMap_map, List.map_filterMap]
    congr 1
    funext f
    simp only [Function.comp, norm_elabField]
  simp only [h1, h2, norm_deriveArgs]

theorem norm_expandArgs (cx : SrcCx V) (env : TyExpr → TyInfo V) (input : Input V) :
    expandArgs cx (normEnv env) input = expandArgs cx env input := by
  unfold expandArgs
  simp only [norm_deriveFields]

theorem norm_expandVariant (cx : SrcCx V) (env : TyExpr → TyInfo V) (v : SrcVariant V) :
    expandVariant cx (normEnv env) v = expandVariant cx env v := by
  unfold expandVariant
  simp only [norm_deriveFields]
  rfl

theorem norm_expandSubcommand (cx : SrcCx V) (env : TyExpr → TyInfo V) (input : Input V) :
    expandSubcommand cx (normEnv env) input = expandSubcommand cx env input := by
  unfold expandSubcommand
  have : expandVariant cx (normEnv env) = expandVariant cx env := funext (norm_expandVariant cx env)
  simp only [this]

theorem norm_expandItem (cx : SrcCx V) (env : TyExpr → TyInfo V) (x : SrcItem V) : expandItem cx (normEnv env) x = expandItem cx env x := by
  cases x with
  | args => simp only [expandItem, norm_expandArgs]
  | subcommand => simp only [expandItem, norm_expandSubcommand]
  | valueEnum => rfl

theorem expandItem_norm {cx : SrcCx V} {env : TyExpr → TyInfo V} {x : SrcItem V} {info : TyInfo V} (h : expandItem cx env x = .ok info) :
    { info with val := info.val.norm } = info := by
  unfold expandItem at h
  split at h
  · cases he : expandArgs cx env _ <;> rw [he] at h <;> cases h
    rfl
  · cases he : expandSubcommand cx env _ <;> rw [he] at h <;> cases h
    rfl
  · cases he : expandValueEnum cx _ _ <;> rw [he] at h <;> cases h
    rfl

theorem norm_define (env : TyExpr → TyInfo V) (n : Str) {info : TyInfo V} (h : { info with val := info.val.norm } = info) :
    define (normEnv env) n info = normEnv (define env n info) := by
  funext t
  unfold normEnv
  fun_cases define env n info t with
  | case1 => rw [define, if_pos rfl, h]
  | case2 i hi => rw [define, if_neg hi]
  | case3 t ht =>
    rw [define]
    exact ht

theorem norm_compile (cx : SrcCx V) (env : TyExpr → TyInfo V) (items : List (SrcItem V)) :
    compile cx (normEnv env) items = (compile cx env items).map normEnv := by
  induction items generalizing env with
  | nil => rfl
  | cons x xs ih =>
    rw [compile, compile, norm_expandItem]
    cases h : expandItem cx env x with
    | ok info =>
      dsimp only
      rw [norm_define env x.name (expandItem_norm h), ih]
    | errors => rfl
    | panic => rfl

end Palc
