import Verif.Spec.Calls
import Verif.Model.Scope
/-!
# The functions called for the fields (macros/types/field.rs:266-1047, macros/types/struct.rs:139-391,
macros/types/variant.rs:53-478, macros/types/enum.rs:47-165, macros/parse_meta_item.rs, macros/parse_attributes.rs)

The quotations of the derive macros, reduced to the functions that they call for the fields, with the types or modules
that these come from.  Calls of functions of the type itself, of the helpers, and of the functions in `map`, `and_then`
and `default = expr` are left out.
-/
namespace Deluxe

/-- `Field::constraint_ty`, macros/types/field.rs:266-273 -/
def FieldDecl.constraintTy (f : FieldDecl) : CallSource := if f.transforms.isEmpty then .type else .argument

/-- `Field::parse_path`, macros/types/field.rs:274-283 -/
def FieldDecl.parsePath (f : FieldDecl) : CallSource := if f.with_.isSome then .module else f.constraintTy

/-- The calls for a field with its index, for all of them. -/
def perFieldCalls (fields : List FieldDecl) (g : Nat → FieldDecl → List Call) : List Call :=
  fields.zipIdx.flatMap fun x => g x.2 x.1

/-- `Field::to_field_names_tokens`, macros/types/field.rs:315-388 -/
def fieldNamesCalls (fields : List FieldDecl) : List Call :=
  perFieldCalls fields fun i f => if f.isParsable && f.isFlatten then [⟨i, f.constraintTy, .fieldNames⟩] else []

/-- `Field::to_accepts_all_tokens`, macros/types/field.rs:299-314 -/
def acceptsAllCalls (fields : List FieldDecl) : List Call :=
  if fields.any (·.isRest) then []
  else perFieldCalls fields fun i f => if f.isFlatten then [⟨i, .type, .acceptsAll⟩] else []

/-- The function called by `Field::to_parse_call_tokens`, macros/types/field.rs:389-487 -/
def FieldDecl.readFn (f : FieldDecl) : TraitFn :=
  if f.isAppend then .append
  else if f.isRest then .rest
  else if f.isFlatten then if f.ident.isSome then .flatNamed else .flatUnnamed
  else if f.ident.isSome then .named else .parse

/-- `Field::to_parse_call_tokens`, macros/types/field.rs:389-487 -/
def FieldDecl.readCall (i : Nat) (f : FieldDecl) : Call := ⟨i, f.parsePath, f.readFn⟩

/-- The entry for a field in `field_errors`, macros/types/field.rs:537-654; `extra` is `#extra_counts`. -/
def fieldErrorCalls (named transparent var : Bool) (extra : List Call) (i : Nat) (f : FieldDecl) : List Call :=
  if f.isContainer || transparent || f.default.isSome || var then []
  else if !named then
    if f.isFlat then [f.readCall i, ⟨i, f.parsePath, .fieldCount⟩] else extra ++ [⟨i, f.parsePath, .missing⟩]
  else if !f.isFlat then [⟨i, f.parsePath, .missing⟩]
  else []

/-- `field_errors`, macros/types/field.rs:520-655, from the field with the index `i` on.  `extra` has grown with the
flattened fields before. -/
def fieldErrorsCalls (named transparent var : Bool) : List Call → Nat → List FieldDecl → List Call
  | _, _, [] => []
  | extra, i, f :: fs =>
    fieldErrorCalls named transparent var extra i f ++
      fieldErrorsCalls named transparent var
        (if !named && !(f.isContainer || transparent) && f.isFlatten then extra ++ [⟨i, f.constraintTy, .fieldCount⟩]
          else extra) (i + 1) fs

/-- The default of a field, macros/types/field.rs:680-686 with `FieldDefault::to_expr` (19-33): `Default::default` for
the type of the field, or with transforms for the type that is left open. -/
def fieldSetCalls (i : Nat) (f : FieldDecl) : List Call :=
  match f.default with
  | some (.default _) => [⟨i, f.constraintTy, .default⟩]
  | _ => []

/-- `container_def`, macros/types/field.rs:507-519; the type is the one of the variable. -/
def containerCalls (attr : Bool) (i : Nat) (f : FieldDecl) : List Call :=
  if f.isContainer && attr then [⟨i, f.constraintTy, .container⟩] else []

/-- `post` of `Field::to_pre_post_tokens`, macros/types/field.rs:489-846 -/
def postCalls (shape : Shape) (fields : List FieldDecl) (attr transparent var : Bool) : List Call :=
  match shape with
  | .unit => []
  | _ =>
    (if shape = .named then perFieldCalls fields fun i f => if f.isParsable && f.isFlat then [f.readCall i] else []
      else []) ++
    perFieldCalls fields (containerCalls attr) ++
    fieldErrorsCalls (shape = .named) transparent var [] 0 fields ++
    perFieldCalls fields fieldSetCalls

/-- `inline` of `Field::to_parsing_tokens`, macros/types/field.rs:848-1046, without `post` -/
def itemCalls (shape : Shape) (fields : List FieldDecl) : List Call :=
  match shape with
  | .named => perFieldCalls fields fun i f => if f.isFlat || !f.isParsable then [] else [f.readCall i]
  | .unnamed => perFieldCalls fields fun i f =>
      if f.isParsable && !f.isAppend && !f.isRest then
        f.readCall i :: if f.isFlat then [⟨i, f.constraintTy, .fieldCount⟩] else []
      else []
  | .unit => []

/-- The calls of the code for a transparent structure, macros/types/struct.rs:206-365, for each function `fn` of the
trait: `#parse_ty` and `#flat_ty` are the module, or the type of the field. -/
def transparentCalls (fields : List FieldDecl) (fns : List TraitFn) : List Call :=
  match fields.zipIdx.find? fun x => x.1.isParsable && !x.1.isFlat with
  | some (f, i) => fns.map fun fn => ⟨i, if f.with_.isSome then .module else .type, fn⟩
  | none => []

/-- The functions of the further traits, macros/types/struct.rs:262-358 -/
def TransparentD.furtherFns (t : TransparentD) : List TraitFn :=
  (if t.flattenNamed.getD false then [.acceptsAll, .fieldNames, .flatNamed] else []) ++
  (if t.flattenUnnamed.getD false then [.fieldCount, .flatUnnamed] else []) ++
  (if t.rest.getD false then [.rest] else []) ++
  (if t.append.getD false then [.append] else [])

/-- `Struct::to_accepts_all_tokens`, macros/types/struct.rs:139-145 -/
def StructDecl.acceptsAllCalls (d : StructDecl) (fields : List FieldDecl) : List Call :=
  if d.allowUnknown.getD false then [] else Deluxe.acceptsAllCalls fields

/-- The calls in the impls that the `ParseMetaItem` derive generates for a structure, macros/parse_meta_item.rs:18-215 -/
def StructDecl.metaCalls (d : StructDecl) : List Call :=
  let fields := d.fields.map fillContainer
  let post := postCalls d.shape fields false d.isTransparent d.default.isSome
  if d.isTransparent then
    transparentCalls fields
      ([.parse, .inline, .flag] ++ (d.transparent.map TransparentD.furtherFns).getD []) ++ post
  else match d.shape with
    | .named => fieldNamesCalls fields ++ d.acceptsAllCalls fields ++ itemCalls d.shape fields ++ post
    | .unnamed => (perFieldCalls fields fun i f => if f.isFlat then [⟨i, .type, .fieldCount⟩] else []) ++
        itemCalls d.shape fields ++ post
    | .unit => []

/-- The calls in the impl that the attribute derives generate for a structure, macros/parse_attributes.rs:33-112 -/
def StructDecl.attrCalls (d : StructDecl) : List Call :=
  (if d.shape = .named then fieldNamesCalls d.fields ++ d.acceptsAllCalls d.fields else []) ++
  (if d.isTransparent then transparentCalls d.fields [.inline] else itemCalls d.shape d.fields) ++
  postCalls d.shape d.fields true d.isTransparent d.default.isSome

/-- The calls for the fields of a structure. -/
def StructDecl.calls (d : StructDecl) : Derive → List Call
  | .metaItem => d.metaCalls
  | .attrs _ => d.attrCalls

/-- `Variant::to_field_parsing_tokens`, macros/types/variant.rs:53-225.  In a transparent variant the call is
`ParseMetaItem::parse_meta_item_named`, for the type of the variable of the field. -/
def VariantDecl.calls (v : VariantDecl) (attr : Bool) : List Call :=
  let transparent := v.transparent.getD false
  (if transparent then
    match v.fields.zipIdx.find? fun x => x.1.isParsable && !x.1.isFlat with
    | some (f, i) => [⟨i, f.constraintTy, .named⟩]
    | none => []
  else
    (if v.shape = .named then
      fieldNamesCalls v.fields ++ (if v.allowUnknown.getD false then [] else acceptsAllCalls v.fields) else []) ++
    itemCalls v.shape v.fields) ++
  postCalls v.shape v.fields attr transparent false

/-- `Variant::to_flat_field_names_tokens`, macros/types/variant.rs:468-497, and the same calls in
`Enum::to_field_names_tokens`, macros/types/enum.rs:89-124: also for skipped variants and fields. -/
def VariantDecl.namesCalls (v : VariantDecl) : List Call :=
  if v.isFlatten then perFieldCalls v.fields fun i f => if f.isFlatten then [⟨i, .type, .fieldNames⟩] else []
  else []

/-- The entries of `Enum::to_accepts_all_tokens`, macros/types/enum.rs:57-66 -/
def VariantDecl.acceptsAllCalls (v : VariantDecl) : List Call :=
  if v.isFlatten then Deluxe.acceptsAllCalls v.fields else []

/-- `Enum::to_accepts_all_tokens`, macros/types/enum.rs:47-67: whether the answer is known without the fields. -/
def EnumDecl.acceptsAllKnown (d : EnumDecl) : Bool :=
  d.allowUnknown.getD false || d.variants.any fun v => !v.isSkipped && v.isFlatten && v.allowUnknown.getD false

/-- The calls for the fields of an enum, with the index of the variant: macros/types/variant.rs:254-456 with
macros/parse_meta_item.rs:217-324 and macros/parse_attributes.rs:114-172.  `ParseMetaItem` does not define
`ACCEPTS_ALL` for enums. -/
def EnumDecl.calls (d : EnumDecl) (which : Derive) : List (Nat × Call) :=
  let attr := match which with
    | .metaItem => false
    | .attrs _ => true
  d.variants.zipIdx.flatMap fun x =>
    (x.1.namesCalls ++ (if attr && !d.acceptsAllKnown then x.1.acceptsAllCalls else []) ++
      (if x.1.isSkipped then [] else x.1.calls attr)).map fun c => (x.2, c)

end Deluxe
