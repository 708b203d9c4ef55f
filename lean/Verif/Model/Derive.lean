import Verif.Model.Types
/-!
# The code generated by `#[derive(ParseMetaItem)]` for structs

macros/types/field.rs, macros/types/struct.rs, macros/parse_meta_item.rs.  The generated code depends on
the definition only through the data collected in `Field` and `StructDef`; the model is an interpreter
of that data.  Simplified: the fields of a structure have one value type `V` (see `Dict.map`), default
expressions are values, user functions (`map`, `and_then`) do not panic, and a type does not contain
itself.
-/
namespace Deluxe

/-- `FieldFlatten`, macros/types/field.rs:58-62; the prefix as its key string. -/
structure Flatten where
  value : Bool
  pre : Option Str

/-- `Transform`, macros/types/field.rs:203-206. -/
inductive Transform (V : Type)
  | map (f : V → V)
  | andThen (f : V → Except SynErr V)

/-- `Field`, macros/types/field.rs:208-219, with the trait implementations of its type (or of its
`with` module, 274-283) that the generated code calls. -/
structure Field (V : Type) where
  /-- `field.ident`, for a named field -/
  ident : Option Str
  /-- the names accepted for the field, the primary one first -/
  idents : List Str
  default : Option V
  flatten : Option Flatten
  append : Option Bool
  rest : Option Bool
  container : Option Bool
  skip : Option Bool
  transforms : List (Transform V)
  item : Dict V
  flatNamed : FlatNamed V
  flatUnnamed : FlatUnnamed V
  appendP : Append V
  restP : Rest V

namespace Field
variable {V : Type}
/-- `f.flatten.as_ref().map(|f| f.value).unwrap_or(false)` -/
def isFlatten (f : Field V) : Bool := (f.flatten.map (·.value)).getD false
/-- macros/types/field.rs:252-256 -/
def isFlat (f : Field V) : Bool := f.isFlatten || f.append.getD false || f.rest.getD false
/-- macros/types/field.rs:258-260 -/
def isContainer (f : Field V) : Bool := f.container.getD false
/-- macros/types/field.rs:262-264 -/
def isParsable (f : Field V) : Bool := !f.isContainer && !f.skip.getD false
/-- A field that takes part in the flat pass, macros/types/field.rs:721-724. -/
def flatParsable (f : Field V) : Bool := f.isFlat && f.isParsable
/-- The match arm of a field, macros/types/field.rs:875-890. -/
def matchesKey (f : Field V) (k : Str) : Bool := !f.isFlat && f.isParsable && f.idents.contains k
/-- macros/types/field.rs:299-314 -/
def acceptsAll (fields : List (Field V)) : Bool :=
  fields.any (fun f => f.rest.getD false) ||
    fields.any (fun f => f.isFlatten && f.flatNamed.acceptsAll)
/-- macros/types/field.rs:324-365 -/
def names (f : Field V) : List Str :=
  match f.flatten with
  | some ⟨true, some p⟩ => joinPaths p f.flatNamed.fieldNames
  | some ⟨true, none⟩ => f.flatNamed.fieldNames
  | _ => f.idents
/-- macros/types/field.rs:315-388.  Without flattened fields (376-387) this is the list of all
names of parsable fields, the same formula. -/
def fieldNames (fields : List (Field V)) : List Str :=
  (fields.filter (·.isParsable)).flatMap names
/-- macros/types/field.rs:397-435, for a flat field of a named structure -/
def flatCall (f : Field V) (pre : Str) (span : Span) (allowed : List Str) : M (List Stream) V :=
  if f.append.getD false then f.appendP (joinPaths pre f.idents)
  else if f.rest.getD false then f.restP allowed
  else
    f.flatNamed.parse (.named span)
      (match f.flatten.bind (·.pre) with
        | some p => joinPrefix pre p
        | none => [])
      false
/-- One transform, macros/types/field.rs:658-676. -/
def transform (t : Transform V) (st : FieldStatus V) (errors : Errors) : FieldStatus V × Errors :=
  match st with
  | .some v =>
    match t with
    | .map g => (.some (g v), errors)
    | .andThen g =>
      match g v with
      | .ok v' => (.some v', errors)
      | .error e => (.parseError, errors.pushSyn e)
  | st => (st, errors)
/-- macros/types/field.rs:655-687: default, then the transforms in order -/
def set (f : Field V) (st : FieldStatus V) (errors : Errors) : FieldStatus V × Errors :=
  let st := match f.default with
    | some d => st.orElse fun _ => .some d
    | none => st
  f.transforms.foldl (fun x t => transform t x.1 x.2) (st, errors)
end Field

/-- What macros/types/field.rs:240-248 (`FieldData`) and the surrounding function provide to the code
for a list of fields: `target` is the struct default (`ParseTarget::Var`), `obj` the container value
and `attrName` the attribute path in the attribute derives; `emptySpan` is where flat positional fields
that are parsed from nothing report leftovers (the call site in a structure, the key in a variant,
macros/types/field.rs:557-561). -/
structure Fields (V : Type) where
  fields : List (Field V)
  target : Option (List V)
  transparent : Bool
  allowUnknown : Bool
  obj : Option V
  attrName : Option Str
  emptySpan : Span := callSite

/-- The slots `field0`, `field1`, .. of the generated code. -/
abbrev Slots (V : Type) := List (FieldStatus V)

section
variable {V : Type} [Env]

/-- `let mut fieldN = FieldStatus::None;`, macros/types/field.rs:697-703 -/
def Fields.init (d : Fields V) : Slots V := d.fields.map fun _ => .none

/-- The first match arm for the key `k` without prefix, macros/types/field.rs:875-890, 914-915: the
field and its position. -/
def findArm (fields : List (Field V)) (k : Str) : Option (Field V × Nat) :=
  fields.zipIdx.find? fun x => x.1.matchesKey k

/-- Closure of macros/types/field.rs:913-922: an item with key `p`. -/
def namedStep (d : Fields V) (allowed : List Str) (pre : Str) (validate : Bool) (p : Str)
    (span : Span) : M (Acc (Slots V) × Stream) Unit := fun (acc, s) =>
  match (stripPrefix pre p).bind (findArm d.fields) with
  | some (f, i) =>
    let name := f.idents.headD []
    let (r, (st', errs', s')) :=
      (acc.val.getD i .none).parseNamedItemWith (f.item.named name span) name span acc.errs s
    (r, (⟨acc.val.set i st', errs'⟩, s'))
  | none =>
    let errs :=
      if !d.allowUnknown && validate then (checkUnknownAttribute p span allowed acc.errs).1
      else acc.errs
    (.ok (), (⟨acc.val, errs⟩, skipMetaItem s))

/-- macros/types/field.rs:715-740: the flat fields in order, all but the last on forks. -/
def flatPass (pre : Str) (span : Span) (allowed : List Str) :
    List (Field V) → Slots V → Errors → List Stream → Res (Slots V × Errors) × List Stream
  | f :: fs, st :: sts, errs, l =>
    if f.flatParsable then
      let (r, l1) :=
        if fs.any (·.flatParsable) then ((f.flatCall pre span allowed (forkInputs l)).1, l)
        else f.flatCall pre span allowed l
      match r with
      | .ok v =>
        let (r', l') := flatPass pre span allowed fs sts errs l1
        (r'.map fun x => (.some v :: x.1, x.2), l')
      | .err e =>
        let (r', l') := flatPass pre span allowed fs sts (errs.pushSyn e) l1
        (r'.map fun x => (.parseError :: x.1, x.2), l')
      | .panic => (.panic, l1)
    else
      let (r', l') := flatPass pre span allowed fs sts errs l
      (r'.map fun x => (st :: x.1, x.2), l')
  | _, _, errs, l => (.ok ([], errs), l)

/-- macros/types/field.rs:510-522: the container field in the attribute derives. -/
def containerSet (d : Fields V) (f : Field V) (st : FieldStatus V) : FieldStatus V :=
  match d.obj with
  | some v => if f.isContainer then .some v else st
  | none => st

/-- Name of a missing named field, macros/types/field.rs:609-626. -/
def missingName (d : Fields V) (pre : Str) (f : Field V) : Str :=
  let name := joinPath pre (f.ident.getD [])
  match d.attrName with
  | some p => "#[".toList ++ p ++ "(".toList ++ name ++ ")]".toList
  | none => "`".toList ++ name ++ "`".toList

/-- macros/types/field.rs:540-544, 608-639: a named field that was not given. -/
def missingNamed (d : Fields V) (pre : Str) (span : Span) (f : Field V) (st : FieldStatus V)
    (errs : Errors) : Res (FieldStatus V × Errors) :=
  if f.isContainer || d.transparent then .ok (st, errs)
  else if f.default.isNone && d.target.isNone && !f.isFlat && st.isNone then
    match f.item.missing (missingName d pre f) span with
    | .ok v => .ok (.some v, errs)
    | .err e => .ok (st, errs.pushSyn e)
    | .panic => .panic
  else .ok (st, errs)

/-- The missing fields in order, macros/types/field.rs:523-654. -/
def missingPass (d : Fields V) (pre : Str) (span : Span) :
    List (Field V) → Slots V → Errors → Res (Slots V × Errors)
  | f :: fs, st :: sts, errs =>
    match missingNamed d pre span f (containerSet d f st) errs with
    | .ok (st', errs') =>
      match missingPass d pre span fs sts errs' with
      | .ok (sts', errs'') => .ok (st' :: sts', errs'')
      | .err e => .err e
      | .panic => .panic
    | .err e => .err e
    | .panic => .panic
  | _, _, errs => .ok ([], errs)

/-- Defaults and transforms in order, macros/types/field.rs:655-687. -/
def setPass : List (Field V) → Slots V → Errors → Slots V × Errors
  | f :: fs, st :: sts, errs =>
    let (st', errs') := f.set st errs
    let (sts', errs'') := setPass fs sts errs'
    (st' :: sts', errs'')
  | _, _, errs => ([], errs)

/-- macros/types/field.rs:688-695, 707-711, 741-770 and 787-809: errors, then the value.  Without a
struct default every slot is unwrapped (or `unreachable!`), with one the set slots replace its
fields. -/
def finish (d : Fields V) (slots : Slots V) (errs : Errors) : Res (List V) :=
  match errs.check with
  | .ok () =>
    match d.target with
    | none => unwrapAll slots
    | some t => .ok (List.zipWith (fun st v => st.unwrapOr v) slots t)
  | .err e => .err e
  | .panic => .panic

/-- macros/types/field.rs:775-783 without the flat pass. -/
def postNamed (d : Fields V) (pre : Str) (span : Span) (slots : Slots V) (errs : Errors) :
    Res (List V) :=
  match missingPass d pre span d.fields slots errs with
  | .ok (slots, errs) =>
    let (slots, errs) := setPass d.fields slots errs
    finish d slots errs
  | .err e => .err e
  | .panic => .panic

/-- `parse_meta_flat_named` of a structure with named fields: macros/types/field.rs:909-925 and
771-783, macros/parse_meta_item.rs:143-154 -/
def namedFlat (d : Fields V) (allowed : List Str) (mode : Mode) (pre : Str) (validate : Bool) :
    M (List Stream) (List V) := fun l =>
  let span := mode.toFullSpan l
  let anyFlat := d.fields.any (·.flatParsable)
  let (r, (acc, l1)) :=
    parseStruct (namedStep d allowed pre validate)
      (⟨d.init, Errors.new⟩, if anyFlat then forkInputs l else l)
  let l1 := if anyFlat then l else l1
  match r with
  | .panic => (.panic, l1)
  | r =>
    let errs := match r with
      | .err e => acc.errs.pushSyn e
      | _ => acc.errs
    match flatPass pre span allowed d.fields acc.val errs l1 with
    | (.ok (slots, errs), l2) => (postNamed d pre span slots errs, l2)
    | (.err e, l2) => (.err e, l2)
    | (.panic, l2) => (.panic, l2)

/-! ## Tuple structures -/

/-- The match arms of macros/types/field.rs:935-961: real index and field of the `i`-th parsable
field. -/
def nthArm (fields : List (Field V)) (i : Nat) : Option (Field V × Nat) :=
  (fields.zipIdx.filter fun x => x.1.isParsable && !x.1.append.getD false && !x.1.rest.getD false)[i]?

/-- `index += ..`, macros/types/field.rs:940-952 -/
def tupleIncrement (d : Fields V) (f : Field V) (index : Nat) : Nat :=
  if d.fields.any (·.flatParsable) then
    if f.isFlat then index + f.flatUnnamed.fieldCount.getD 0 else index + 1
  else index

/-- Parse call of an unnamed field, macros/types/field.rs:436-441, 466-486: a flat field gets all
remaining streams, another one the current stream. -/
def unnamedCall (f : Field V) (index : Nat) : M (List Stream) V := fun l =>
  if f.isFlat then f.flatUnnamed.parse .unnamed index l
  else
    match l with
    | [] => (.panic, [])
    | s :: rest =>
      let (r, s') := f.item.parse .unnamed s
      (r, s' :: rest)

/-- Skips an item of the current stream. -/
def skipHead : List Stream → List Stream
  | [] => []
  | s :: rest => skipMetaItem s :: rest

/-- Closure of macros/types/field.rs:953-971 with `parse_unnamed_item_with`,
core/parse_helpers.rs:192-203.  The captured state: slots and `index`, errors. -/
def unnamedStep (d : Fields V) (i : Nat) : M (Acc (Slots V × Nat) × List Stream) Unit :=
  fun (acc, l) =>
    match nthArm d.fields i with
    | none => (.panic, (acc, l))
    | some (f, k) =>
      let index := tupleIncrement d f acc.val.2
      match unnamedCall f acc.val.2 l with
      | (.ok v, l') => (.ok (), (⟨(acc.val.1.set k (.some v), index), acc.errs⟩, l'))
      | (.err e, l') =>
        (.ok (), (⟨(acc.val.1.set k .parseError, index), acc.errs.pushSyn e⟩, skipHead l'))
      | (.panic, l') => (.panic, (acc, l'))

/-- A flat positional field that was not reached is parsed from nothing,
macros/types/field.rs:547-577: the outcome of the field itself is data, `parse_empty` fails only for
leftover tokens. -/
def emptyFlat (sp : Span) (f : Field V) (index : Nat) : Res (Except SynErr V) :=
  parseEmpty sp fun s =>
    match f.flatUnnamed.parse .unnamed index [s] with
    | (.ok v, l) => (.ok (.ok v), l.headD s)
    | (.err e, l) => (.ok (.error e), l.headD s)
    | (.panic, l) => (.panic, l.headD s)

/-- Name of a missing positional field, macros/types/field.rs:580-596. -/
def missingIndexName (d : Fields V) (n : Nat) : Str :=
  match d.attrName with
  | some p => (toString n).toList ++ " on #[".toList ++ p ++ "]".toList
  | none => (toString n).toList

/-- macros/types/field.rs:523-654 for positional fields: `index` is the run-time index, `cur` and
`extra` the compile-time counts. -/
def missingUnnamed (d : Fields V) (mode : Mode) (l : List Stream) :
    List (Field V) → Slots V → Errors → (index cur extra : Nat) → Res (Slots V × Errors)
  | f :: fs, st :: sts, errs, index, cur, extra =>
    let st := containerSet d f st
    if f.isContainer || d.transparent then
      (missingUnnamed d mode l fs sts errs index cur extra).map fun x => (st :: x.1, x.2)
    else
      let cur' := if f.isFlatten then cur else cur + 1
      let extra' := if f.isFlatten then extra + f.flatUnnamed.fieldCount.getD 0 else extra
      if f.default.isNone && d.target.isNone && st.isNone then
        if f.isFlat then
          let index' := index + f.flatUnnamed.fieldCount.getD 0
          match emptyFlat d.emptySpan f index with
          | .ok (.ok v) =>
            (missingUnnamed d mode l fs sts errs index' cur' extra').map fun x =>
              (.some v :: x.1, x.2)
          | .ok (.error e) =>
            (missingUnnamed d mode l fs sts (errs.pushSyn e) index' cur' extra').map fun x =>
              (.parseError :: x.1, x.2)
          | .err e => .err e
          | .panic => .panic
        else
          match f.item.missing (missingIndexName d (index + cur + extra)) (mode.toFullSpan l) with
          | .ok v =>
            (missingUnnamed d mode l fs sts errs index cur' extra').map fun x =>
              (.some v :: x.1, x.2)
          | .err e =>
            (missingUnnamed d mode l fs sts (errs.pushSyn e) index cur' extra').map fun x =>
              (st :: x.1, x.2)
          | .panic => .panic
      else
        (missingUnnamed d mode l fs sts errs index cur' extra').map fun x => (st :: x.1, x.2)
  | _, _, errs, _, _, _ => .ok ([], errs)

/-- macros/types/field.rs:814-821 -/
def postUnnamed (d : Fields V) (mode : Mode) (l : List Stream) (slots : Slots V) (index : Nat)
    (errs : Errors) : Res (List V) :=
  match missingUnnamed d mode l d.fields slots errs index 0 0 with
  | .ok (slots, errs) =>
    let (slots, errs) := setPass d.fields slots errs
    finish d slots errs
  | .err e => .err e
  | .panic => .panic

/-- `parse_meta_flat_unnamed` of a tuple structure: macros/types/field.rs:962-999 and 810-821,
macros/parse_meta_item.rs:187-196 -/
def unnamedFlat (d : Fields V) (mode : Mode) (index : Nat) : M (List Stream) (List V) := fun l =>
  let n := d.fields.countP (·.isParsable)
  if n = 0 then
    match eofAll l with
    | (.ok (), l1) => (postUnnamed d mode l1 d.init index Errors.new, l1)
    | (.err e, l1) => (.err e, l1)
    | (.panic, l1) => (.panic, l1)
  else
    let (r, (acc, l1)) := parseTupleStruct (unnamedStep d) n (⟨(d.init, index), Errors.new⟩, l)
    match r with
    | .panic => (.panic, l1)
    | r =>
      let errs := match r with
        | .err e => acc.errs.pushSyn e
        | _ => acc.errs
      (postUnnamed d mode l1 acc.val.1 acc.val.2 errs, l1)

/-! ## Structures -/

/-- `syn::Fields`. -/
inductive Shape
  | named | unnamed | unit
  deriving DecidableEq

/-- `Struct`, macros/types/struct.rs:105-114.  `transparent` is the value of the attribute. -/
structure StructDef (V : Type) where
  shape : Shape
  fields : List (Field V)
  default : Option (List V)
  transparent : Option Bool
  allowUnknown : Option Bool
  andThens : List (List V → Except SynErr (List V))

/-- macros/types/struct.rs:117-127 -/
def StructDef.isTransparent (d : StructDef V) : Bool :=
  d.transparent.getD false &&
    ((d.fields.filter fun f => f.isParsable && !f.isFlat).take 2).length == 1

/-- macros/types/struct.rs:140-145, and `false` where it emits nothing (core/parse_meta.rs:215) -/
def StructDef.acceptsAll (d : StructDef V) : Bool :=
  d.allowUnknown.getD false || Field.acceptsAll d.fields

/-- The field data of macros/types/struct.rs:160-175 in the `ParseMetaItem` derive. -/
def StructDef.data (d : StructDef V) : Fields V where
  fields := d.fields
  target := d.default
  transparent := d.isTransparent
  allowUnknown := d.allowUnknown.getD false
  obj := none
  attrName := none

/-- The `and_then` functions of a structure, macros/types/struct.rs:182-199: run in order on the value,
stopping at the first error. -/
def runAndThens {α : Type} (fs : List (α → Except SynErr α)) (r : Res α) : Res α :=
  match r with
  | .ok v =>
    match fs.foldlM (fun v f => f v) v with
    | .ok v' => .ok v'
    | .error e => .err e
  | r => r

/-- Changes the outcome only. -/
def M.mapRes {σ α β : Type} (g : Res α → Res β) (m : M σ α) : M σ β := fun s =>
  let (r, s') := m s
  (g r, s')

/-- `ParseMetaFlatNamed` of a named structure that is not transparent,
macros/parse_meta_item.rs:136-155 -/
def StructDef.flatNamed (d : StructDef V) : FlatNamed (List V) where
  acceptsAll := d.acceptsAll
  fieldNames := Field.fieldNames d.fields
  parse := fun mode pre validate =>
    (namedFlat d.data (Field.fieldNames d.fields) mode pre validate).mapRes (runAndThens d.andThens)

/-- `ParseMetaFlatUnnamed` of a structure that is not transparent: of a named one,
macros/parse_meta_item.rs:157-173; of a tuple structure, 93-107 and 181-197 -/
def StructDef.flatUnnamed (d : StructDef V) : FlatUnnamed (List V) :=
  match d.shape with
  | .named =>
    { fieldCount := none
      parse := fun mode _ => d.flatNamed.parse mode [] true }
  | _ =>
    { fieldCount := some ((d.fields.filter fun f => !f.isFlat).length +
        ((d.fields.filter (·.isFlat)).map fun f => f.flatUnnamed.fieldCount.getD 0).sum)
      parse := fun mode index => (unnamedFlat d.data mode index).mapRes (runAndThens d.andThens) }

/-- `missing_meta_item`, macros/parse_meta_item.rs:202-205, 376-383 -/
def StructDef.missing (d : StructDef V) (name : Str) (sp : Span) : Res (List V) :=
  match d.default with
  | some v => .ok v
  | none => .err (missingFieldError name sp)

/-- macros/types/struct.rs:206-248: the one parsable field of a transparent structure -/
def transparentPost (d : StructDef V) (k : Nat) (r : Res V) : Res (List V) :=
  match r with
  | .ok v =>
    let slots := d.data.init.set k (.some v)
    let (slots, errs) := setPass d.fields slots Errors.new
    runAndThens d.andThens (finish d.data slots errs)
  | .err e => .err e
  | .panic => .panic

/-- `ParseMetaItem` of a structure: macros/types/field.rs:900-1043, macros/types/struct.rs:206-248,
macros/parse_meta_item.rs:50-90, 354-398 -/
def StructDef.dict (d : StructDef V) : Dict (List V) :=
  if d.isTransparent then
    match d.fields.zipIdx.find? fun x => x.1.isParsable && !x.1.isFlat with
    | some (f, k) =>
      .mk' (parse := fun mode => (f.item.parse mode).mapRes (transparentPost d k))
        (inline := fun mode => (f.item.inline mode).mapRes (transparentPost d k))
        (flag := fun sp => transparentPost d k (f.item.flag sp))
        (missing := d.missing)
    | none => .mk' (parse := fun _ => M.panic)
  else
    match d.shape with
    | .named =>
      let inline := fun mode => d.flatNamed.parse mode [] (!d.acceptsAll)
      .mk' (parse := fun mode => parseDelimitedWith .brace (single (inline mode)))
        (inline := inline)
        (flag := fun sp => parseEmpty sp (single (inline (.named sp))))
        (missing := d.missing)
    | .unnamed =>
      let inline := fun mode => d.flatUnnamed.parse mode 0
      .mk' (parse := fun mode => parseDelimitedWith .paren (single (inline mode)))
        (inline := inline)
        (flag := fun sp =>
          if d.default.isSome || (d.fields.filter (·.isParsable)).all (fun f =>
              f.isFlat || f.default.isSome) then
            parseEmpty sp (single (inline .unnamed))
          else .err (flagDisallowedError sp))
        (missing := d.missing)
    | .unit =>
      let inline := fun (_ : Mode) (l : List Stream) => (runAndThens d.andThens (.ok []), l)
      .mk' (parse := fun _ => parseDelimitedWith .paren (single (inline .unnamed)))
        (inline := inline)
        (flag := fun _ => runAndThens d.andThens (.ok []))
        (missing := d.missing)

end

end Deluxe
