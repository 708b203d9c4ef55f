import Verif.Model.Derive
/-!
# The code generated by `#[derive(ParseMetaItem)]` for enums

macros/types/variant.rs, macros/types/enum.rs, macros/parse_meta_item.rs:218-324.  As for structures
(`Verif.Model.Derive`) the model interprets the data collected from the definition.  A value of the enum
is the position of its variant and the values of the fields.  Simplified: a transparent variant calls the
`ParseMetaItem` implementation of the type of its field even if the field has a `with` module
(macros/types/variant.rs:86); `Field.item` stands for that implementation then.
-/
namespace Deluxe

/-! ## Ordered sets

`BTreeSet` and `BTreeMap` as sorted lists without repetitions. -/

/-- Lexicographic order (`Ord` for `str`, and for `BTreeSet` through its iterator). -/
def cmpList {α : Type} (cmp : α → α → Ordering) : List α → List α → Ordering
  | [], [] => .eq
  | [], _ :: _ => .lt
  | _ :: _, [] => .gt
  | a :: as, b :: bs =>
    match cmp a b with
    | .eq => cmpList cmp as bs
    | o => o

/-- `Ord for str`: the order of UTF-8 strings is that of their code points. -/
def cmpStr : Str → Str → Ordering := cmpList fun a b => compare a.toNat b.toNat

/-- `BTreeMap::insert`: an equal key keeps its place, the value is replaced. -/
def btInsert {κ α : Type} (cmp : κ → κ → Ordering) (k : κ) (a : α) : List (κ × α) → List (κ × α)
  | [] => [(k, a)]
  | (k', a') :: rest =>
    match cmp k k' with
    | .lt => (k, a) :: (k', a') :: rest
    | .eq => (k', a) :: rest
    | .gt => (k', a') :: btInsert cmp k a rest

/-- `iter.collect::<BTreeMap<_, _>>()` -/
def btMap {κ α : Type} (cmp : κ → κ → Ordering) (l : List (κ × α)) : List (κ × α) :=
  l.foldl (fun m x => btInsert cmp x.1 x.2 m) []

/-- `iter.collect::<BTreeSet<_>>()` -/
def btSet {κ : Type} (cmp : κ → κ → Ordering) (l : List κ) : List κ :=
  (btMap cmp (l.map fun k => (k, ()))).map (·.1)

/-- A set of alternatives (the names of a field) for each required field. -/
abbrev VKey := List (List Str)

/-- `Ord for BTreeSet<BTreeSet<String>>` -/
def cmpKey : VKey → VKey → Ordering := cmpList (cmpList cmpStr)

/-! ## Definitions -/

/-- `Variant`, macros/types/variant.rs:11-19. -/
structure Variant (V : Type) where
  ident : Str
  shape : Shape
  fields : List (Field V)
  /-- the names accepted for the variant, the primary one first -/
  idents : List Str
  flatten : Option Bool
  transparent : Option Bool
  skip : Option Bool
  allowUnknown : Option Bool

/-- A value of an enum: position of the variant, values of its fields. -/
abbrev EnumVal (V : Type) := Nat × List V

/-- `Enum`, macros/types/enum.rs:11-19 -/
structure EnumDef (V : Type) where
  variants : List (Variant V)
  default : Option (EnumVal V)
  allowUnknown : Option Bool
  andThens : List (EnumVal V → Except SynErr (EnumVal V))

/-- What the attribute derives provide (`TokenMode`): the container value and the attribute path. -/
structure Site (V : Type) where
  obj : Option V
  attrName : Option Str

/-- The `ParseMetaItem` derive. -/
def Site.meta {V : Type} : Site V := ⟨none, none⟩

namespace Variant
variable {V : Type}
def isFlatten (v : Variant V) : Bool := v.flatten.getD false
/-- macros/types/variant.rs:34-36 -/
def isSkipped (v : Variant V) : Bool := v.skip.getD false
def isTransparent (v : Variant V) : Bool := v.transparent.getD false
/-- macros/types/variant.rs:37-54 -/
def fieldKey (v : Variant V) : VKey :=
  btSet (cmpList cmpStr) (v.fields.filterMap fun f =>
    let idents := btSet cmpStr
      (if f.default.isSome || f.isFlat || !f.isParsable then [] else f.idents)
    if idents.isEmpty then none else some idents)
/-- macros/types/variant.rs:121-126 -/
def acceptsAll (v : Variant V) : Bool := v.allowUnknown.getD false || Field.acceptsAll v.fields
/-- macros/types/variant.rs:468-497 -/
def flatNames (v : Variant V) : List (Str × List Str) :=
  if v.isFlatten then
    v.fields.map fun f =>
      match f.flatten with
      | some ⟨true, p⟩ => (p.getD [], f.flatNamed.fieldNames)
      | _ => ([], f.idents)
  else []
/-- macros/types/enum.rs:73-148 -/
def names (v : Variant V) : List Str :=
  if v.isFlatten then
    (v.fields.flatMap fun f =>
      match f.flatten with
      | some ⟨true, some p⟩ => joinPaths p f.flatNamed.fieldNames
      | some ⟨true, none⟩ => f.flatNamed.fieldNames
      | _ => []) ++
    (v.fields.flatMap fun f => if f.isFlatten then [] else f.idents)
  else if v.isSkipped then [] else v.idents
/-- The field data of macros/types/variant.rs:62-71; `span` is that of the key. -/
def data (v : Variant V) (site : Site V) (span : Span) : Fields V where
  fields := v.fields
  target := none
  transparent := v.isTransparent
  allowUnknown := v.allowUnknown.getD false
  obj := site.obj
  attrName := site.attrName
  emptySpan := span

variable [Env]

/-- The parser of the fields of a variant that is neither transparent nor flattened,
macros/types/variant.rs:103-136 and 193-197: `prefix` is the one of the enum. -/
def inline (v : Variant V) (site : Site V) (pre : Str) (span : Span) (mode : Mode) :
    M (List Stream) (List V) :=
  match v.shape with
  | .named =>
    namedFlat (v.data site span) (Field.fieldNames v.fields) mode pre (!v.acceptsAll)
  | .unnamed => unnamedFlat (v.data site span) mode 0
  | .unit => fun l => (.ok [], l)

/-- `parse` of the variant, macros/types/field.rs:900-907, 973-980, 1021-1028 -/
def parse (v : Variant V) (site : Site V) (pre : Str) (span : Span) (mode : Mode) :
    M Stream (List V) :=
  parseDelimitedWith (match v.shape with | .named => .brace | _ => .paren)
    (single (v.inline site pre span mode))

/-- `flag` of the variant, macros/types/field.rs:926-931, 969-972, 986-993, 1030-1033 and
macros/types/variant.rs:188-192 -/
def flag (v : Variant V) (site : Site V) (pre : Str) (span : Span) : Res (List V) :=
  match v.shape with
  | .named => parseEmpty span (single (v.inline site pre span (.named span)))
  | .unnamed =>
    if (v.fields.filter (·.isParsable)).all (fun f => f.isFlat || f.default.isSome) then
      parseEmpty span (single (v.inline site pre span .unnamed))
    else .err (flagDisallowedError span)
  | .unit => .ok []

/-- macros/types/variant.rs:72-90: the code after the value of the field of a transparent variant.  It
shares `errors` with the enum and does not check it; a message of a failing `and_then` of a field is
never seen, because the slot is unwrapped at once. -/
def transparentPost (v : Variant V) (site : Site V) (span : Span) (k : Nat) (r : Res V) :
    Res (List V) :=
  match r with
  | .ok x =>
    let d := v.data site span
    let slots := List.zipWith (containerSet d) v.fields (d.init.set k (.some x))
    unwrapAll (setPass v.fields slots Errors.new).1
  | .err e => .err e
  | .panic => .panic

/-- The value of a variant that is not flattened, after its key `p`: macros/types/variant.rs:74-102 (a
transparent one) and 193-216 (the cases are those of `parse_named_meta_item_with`). -/
def item (v : Variant V) (site : Site V) (pre p : Str) (span : Span) : M Stream (List V) :=
  if v.isTransparent then
    match v.fields.zipIdx.find? fun x => x.1.isParsable && !x.1.isFlat with
    | some (f, k) => (f.item.named p span).mapRes (v.transparentPost site span k)
    | none => M.panic
  else
    parseNamedWith (v.parse site pre span) (v.inline site pre span)
      (fun _ => v.flag site pre span) span
end Variant

namespace EnumDef
variable {V : Type}
def unknownOk (e : EnumDef V) : Bool := e.allowUnknown.getD false
/-- macros/types/enum.rs:68-165 -/
def fieldNames (e : EnumDef V) : List Str := e.variants.flatMap (·.names)
/-- macros/types/enum.rs:44-67; used by the attribute derives only -/
def acceptsAll (e : EnumDef V) : Bool :=
  e.unknownOk ||
    e.variants.any (fun v => !v.isSkipped && v.isFlatten && v.allowUnknown.getD false) ||
    e.variants.any (fun v => v.isFlatten && Field.acceptsAll v.fields)
/-- macros/types/variant.rs:293-295 -/
def anyFlat (e : EnumDef V) : Bool := e.variants.any fun v => v.isFlatten && !v.isSkipped
/-- macros/types/variant.rs:226-254 -/
def keyMsgs (e : EnumDef V) : List (List (List Str)) :=
  (e.variants.filter fun v => !v.isSkipped).map fun v =>
    let quoted := fun (s : Str) => "`".toList ++ s ++ "`".toList
    if v.isFlatten then
      if v.fieldKey.isEmpty then [["fields from `".toList ++ v.ident ++ "`".toList]]
      else v.fieldKey.map (·.map quoted)
    else [(v.idents.take 1).map quoted]
/-- `flat_matches`, macros/types/variant.rs:303-366: the flattened variants in the order of their
keys. -/
def flatMatches (e : EnumDef V) : List (VKey × (Variant V × Nat)) :=
  btMap cmpKey ((e.variants.zipIdx.filter fun x => !x.1.isSkipped && x.1.isFlatten).map fun x =>
    (x.1.fieldKey, x))
end EnumDef

/-- The variables of macros/types/variant.rs:432-435 besides `errors`. -/
structure EnumSt (V : Type) where
  key : Option Str
  value : FieldStatus (EnumVal V)
  paths : PathMap

section
variable {V : Type} [Env]

/-- The first match arm for the key `k` without prefix, macros/types/variant.rs:265-292. -/
def findVariant (variants : List (Variant V)) (k : Str) : Option (Variant V × Nat) :=
  variants.zipIdx.find? fun x => !x.1.isFlatten && !x.1.isSkipped && x.1.idents.contains k

/-- Closure of macros/types/variant.rs:436-450: an item with key `p`. -/
def enumStep (e : EnumDef V) (site : Site V) (pre : Str) (p : Str) (span : Span) :
    M (Acc (EnumSt V) × Stream) Unit := fun (acc, s) =>
  let cur := stripPrefix pre p
  let paths := match cur with
    | some k => if e.anyFlat then acc.val.paths.insert k span else acc.val.paths
    | none => acc.val.paths
  match cur.bind fun k => (findVariant e.variants k).map fun x => (k, x) with
  | some (k, (v, i)) =>
    let errs := match acc.val.key with
      | some key => onlyOneVariant span pre key k acc.errs
      | none => acc.errs
    let key := match acc.val.key with
      | some key => some key
      | none => some k
    match v.item site pre p span s with
    | (.ok x, s') =>
      let value := if v.isTransparent && acc.val.value.isSome then acc.val.value else .some (i, x)
      (.ok (), (⟨⟨key, value, paths⟩, errs⟩, s'))
    | (.err e, s') =>
      let value := if acc.val.value.isNone then .parseError else acc.val.value
      (.ok (), (⟨⟨key, value, paths⟩, errs.pushSyn e⟩, skipMetaItem s'))
    | (.panic, s') => (.panic, (acc, s'))
  | none => (.ok (), (⟨⟨acc.val.key, acc.val.value, paths⟩, acc.errs⟩, skipMetaItem s))

/-- The closure that only checks keys, macros/types/variant.rs:148-154 and 370-374. -/
def checkStep (allowed : List Str) (p : Str) (span : Span) : M (Acc Unit × Stream) Unit :=
  fun (acc, s) =>
    (.ok (), (⟨(), (checkUnknownAttribute p span allowed acc.errs).1⟩, skipMetaItem s))

/-- `let _ = parse_struct(.., check)`: the outcome of the loop itself is dropped. -/
def checkKeys (allowed : List Str) (errs : Errors) (l : List Stream) : Res Errors × List Stream :=
  match parseStruct (checkStep allowed) (⟨(), errs⟩, l) with
  | (.panic, (_, l')) => (.panic, l')
  | (_, (acc, l')) => (.ok acc.errs, l')

/-- macros/types/variant.rs:367-377, if emitted and if the caller asks for it -/
def validatePass (e : EnumDef V) (validate : Bool) (errs : Errors) (l : List Stream) :
    Res Errors × List Stream :=
  if !e.unknownOk && validate then checkKeys e.fieldNames errs l else (.ok errs, l)

/-- The names of all flattened variants but the one at position `i`, macros/types/variant.rs:333-338. -/
def otherFlatNames (e : EnumDef V) (i : Option Nat) : List (Str × List Str) :=
  e.variants.zipIdx.flatMap fun x => if some x.2 = i then [] else x.1.flatNames

/-- Outcome of the part after the loop: the value and the errors, or an early return. -/
abbrev Picked (V : Type) := Res (FieldStatus (EnumVal V) × Errors)

/-- The check before the fields of a flattened variant without keys, macros/types/variant.rs:137-168. -/
def emptyCheck (e : EnumDef V) (v : Variant V) (pre : Str) (span : Span) (errs : Errors)
    (l : List Stream) : Res Errors :=
  if !errs.isEmpty then errs.bail
  else
    match (checkKeys (Field.fieldNames v.fields) errs (forkInputs l)).1 with
    | .ok errs =>
      if errs.isEmpty then .ok errs
      else (variantRequired span pre e.keyMsgs errs).bail
    | .err x => .err x
    | .panic => .panic

/-- The block of a flattened variant: macros/types/variant.rs:169-186 and 328-364.  Its `validate`
(127-130) shadows the argument of the function in the whole block. -/
def flatBlock (e : EnumDef V) (site : Site V) (pre : Str) (span : Span) (paths : PathMap)
    (v : Variant V) (i : Nat) (empty : Bool) (errs : Errors) (l : List Stream) :
    Picked V × List Stream :=
  let validate := !v.acceptsAll
  let early := empty && !v.allowUnknown.getD false
  match (if early && validate then emptyCheck e v pre span errs l else .ok errs) with
  | .ok errs =>
    let d := v.data site span
    let (r, l1) := namedFlat d (Field.fieldNames v.fields) (.named span) pre (validate && !early) l
    let finish := fun (errs : Errors) =>
      if e.unknownOk || v.allowUnknown.getD false || validate then errs
      else disallowPaths (removePaths paths v.flatNames) (otherFlatNames e (some i)) v.ident errs
    match r with
    | .ok x => (.ok (.some (i, x), finish errs), l1)
    | .err x => (.ok (.parseError, finish (errs.pushSyn x)), l1)
    | .panic => (.panic, l1)
  | .err x => (.err x, l)
  | .panic => (.panic, l)

/-- The `if .. else if .. else` chain of macros/types/variant.rs:389-410 and 454-457. -/
def pickFlat (e : EnumDef V) (site : Site V) (pre : Str) (span : Span) (validate : Bool)
    (paths : PathMap) (errs : Errors) (l : List Stream) : Picked V × List Stream :=
  match e.flatMatches.find? fun x => !x.1.isEmpty && hasPaths paths x.1 with
  | some (_, v, i) => flatBlock e site pre span paths v i false errs l
  | none =>
    match e.flatMatches.find? fun x => x.1.isEmpty with
    | some (_, v, i) => flatBlock e site pre span paths v i true errs l
    | none =>
      match e.default with
      | some x => (.ok (.some x, errs), l)
      | none =>
        match validatePass e validate errs l with
        | (.ok errs, l1) => (.ok (.none, variantRequired span pre e.keyMsgs errs), l1)
        | (.err x, l1) => (.err x, l1)
        | (.panic, l1) => (.panic, l1)

/-- macros/types/variant.rs:411-429, 451-457 -/
def pick (e : EnumDef V) (site : Site V) (pre : Str) (span : Span) (validate : Bool)
    (st : EnumSt V) (errs : Errors) (l : List Stream) : Picked V × List Stream :=
  match st.value with
  | .some x =>
    match st.key with
    | none => (.panic, l)
    | some key =>
      let errs :=
        if e.anyFlat && !e.unknownOk && !validate then
          disallowPaths (st.paths.remove key) (otherFlatNames e none) key errs
        else errs
      match validatePass e validate errs l with
      | (.ok errs, l1) => (.ok (.some x, errs), l1)
      | (.err x, l1) => (.err x, l1)
      | (.panic, l1) => (.panic, l1)
  | .parseError => (.ok (.parseError, errs), l)
  | .none => pickFlat e site pre span validate st.paths errs l

/-- The `and_then` functions of an enum, macros/types/variant.rs:458-462: a failing one adds its
message. -/
def enumAndThens (fs : List (EnumVal V → Except SynErr (EnumVal V))) (x : Option (EnumVal V))
    (errs : Errors) : Option (EnumVal V) × Errors :=
  fs.foldl (fun x f =>
    match x.1 with
    | some v =>
      match f v with
      | .ok v' => (some v', x.2)
      | .error err => (none, x.2.pushSyn err)
    | none => x) (x, errs)

/-- `parse_meta_flat_named` of an enum: macros/types/variant.rs:431-466,
macros/parse_meta_item.rs:245-253 and 288-300 -/
def enumFlat (e : EnumDef V) (site : Site V) (mode : Mode) (pre : Str) (validate : Bool) :
    M (List Stream) (EnumVal V) := fun l =>
  let span := mode.toFullSpan l
  let fork := e.anyFlat || !e.unknownOk
  let (r, (acc, l1)) :=
    parseStruct (enumStep e site pre) (⟨⟨none, .none, []⟩, Errors.new⟩,
      if fork then forkInputs l else l)
  let l1 := if fork then l else l1
  match r with
  | .panic => (.panic, l1)
  | r =>
    let errs := match r with
      | .err x => acc.errs.pushSyn x
      | _ => acc.errs
    match pick e site pre span validate acc.val errs l1 with
    | (.ok (value, errs), l2) =>
      let (value, errs) := enumAndThens e.andThens value.intoOption errs
      (match errs.check with
        | .ok () =>
          match value with
          | some x => .ok x
          | none => .panic
        | .err x => .err x
        | .panic => .panic, skipAll l2)
    | (.err x, l2) => (.err x, l2)
    | (.panic, l2) => (.panic, l2)

/-- `ParseMetaFlatNamed` of an enum, macros/parse_meta_item.rs:283-301: `ACCEPTS_ALL` keeps its default
`false` (core/parse_meta.rs:215). -/
def EnumDef.flatNamed (e : EnumDef V) : FlatNamed (EnumVal V) where
  acceptsAll := false
  fieldNames := e.fieldNames
  parse := fun mode pre validate => enumFlat e .meta mode pre validate

/-- `ParseMetaFlatUnnamed` of an enum, macros/parse_meta_item.rs:303-320 -/
def EnumDef.flatUnnamed (e : EnumDef V) : FlatUnnamed (EnumVal V) where
  fieldCount := none
  parse := fun mode _ => e.flatNamed.parse mode [] true

/-- `ParseMetaItem` of an enum, macros/parse_meta_item.rs:261-281, 376-383 -/
def EnumDef.dict (e : EnumDef V) : Dict (EnumVal V) :=
  let inline := fun mode => e.flatNamed.parse mode [] (!e.flatNamed.acceptsAll)
  .mk' (parse := fun mode s => parseDelimitedMetaItem .brace inline (mode.toNamed s) s)
    (inline := inline)
    (flag := fun sp => parseEmptyMetaItem sp (inline (.named sp)))
    (missing := fun name sp =>
      match e.default with
      | some v => .ok v
      | none => .err (missingFieldError name sp))

end

end Deluxe
