import Verif.Model.Attributes
import Verif.Model.With
/-!
# How the derives read a definition (macros/types/{field,struct,variant,enum}.rs)

The `#[deluxe(..)]` attributes of a definition are read with deluxe's own parsers.  Here the definition is
data: the attribute lists of the type, its variants and fields.  The result is what the code generators
use; `FieldDecl.toField` and the like turn it into the definitions of `Verif.Model.Derive` and
`Verif.Model.Enum`.

External, and parameters here (`SynLib`): the parsers of syn for paths, lifetimes and types, whose values
are kept as their tokens, `heck`'s conversion to snake case, and which texts `Ident::new` takes.  Simplified: identifiers are their text
(with `r#` if raw) and their span.
-/
namespace Deluxe

/-- Parsers of syn, `heck::ToSnakeCase`, and whether `Ident::new` takes a text (it panics otherwise). -/
structure SynLib where
  path : M Stream (List Tok)
  modPath : M Stream (List Tok)
  lifetime : M Stream (List Tok)
  ty : M Stream (List Tok)
  snake : Str → Str
  isIdent : Str → Bool

/-- `Spanned::span` of a token stream: first token joined with the last; the call site if there are none. -/
def toksSpan [Env] (toks : List Tok) : Span :=
  match toks with
  | [] => callSite
  | t :: rest => joinSpans t.span (rest.map Tok.span)

/-- `syn::ext::IdentExt::unraw` -/
def unraw (s : Str) : Str := (stripPrefix "r#".toList s).getD s

/-- A literal text as a key or message. -/
abbrev txt (s : String) : Str := s.toList

/-- `path.is_ident("deluxe")`, macros/types/field.rs:1056-1058 and the like. -/
def isDeluxe (p : APath) : Bool :=
  !p.leading && match p.segs with
    | [(s, args)] => !args && s == txt "deluxe"
    | _ => false

/-! ## Values of the attributes -/

/-- `FieldDefault`, macros/types/field.rs:13-16. -/
inductive DefaultD
  | default (sp : Span)
  | expr (toks : List Tok)

/-- Its span; `to_tokens` is macros/types/field.rs:47-55. -/
def DefaultD.span [Env] : DefaultD → Span
  | .default sp => sp
  | .expr toks => toksSpan toks

/-- macros/types/field.rs:36-45: `input.parse::<TokenStream>()` takes everything that is left. -/
def defaultDict : Dict DefaultD :=
  .mk' (parse := fun _ s => (.ok (.expr s.toks), { s with toks := [] })) (flag := fun sp => .ok (.default sp))

/-- `FieldFlatten`, macros/types/field.rs:57-62. -/
structure FlattenD where
  span : Span
  value : Bool
  pre : Option Path

/-- `FieldContainer`, macros/types/field.rs:128-133. -/
structure ContainerD where
  span : Span
  value : Bool
  lifetime : Option (List Tok)
  ty : Option (List Tok)

/-- `StructTransparent`, macros/types/struct.rs:14-21. -/
structure TransparentD where
  span : Span
  value : Bool
  flattenNamed : Option Bool
  flattenUnnamed : Option Bool
  append : Option Bool
  rest : Option Bool

/-- `lookahead.peek(syn::LitBool)`. -/
def peekLitBool (s : Stream) : Bool :=
  peekIdent "true".toList s || peekIdent "false".toList s

/-- `parse_meta_item` of macros/types/field.rs:72-87, 143-160 and macros/types/struct.rs:31-50: a boolean, or
the inline form in braces. -/
def boolOrBraces {α} (ofBool : Span → Bool → α) (inline : Mode → M (List Stream) α) (mode : Mode) :
    M Stream α := fun s =>
  if peekLitBool s then (parseLitBool.map (ofBool s.span)) s
  else if s.peekDelim .brace then parseDelimitedMetaItem .brace inline mode s
  else (.err (s.error (.expected "boolean literal or curly braces".toList)), s)

/-- `status.parse_named_item_with(name, input, span, &errors, func)` on one of the local variables. -/
def slotItem {κ α : Type} (get : κ → FieldStatus α) (put : FieldStatus α → κ → κ) (func : M Stream α)
    (name : Str) (span : Span) : M (Acc κ × Stream) Unit := fun (acc, s) =>
  let (r, (st, errs, s')) := (get acc.val).parseNamedItemWith func name span acc.errs s
  (r, (⟨put st acc.val, errs⟩, s'))

/-- `errors.push(span, ..); skip_meta_item(input);` -/
def refuse {κ : Type} (text : Text) (span : Span) : M (Acc κ × Stream) Unit := fun (acc, s) =>
  (.ok (), (⟨acc.val, acc.errs.push span text⟩, skipMetaItem s))

/-- `errors.push(span, ..);` alone, macros/types/field.rs:1099, 1128 -/
def report {κ : Type} (text : Text) (span : Span) : M (Acc κ × Stream) Unit := fun (acc, s) =>
  (.ok (), (⟨acc.val, acc.errs.push span text⟩, s))

/-- `errors.push_syn(unknown_error(..)); skip_meta_item(input);`, macros/types/field.rs:104-107 -/
def unknownItem [Env] {κ : Type} (path : Str) (span : Span) (names : List Str) : M (Acc κ × Stream) Unit :=
  fun (acc, s) => (.ok (), (⟨acc.val, acc.errs.pushSyn (unknownError path span names)⟩, skipMetaItem s))

/-- `check_unknown_attribute(..); skip_meta_item(input);`, macros/types/field.rs:1170-1178 -/
def checkUnknownItem [Env] {κ : Type} (path : Str) (span : Span) (names : List Str) :
    M (Acc κ × Stream) Unit :=
  fun (acc, s) => (.ok (), (⟨acc.val, (checkUnknownAttribute path span names acc.errs).1⟩, skipMetaItem s))

/-- `match errors.push_result(parse(input)) { Some(e) => push, None => skip_meta_item(input) }`,
macros/types/field.rs:1156-1162 -/
def pushItem {κ α : Type} (item : M Stream α) (put : κ → α → κ) : M (Acc κ × Stream) Unit :=
  stepPush item fun acc a _ _ => { acc with val := put acc.val a }

/-- macros/types/field.rs:88-117 -/
def flattenInline [Env] (mode : Mode) : M (List Stream) FlattenD := fun inputs =>
  (runAccPush (γ := FieldStatus Path) .none (parseStruct fun path span =>
    if path = txt "prefix" then slotItem id (fun st _ => st) (anyPathDict.named (txt "prefix") span) (txt "prefix") span
    else unknownItem path span [txt "prefix"])).map
    (fun st => ⟨mode.toFullSpan inputs, true, st.intoOption⟩) inputs

/-- macros/types/field.rs:71-126 -/
def flattenDict [Env] : Dict FlattenD :=
  .mk' (parse := boolOrBraces (fun sp b => ⟨sp, b, none⟩) flattenInline) (inline := flattenInline)
    (flag := fun sp => .ok ⟨sp, true, none⟩)

/-- macros/types/field.rs:161-191 -/
def containerInline [Env] (lib : SynLib) (mode : Mode) : M (List Stream) ContainerD := fun inputs =>
  (runAccPush (γ := FieldStatus (List Tok) × FieldStatus (List Tok)) (.none, .none) (parseStruct fun path span =>
    if path = txt "lifetime" then
      slotItem (·.1) (fun st k => (st, k.2)) ((synDict lib.lifetime).named (txt "lifetime") span) (txt "lifetime") span
    else if path = txt "ty" then
      slotItem (·.2) (fun st k => (k.1, st)) ((synDict lib.ty).named (txt "ty") span) (txt "ty") span
    else unknownItem path span [txt "lifetime", txt "ty"])).map
    (fun k => ⟨mode.toFullSpan inputs, true, k.1.intoOption, k.2.intoOption⟩) inputs

/-- macros/types/field.rs:142-201 -/
def containerDict [Env] (lib : SynLib) : Dict ContainerD :=
  .mk' (parse := boolOrBraces (fun sp b => ⟨sp, b, none, none⟩) (containerInline lib))
    (inline := containerInline lib) (flag := fun sp => .ok ⟨sp, true, none, none⟩)

/-- The variables of macros/types/struct.rs:57-60. -/
structure TransparentSt where
  flattenNamed : FieldStatus Bool := .none
  flattenUnnamed : FieldStatus Bool := .none
  append : FieldStatus Bool := .none
  rest : FieldStatus Bool := .none

/-- macros/types/struct.rs:51-91 -/
def transparentInline [Env] (mode : Mode) : M (List Stream) TransparentD := fun inputs =>
  (runAccPush (γ := TransparentSt) {} (parseStruct fun path span =>
    if path = txt "flatten_named" then
      slotItem (·.flattenNamed) (fun st k => { k with flattenNamed := st }) (boolDict.named path span) path span
    else if path = txt "flatten_unnamed" then
      slotItem (·.flattenUnnamed) (fun st k => { k with flattenUnnamed := st }) (boolDict.named path span) path span
    else if path = txt "append" then
      slotItem (·.append) (fun st k => { k with append := st }) (boolDict.named path span) path span
    else if path = txt "rest" then
      slotItem (·.rest) (fun st k => { k with rest := st }) (boolDict.named path span) path span
    else unknownItem path span [txt "flatten_named", txt "flatten_unnamed", txt "append", txt "rest"])).map
    (fun k => ⟨mode.toFullSpan inputs, true, k.flattenNamed.intoOption, k.flattenUnnamed.intoOption,
      k.append.intoOption, k.rest.intoOption⟩) inputs

/-- macros/types/struct.rs:30-103 -/
def transparentDict [Env] : Dict TransparentD :=
  .mk' (parse := boolOrBraces (fun sp b => ⟨sp, b, none, none, none, none⟩) transparentInline)
    (inline := transparentInline) (flag := fun sp => .ok ⟨sp, true, none, none, none, none⟩)

/-- `ParseMetaItem for syn::Ident`, core/parse_meta.rs:1357-1362: text and span. -/
def identSpDict : Dict (Str × Span) :=
  .mk' (parse := fun _ s =>
    match s.toks with
    | .ident x sp :: rest => (.ok (x, sp), { s with toks := rest })
    | _ => (.err (s.error (.expected "ident".toList)), s))

/-! ## Names of a field or variant -/

/-- The variables `alias_span`, `idents` and `rename` of macros/types/field.rs:1065-1072 and
macros/types/variant.rs:510-513. -/
structure Names where
  aliasSpan : FieldStatus Span := .none
  idents : List (Str × Span) := []
  rename : FieldStatus Span := .none

/-- The ``what`` ("field" or "variant") cannot be renamed to its own name. -/
def ownNameText (verb what : Str) : Text := .custom (txt "cannot " ++ verb ++ [' '] ++ what ++ txt " to its own name")
def aliasGivenText (name : Str) : Text := .custom (txt "alias already given for `" ++ name ++ txt "`")
def duplicateAliasText (name : Str) : Text := .custom (txt "duplicate alias for `" ++ name ++ txt "`")

/-- macros/types/field.rs:1097-1125 and macros/types/variant.rs:572-596, with the effect of the closure on
`idents`; `own` is `field.ident` or `variant.ident`. -/
def renameItem (what : Str) (own : Option Str) (span : Span) : M (Acc Names × Stream) Unit := fun (acc, s) =>
  let n := acc.val
  let func : M Stream (Str × Span) := fun s =>
    match identSpDict.named (txt "rename") span s with
    | (.ok name, s') =>
      if own = some name.1 then (.err (.new span (ownNameText (txt "rename") what)), s')
      else if (n.idents.map (·.1)).contains name.1 then (.err (.new span (aliasGivenText name.1)), s')
      else (.ok name, s')
    | (.err e, s') => (.err e, s')
    | (.panic, s') => (.panic, s')
  let idents := match (func s).1 with
    | .ok name => name :: n.idents
    | _ => n.idents
  let (r, (st, errs, s')) :=
    (n.rename).parseNamedItemWith (func.map fun _ => span) (txt "rename") span acc.errs s
  (r, (⟨{ n with idents := idents, rename := st }, errs⟩, s'))

/-- macros/types/field.rs:1126-1151 and macros/types/variant.rs:597-617 -/
def aliasItem (what : Str) (own : Option Str) (span : Span) : M (Acc Names × Stream) Unit :=
  stepPush (identSpDict.named (txt "alias") span) fun acc alias_ _ _ =>
    let n := acc.val
    if own = some alias_.1 then ⟨n, acc.errs.push span (ownNameText (txt "alias") what)⟩
    else if (n.idents.map (·.1)).contains alias_.1 then ⟨n, acc.errs.push span (duplicateAliasText alias_.1)⟩
    else ⟨{ n with idents := n.idents ++ [alias_],
                   aliasSpan := if n.aliasSpan.isNone then .some span else n.aliasSpan }, acc.errs⟩

/-- Runs a computation on the names inside a larger state. -/
def onNames {κ : Type} (get : κ → Names) (put : Names → κ → κ) (m : M (Acc Names × Stream) Unit) :
    M (Acc κ × Stream) Unit := fun (acc, s) =>
  let (r, (acc', s')) := m (⟨get acc.val, acc.errs⟩, s)
  (r, (⟨put acc'.val acc.val, acc'.errs⟩, s'))

/-! ## Fields -/

/-- What the derive reads of a field: `field.ident` and `field.attrs`. -/
structure FieldIn where
  ident : Option (Str × Span)
  attrs : List Attr

/-- `Transform`, macros/types/field.rs:203-206. -/
inductive TransformD
  | map (f : List Tok)
  | andThen (f : List Tok)

/-- `Field`, macros/types/field.rs:208-219. -/
structure FieldDecl where
  ident : Option (Str × Span)
  idents : List (Str × Span)
  default : Option DefaultD
  with_ : Option (List Tok)
  flatten : Option FlattenD
  append : Option (Spanned Bool)
  rest : Option (Spanned Bool)
  container : Option ContainerD
  skip : Option (Spanned Bool)
  transforms : List TransformD

namespace FieldDecl
/-- `f.flatten.as_ref().map(|f| f.value).unwrap_or(false)` -/
def isFlatten (f : FieldDecl) : Bool := (f.flatten.map (·.value)).getD false
def isAppend (f : FieldDecl) : Bool := (f.append.map (·.value)).getD false
def isRest (f : FieldDecl) : Bool := (f.rest.map (·.value)).getD false
def isSkipped (f : FieldDecl) : Bool := (f.skip.map (·.value)).getD false
/-- macros/types/field.rs:252-256 -/
def isFlat (f : FieldDecl) : Bool := f.isFlatten || f.isAppend || f.isRest
/-- macros/types/field.rs:258-260 -/
def isContainer (f : FieldDecl) : Bool := (f.container.map (·.value)).getD false
/-- macros/types/field.rs:262-264 -/
def isParsable (f : FieldDecl) : Bool := !f.isContainer && !f.isSkipped
end FieldDecl

/-- The variables of macros/types/field.rs:1065-1075 besides `errors`. -/
structure FieldSt where
  names : Names := {}
  default : FieldStatus DefaultD := .none
  with_ : FieldStatus (List Tok) := .none
  flatten : FieldStatus FlattenD := .none
  append : FieldStatus (Spanned Bool) := .none
  rest : FieldStatus (Spanned Bool) := .none
  container : FieldStatus ContainerD := .none
  skip : FieldStatus (Spanned Bool) := .none
  transforms : List TransformD := []

/-- The match arms of macros/types/field.rs:1077-1179. -/
inductive FieldArm
  | flatten | append | rest | default | with_ | rename | alias | container | skip | map | andThen
  | other
  deriving DecidableEq

/-- The arm that a key selects. -/
def fieldArm (path : Str) : FieldArm :=
  if path = txt "flatten" then .flatten
  else if path = txt "append" then .append
  else if path = txt "rest" then .rest
  else if path = txt "default" then .default
  else if path = txt "with" then .with_
  else if path = txt "rename" then .rename
  else if path = txt "alias" then .alias
  else if path = txt "container" then .container
  else if path = txt "skip" then .skip
  else if path = txt "map" then .map
  else if path = txt "and_then" then .andThen
  else .other

/-- macros/types/field.rs:284-298 -/
def fieldAttrNames : List Str :=
  ["rename", "flatten", "append", "rest", "default", "alias", "with", "container", "skip", "map", "and_then"].map
    String.toList

def notOnTupleText (name : Str) (what : Str) : Text := .custom (['`'] ++ name ++ txt "` not allowed on tuple " ++ what)

/-- Closure of macros/types/field.rs:1076-1181.  A misplaced `rename` or `alias` is reported but its value
is not skipped; `skip` reports duplicates under the name of `container`. -/
def fieldStep [Env] (lib : SynLib) (f : FieldIn) (path : Str) (span : Span) : M (Acc FieldSt × Stream) Unit :=
  match fieldArm path with
  | .flatten =>
    slotItem (·.flatten) (fun st k => { k with flatten := st }) (flattenDict.named (txt "flatten") span)
      (txt "flatten") span
  | .append =>
    if f.ident.isNone then refuse (notOnTupleText (txt "append") (txt "struct field")) span
    else slotItem (·.append) (fun st k => { k with append := st })
      ((spannedDict boolDict).named (txt "append") span) (txt "append") span
  | .rest =>
    if f.ident.isNone then refuse (notOnTupleText (txt "rest") (txt "struct field")) span
    else slotItem (·.rest) (fun st k => { k with rest := st })
      ((spannedDict boolDict).named (txt "rest") span) (txt "rest") span
  | .default =>
    slotItem (·.default) (fun st k => { k with default := st }) (defaultDict.named (txt "default") span)
      (txt "default") span
  | .with_ =>
    slotItem (·.with_) (fun st k => { k with with_ := st }) ((synDict lib.path).named (txt "with") span)
      (txt "with") span
  | .rename =>
    if f.ident.isNone then report (notOnTupleText (txt "rename") (txt "struct field")) span
    else onNames (·.names) (fun n k => { k with names := n })
      (renameItem (txt "field") (f.ident.map (·.1)) span)
  | .alias =>
    if f.ident.isNone then report (notOnTupleText (txt "alias") (txt "struct field")) span
    else onNames (·.names) (fun n k => { k with names := n })
      (aliasItem (txt "field") (f.ident.map (·.1)) span)
  | .container =>
    slotItem (·.container) (fun st k => { k with container := st })
      ((containerDict lib).named (txt "container") span) (txt "container") span
  | .skip =>
    slotItem (·.skip) (fun st k => { k with skip := st })
      ((spannedDict boolDict).named (txt "container") span) (txt "container") span
  | .map =>
    pushItem (tokenStreamDict.named path span) fun k e => { k with transforms := k.transforms ++ [.map e] }
  | .andThen =>
    pushItem (tokenStreamDict.named path span) fun k e => { k with transforms := k.transforms ++ [.andThen e] }
  | .other => checkUnknownItem path span fieldAttrNames

/-- The `only_one!` checks of macros/types/field.rs:1182-1189. -/
def fieldChecks [Env] (k : FieldSt) (errs : Errors) : Errors :=
  let flatten := (txt "flatten", k.flatten.intoOption.map (·.span))
  let append := (txt "append", k.append.intoOption.map (·.span))
  let rest := (txt "rest", k.rest.intoOption.map (·.span))
  let container := (txt "container", k.container.intoOption.map (·.span))
  let rename := (txt "rename", k.names.rename.intoOption)
  let with_ := (txt "with", k.with_.intoOption.map toksSpan)
  let alias_ := (txt "alias", k.names.aliasSpan.intoOption)
  let default := (txt "default", k.default.intoOption.map (·.span))
  [[flatten, append, rest], [container, flatten], [container, rename], [container, with_], [container, alias_],
    [default, flatten], [flatten, rename], [flatten, alias_]].foldl (fun errs l => onlyOne l [] errs) errs

/-- macros/types/field.rs:1190-1207: the result after the checks; the own name comes first unless it is
replaced. -/
def fieldDone (f : FieldIn) (k : FieldSt) : FieldDecl where
  ident := f.ident
  idents :=
    if k.names.rename.isNone && !((k.flatten.map (·.value)).unwrapOr false) then
      match f.ident with
      | some (x, sp) => (unraw x, sp) :: k.names.idents
      | none => k.names.idents
    else k.names.idents
  default := k.default.intoOption
  with_ := k.with_.intoOption
  flatten := k.flatten.intoOption
  append := k.append.intoOption
  rest := k.rest.intoOption
  container := k.container.intoOption
  skip := k.skip.intoOption
  transforms := k.transforms

/-- `errors.push_result(parse_struct(inputs, step)); ..; errors.check()?; Ok(..)` with local variables and
errors that start as `init`; `fin` is the code in between. -/
def collectStruct [Env] {κ α : Type} (init : Acc κ) (step : Str → Span → M (Acc κ × Stream) Unit)
    (fin : Acc κ → Errors × α) : M (List Stream) α := fun inputs =>
  match parseStruct step (init, inputs) with
  | (.panic, (_, l)) => (.panic, l)
  | (.ok (), (acc, l)) => ((fin acc).1.intoResult (fin acc).2, l)
  | (.err e, (acc, l)) =>
    let acc := { acc with errs := acc.errs.pushSyn e }
    ((fin acc).1.intoResult (fin acc).2, l)

/-- Closure of macros/types/field.rs:1062-1208. -/
def fieldBody [Env] (lib : SynLib) (f : FieldIn) : M (List Stream) FieldDecl :=
  collectStruct ⟨{}, Errors.new⟩ (fieldStep lib f) fun acc => (fieldChecks acc.val acc.errs, fieldDone f acc.val)

/-- `Field::parse_attributes`, macros/types/field.rs:1059-1210 -/
def FieldIn.read [Env] (lib : SynLib) (f : FieldIn) : Res FieldDecl :=
  parseStructAttrTokens (refTokens isDeluxe f.attrs) fun _ => fieldBody lib f

/-- `fields.iter().filter_map(|f| errors.push_result(Field::parse_attributes(f))).collect()`,
macros/types/struct.rs:412-416: errors and fields. -/
def readFields [Env] (lib : SynLib) : List FieldIn → Errors → Res (Errors × List FieldDecl)
  | [], errs => .ok (errs, [])
  | f :: fs, errs =>
    match f.read lib with
    | .ok d => (readFields lib fs errs).map fun x => (x.1, d :: x.2)
    | .err e => readFields lib fs (errs.pushSyn e)
    | .panic => .panic

/-! ## Structures -/

/-- What the derive reads of a structure. -/
structure StructIn where
  shape : Shape
  fields : List FieldIn
  attrs : List Attr

/-- `Struct`, macros/types/struct.rs:105-114. -/
structure StructDecl where
  shape : Shape
  fields : List FieldDecl
  default : Option DefaultD
  crate : Option (List Tok)
  transparent : Option TransparentD
  allowUnknown : Option Bool
  attributes : List (List Tok)
  andThens : List (List Tok)

/-- The variables of macros/types/struct.rs:406-411. -/
structure StructSt where
  transparent : FieldStatus TransparentD := .none
  allowUnknown : FieldStatus Bool := .none
  default : FieldStatus DefaultD := .none
  crate : FieldStatus (List Tok) := .none
  andThens : List (List Tok) := []
  attributes : List (List Tok) := []

/-- macros/types/struct.rs:128-138 -/
def structAttrNames : List Str :=
  ["transparent", "default", "crate", "attributes", "and_then", "allow_unknown_fields"].map String.toList

/-- The condition of macros/types/struct.rs:426-446 and macros/types/variant.rs:531-551, with its message;
`what` is "struct" or "variant". -/
def transparentRefusal (what : Str) (fields : List FieldDecl) : Option Str :=
  match fields.filter (·.isParsable) with
  | [] => some (txt "`transparent` " ++ what ++ txt " must have only one parseable field")
  | first :: rest =>
    if first.isFlatten then some (txt "`transparent` " ++ what ++ txt " field cannot be `flat`")
    else if first.isAppend then some (txt "`transparent` " ++ what ++ txt " field cannot be `append`")
    else if rest.isEmpty then none
    else some (txt "`transparent` " ++ what ++ txt " must have only one parseable field")

/-- The closures of macros/types/struct.rs:425-447 and macros/types/variant.rs:530-552. -/
def transparentItem {α} (what : Str) (fields : List FieldDecl) (span : Span) (func : M Stream α) : M Stream α :=
  match transparentRefusal what fields with
  | some m => M.fail (.new span (.custom m))
  | none => func

/-- The match arms of macros/types/struct.rs:418-499. -/
inductive StructArm
  | transparent | allowUnknown | default | crate | andThen | attributes | other
  deriving DecidableEq

def structArm (path : Str) : StructArm :=
  if path = txt "transparent" then .transparent
  else if path = txt "allow_unknown_fields" then .allowUnknown
  else if path = txt "default" then .default
  else if path = txt "crate" then .crate
  else if path = txt "and_then" then .andThen
  else if path = txt "attributes" then .attributes
  else .other

/-- `mod_path_vec`, macros/types/struct.rs:389 -/
def modPathVec (lib : SynLib) : Dict (List (List Tok)) := withSeq (modPathDict lib.modPath)

/-- Closure of macros/types/struct.rs:417-501. -/
def structStep [Env] (lib : SynLib) (shape : Shape) (fields : List FieldDecl) (path : Str) (span : Span) :
    M (Acc StructSt × Stream) Unit :=
  match structArm path with
  | .transparent =>
    slotItem (·.transparent) (fun st k => { k with transparent := st })
      (transparentItem (txt "struct") fields span (transparentDict.named path span)) (txt "transparent") span
  | .allowUnknown =>
    if shape = .unnamed then refuse (notOnTupleText (txt "allow_unknown_fields") (txt "struct")) span
    else slotItem (·.allowUnknown) (fun st k => { k with allowUnknown := st })
      (boolDict.named (txt "allow_unknown_fields") span) (txt "allow_unknown_fields") span
  | .default =>
    if shape = .unit then refuse (.custom (txt "`default` not allowed on unit struct")) span
    else slotItem (·.default) (fun st k => { k with default := st }) (defaultDict.named (txt "default") span)
      (txt "default") span
  | .crate =>
    slotItem (·.crate) (fun st k => { k with crate := st }) ((synDict lib.path).named (txt "crate") span)
      (txt "crate") span
  | .andThen =>
    pushItem (tokenStreamDict.named path span) fun k e => { k with andThens := k.andThens ++ [e] }
  | .attributes =>
    pushItem ((modPathVec lib).named path span) fun k e => { k with attributes := k.attributes ++ e }
  | .other => checkUnknownItem path span structAttrNames

/-- macros/types/struct.rs:505-513 and macros/types/variant.rs:645-653: a skipped field gets a default. -/
def fillSkipped (f : FieldDecl) : FieldDecl :=
  match f.skip with
  | some sk => if sk.value && f.default.isNone then { f with default := some (.default sk.span) } else f
  | none => f

def duplicateNameText (what name : Str) : Text :=
  .custom (txt "duplicate " ++ what ++ txt " name for `" ++ name ++ txt "`")

/-- The loop over `idents` with the set `all_idents`, macros/types/struct.rs:520-529 and
macros/types/enum.rs:265-274. -/
def dupLoop (what : Str) : List (Str × Span) → List Str → Errors → List Str × Errors
  | [], all, errs => (all, errs)
  | (x, sp) :: xs, all, errs =>
    if all.contains x then dupLoop what xs all (errs.push sp (duplicateNameText what x))
    else dupLoop what xs (x :: all) errs

/-- macros/types/struct.rs:530-536 and macros/types/variant.rs:658-664 -/
def containerLoop (f : FieldDecl) (seen : Bool) (errs : Errors) : Bool × Errors :=
  match f.container with
  | some c =>
    if seen then (seen, errs.push c.span (.custom (txt "Duplicate `container` field"))) else (true, errs)
  | none => (seen, errs)

/-- macros/types/struct.rs:517-537 -/
def structLoops : List FieldDecl → List Str → Bool → Errors → Errors
  | [], _, _, errs => errs
  | f :: fs, all, seen, errs =>
    let (all', errs) := dupLoop (txt "field") f.idents all errs
    let (seen', errs) := containerLoop f seen errs
    structLoops fs all' seen' errs

/-- macros/types/variant.rs:656-665 -/
def variantLoops : List FieldDecl → Bool → Errors → Errors
  | [], _, errs => errs
  | f :: fs, seen, errs =>
    let (seen', errs) := containerLoop f seen errs
    variantLoops fs seen' errs

/-- macros/types/struct.rs:539-553 and macros/types/variant.rs:667-681, on the reversed fields -/
def gapLoop [Env] (what : Str) : List FieldDecl → Bool → Errors → Errors
  | [], _, errs => errs
  | f :: fs, gap, errs =>
    if f.isParsable && !f.isFlat then
      match f.default with
      | some d =>
        gapLoop what fs gap (if gap then
          errs.push d.span (.custom (txt "`default` fields can only be at the end of a tuple " ++ what)) else errs)
      | none => gapLoop what fs true errs
    else gapLoop what fs gap errs

/-- macros/types/struct.rs:502-554: the fields and errors after the loop over the attributes -/
def structDone [Env] (shape : Shape) (fields : List FieldDecl) (acc : Acc StructSt) : Errors × StructDecl :=
  let k := acc.val
  let fields := if k.default.isNone then fields.map fillSkipped else fields
  let errs := structLoops fields [] false acc.errs
  let errs := if shape = .unnamed then gapLoop (txt "struct") fields.reverse false errs else errs
  (errs, {
    shape := shape
    fields := fields
    default := k.default.intoOption
    crate := k.crate.intoOption
    transparent := k.transparent.intoOption
    allowUnknown := k.allowUnknown.intoOption
    attributes := k.attributes
    andThens := k.andThens })

/-- Closure of macros/types/struct.rs:400-567. -/
def structBody [Env] (lib : SynLib) (d : StructIn) : M (List Stream) StructDecl := fun inputs =>
  match readFields lib d.fields Errors.new with
  | .ok (errs, fields) =>
    collectStruct ⟨{}, errs⟩ (structStep lib d.shape fields) (structDone d.shape fields) inputs
  | .err e => (.err e, inputs)
  | .panic => (.panic, inputs)

/-- `Struct::parse_attributes`, macros/types/struct.rs:397-569 -/
def StructIn.read [Env] (lib : SynLib) (d : StructIn) : Res StructDecl :=
  parseStructAttrTokens (refTokens isDeluxe d.attrs) fun _ => structBody lib d

/-! ## Variants -/

/-- What the derive reads of a variant; `span` is that of the whole variant. -/
structure VariantIn where
  ident : Str × Span
  span : Span
  shape : Shape
  fields : List FieldIn
  attrs : List Attr

/-- `Variant`, macros/types/variant.rs:11-19. -/
structure VariantDecl where
  ident : Str × Span
  span : Span
  shape : Shape
  fields : List FieldDecl
  idents : List (Str × Span)
  flatten : Option Bool
  transparent : Option Bool
  skip : Option (Spanned Bool)
  allowUnknown : Option Bool

/-- The variables of macros/types/variant.rs:510-516. -/
structure VariantSt where
  names : Names := {}
  flatten : FieldStatus (Option (Spanned Bool)) := .none
  transparent : FieldStatus (Option (Spanned Bool)) := .none
  skip : FieldStatus (Spanned Bool) := .none
  allowUnknown : FieldStatus Bool := .none

/-- The match arms of macros/types/variant.rs:523-628. -/
inductive VariantArm
  | transparent | allowUnknown | flatten | rename | alias | skip | other
  deriving DecidableEq

def variantArm (path : Str) : VariantArm :=
  if path = txt "transparent" then .transparent
  else if path = txt "allow_unknown_fields" then .allowUnknown
  else if path = txt "flatten" then .flatten
  else if path = txt "rename" then .rename
  else if path = txt "alias" then .alias
  else if path = txt "skip" then .skip
  else .other

/-- macros/types/variant.rs:23-32 -/
def variantAttrNames : List Str :=
  ["skip", "rename", "flatten", "alias", "transparent", "allow_unknown_fields"].map String.toList

/-- Closure of macros/types/variant.rs:522-630. -/
def variantStep [Env] (v : VariantIn) (fields : List FieldDecl) (path : Str) (span : Span) :
    M (Acc VariantSt × Stream) Unit :=
  match variantArm path with
  | .transparent =>
    slotItem (·.transparent) (fun st k => { k with transparent := st })
      (transparentItem (txt "variant") fields span ((optionDict (spannedDict boolDict)).named path span))
      (txt "transparent") span
  | .allowUnknown =>
    if v.shape = .unnamed then refuse (notOnTupleText (txt "allow_unknown_fields") (txt "variant")) span
    else slotItem (·.allowUnknown) (fun st k => { k with allowUnknown := st })
      (boolDict.named (txt "allow_unknown_fields") span) (txt "allow_unknown_fields") span
  | .flatten =>
    slotItem (·.flatten) (fun st k => { k with flatten := st })
      ((optionDict (spannedDict boolDict)).named (txt "flatten") span) (txt "flatten") span
  | .rename =>
    onNames (·.names) (fun n k => { k with names := n }) (renameItem (txt "variant") (some v.ident.1) span)
  | .alias =>
    onNames (·.names) (fun n k => { k with names := n }) (aliasItem (txt "variant") (some v.ident.1) span)
  | .skip =>
    slotItem (·.skip) (fun st k => { k with skip := st }) ((spannedDict boolDict).named (txt "skip") span)
      (txt "skip") span
  | .other => checkUnknownItem path span variantAttrNames

/-- macros/types/variant.rs:631-682 -/
def variantDone [Env] (lib : SynLib) (v : VariantIn) (fields : List FieldDecl) (acc : Acc VariantSt) :
    Errors × VariantDecl :=
  let k := acc.val
  let transparent := k.transparent.flatten FieldStatus.ofOption
  let flatten := k.flatten.flatten FieldStatus.ofOption
  let flattenA := (txt "flatten", flatten.intoOption.map (·.span))
  let errs := onlyOne [flattenA, (txt "rename", k.names.rename.intoOption)] [] acc.errs
  let errs := onlyOne [flattenA, (txt "alias", k.names.aliasSpan.intoOption)] [] errs
  let idents :=
    if k.names.rename.isNone && !((flatten.map (·.value)).unwrapOr false) then
      (lib.snake (unraw v.ident.1), v.ident.2) :: k.names.idents
    else k.names.idents
  let fields := fields.map fillSkipped
  let errs := variantLoops fields false errs
  let errs := if v.shape = .unnamed then gapLoop (txt "variant") fields.reverse false errs else errs
  (errs, {
    ident := v.ident
    span := v.span
    shape := v.shape
    fields := fields
    idents := idents
    flatten := flatten.intoOption.map (·.value)
    transparent := transparent.intoOption.map (·.value)
    skip := k.skip.intoOption
    allowUnknown := k.allowUnknown.intoOption })

/-- `syn::Ident::new(&ident, variant.ident.span())` of macros/types/variant.rs:635-642 panics: the name of the variant
in snake case is no identifier. -/
def ownNamePanics (lib : SynLib) (v : VariantIn) (k : VariantSt) : Bool :=
  k.names.rename.isNone && !(((k.flatten.flatten FieldStatus.ofOption).map (·.value)).unwrapOr false) &&
    !lib.isIdent (lib.snake (unraw v.ident.1))

/-- Closure of macros/types/variant.rs:508-694.  The panic comes after the loop over the attributes and before
`errors.check()`. -/
def variantBody [Env] (lib : SynLib) (v : VariantIn) : M (List Stream) VariantDecl := fun inputs =>
  match readFields lib v.fields Errors.new with
  | .ok (errs, fields) =>
    let after := (parseStruct (variantStep v fields) (⟨{}, errs⟩, inputs)).2
    if ownNamePanics lib v after.1.val then (.panic, after.2)
    else collectStruct ⟨{}, errs⟩ (variantStep v fields) (variantDone lib v fields) inputs
  | .err e => (.err e, inputs)
  | .panic => (.panic, inputs)

/-- `Variant::parse_attributes`, macros/types/variant.rs:505-696 -/
def VariantIn.read [Env] (lib : SynLib) (v : VariantIn) : Res VariantDecl :=
  parseStructAttrTokens (refTokens isDeluxe v.attrs) fun _ => variantBody lib v

/-! ## Enums -/

/-- What the derive reads of an enum. -/
structure EnumIn where
  variants : List VariantIn
  attrs : List Attr

/-- `Enum`, macros/types/enum.rs:11-19. -/
structure EnumDecl where
  variants : List VariantDecl
  default : Option DefaultD
  crate : Option (List Tok)
  attributes : List (List Tok)
  andThens : List (List Tok)
  allowUnknown : Option Bool

/-- The variables of macros/types/enum.rs:184-188. -/
structure EnumDefSt where
  default : FieldStatus DefaultD := .none
  crate : FieldStatus (List Tok) := .none
  andThens : List (List Tok) := []
  attributes : List (List Tok) := []
  allowUnknown : FieldStatus Bool := .none

/-- The match arms of macros/types/enum.rs:190-223. -/
inductive EnumArm
  | default | crate | andThen | attributes | allowUnknown | other
  deriving DecidableEq

def enumArm (path : Str) : EnumArm :=
  if path = txt "default" then .default
  else if path = txt "crate" then .crate
  else if path = txt "and_then" then .andThen
  else if path = txt "attributes" then .attributes
  else if path = txt "allow_unknown_fields" then .allowUnknown
  else .other

/-- macros/types/enum.rs:22-25 -/
def enumAttrNames : List Str := ["default", "crate", "attributes", "and_then"].map String.toList

/-- Closure of macros/types/enum.rs:189-225. -/
def enumDefStep [Env] (lib : SynLib) (path : Str) (span : Span) : M (Acc EnumDefSt × Stream) Unit :=
  match enumArm path with
  | .default =>
    slotItem (·.default) (fun st k => { k with default := st }) (defaultDict.named (txt "default") span)
      (txt "default") span
  | .crate =>
    slotItem (·.crate) (fun st k => { k with crate := st }) ((synDict lib.path).named (txt "crate") span)
      (txt "crate") span
  | .andThen =>
    pushItem (tokenStreamDict.named path span) fun k e => { k with andThens := k.andThens ++ [e] }
  | .attributes =>
    pushItem ((modPathVec lib).named path span) fun k e => { k with attributes := k.attributes ++ e }
  | .allowUnknown =>
    slotItem (·.allowUnknown) (fun st k => { k with allowUnknown := st })
      (boolDict.named (txt "allow_unknown_fields") span) (txt "allow_unknown_fields") span
  | .other => checkUnknownItem path span enumAttrNames

/-- macros/types/enum.rs:226-234: errors and variants -/
def readVariants [Env] (lib : SynLib) : List VariantIn → Errors → Res (Errors × List VariantDecl)
  | [], errs => .ok (errs, [])
  | v :: vs, errs =>
    match v.read lib with
    | .ok d => (readVariants lib vs errs).map fun x => (x.1, d :: x.2)
    | .err e => readVariants lib vs (errs.pushSyn e)
    | .panic => .panic

namespace VariantDecl
def isFlatten (v : VariantDecl) : Bool := v.flatten.getD false
/-- macros/types/variant.rs:34-36 -/
def isSkipped (v : VariantDecl) : Bool := (v.skip.map (·.value)).getD false
/-- macros/types/variant.rs:37-54 -/
def fieldKey (v : VariantDecl) : VKey :=
  btSet (cmpList cmpStr) (v.fields.filterMap fun f =>
    let idents := btSet cmpStr
      (if f.default.isSome || f.isFlat || !f.isParsable then [] else f.idents.map (·.1))
    if idents.isEmpty then none else some idents)
/-- The first container of macros/types/enum.rs:239-243. -/
def container (v : VariantDecl) : Option ContainerD :=
  v.fields.findSome? fun f => f.container.bind fun c => if c.value then some c else none
end VariantDecl

/-- The part of the first loop of macros/types/enum.rs:239-259 about containers. -/
def enumContainers [Env] (c : Option ContainerD) (seen : Bool) (errs : Errors) : Bool × Errors :=
  match c with
  | some c =>
    if seen then
      let errs := match c.lifetime with
        | some l => errs.push (toksSpan l)
            (.custom (txt "only the first `container` field can contain a `lifetime` parameter"))
        | none => errs
      let errs := match c.ty with
        | some t => errs.push (toksSpan t)
            (.custom (txt "only the first `container` field can contain a `type` parameter"))
        | none => errs
      (true, errs)
    else (true, errs)
  | none => (seen, errs)

/-- Set of variant keys, `BTreeSet<BTreeSet<BTreeSet<String>>>`; only membership matters. -/
abbrev KeySet := List VKey

/-- First loop of macros/types/enum.rs:238-276. -/
def enumLoop1 [Env] : List VariantDecl → List Str → Bool → KeySet → Errors → KeySet × Errors
  | [], _, _, keys, errs => (keys, errs)
  | v :: vs, all, seen, keys, errs =>
    let (seen', errs) := enumContainers v.container seen errs
    if v.isFlatten then enumLoop1 vs all seen' keys errs
    else
      let (all', errs) := dupLoop (txt "variant") v.idents all errs
      enumLoop1 vs all' seen' ([btSet cmpStr (v.idents.map (·.1))] :: keys) errs

/-- Second loop of macros/types/enum.rs:277-297. -/
def enumLoop2 : List VariantDecl → KeySet → Errors → KeySet × Errors
  | [], keys, errs => (keys, errs)
  | v :: vs, keys, errs =>
    if v.isFlatten then
      if v.shape = .named then
        if keys.contains v.fieldKey then
          enumLoop2 vs keys (errs.push v.span (.custom (txt
            "additional flattened variants must have at least one unique non-flattened, non-default field")))
        else enumLoop2 vs (v.fieldKey :: keys) errs
      else enumLoop2 vs keys (errs.push v.span (.custom (txt
        "only enum variants with named fields can have `flatten`")))
    else enumLoop2 vs keys errs

/-- macros/types/enum.rs:235-304 -/
def enumDone [Env] (variants : List VariantDecl) (k : EnumDefSt) (errs : Errors) : Errors × EnumDecl :=
  let (keys, errs) := enumLoop1 variants [] false [] errs
  let (keys, errs) := enumLoop2 variants keys errs
  let errs := match k.default with
    | .some d =>
      if keys.contains [] then errs.push d.span (.custom (txt
        "`default` cannot be used when a flattened variant has no unique field"))
      else errs
    | _ => errs
  (errs, {
    variants := variants
    default := k.default.intoOption
    crate := k.crate.intoOption
    attributes := k.attributes
    andThens := k.andThens
    allowUnknown := k.allowUnknown.intoOption })

/-- Closure of macros/types/enum.rs:178-316. -/
def enumBody [Env] (lib : SynLib) (d : EnumIn) : M (List Stream) EnumDecl := fun inputs =>
  let run : Acc EnumDefSt → List Stream → Res EnumDecl × List Stream := fun acc l =>
    match readVariants lib d.variants acc.errs with
    | .ok (errs, vs) =>
      let (errs, decl) := enumDone vs acc.val errs
      (errs.intoResult decl, l)
    | .err e => (.err e, l)
    | .panic => (.panic, l)
  match parseStruct (enumDefStep lib) (⟨{}, Errors.new⟩, inputs) with
  | (.panic, (_, l)) => (.panic, l)
  | (.ok (), (acc, l)) => run acc l
  | (.err e, (acc, l)) => run { acc with errs := acc.errs.pushSyn e } l

/-- `Enum::parse_attributes`, macros/types/enum.rs:175-318 -/
def EnumIn.read [Env] (lib : SynLib) (d : EnumIn) : Res EnumDecl :=
  parseStructAttrTokens (refTokens isDeluxe d.attrs) fun _ => enumBody lib d

/-! ## What the declarations mean -/

/-- The meaning of the parts of a field that are Rust code: the implementations for its type or `with` module,
and the values of expressions. -/
structure FieldSem (V : Type) where
  default : DefaultD → V
  transform : TransformD → Transform V
  item : Dict V
  flatNamed : FlatNamed V
  flatUnnamed : FlatUnnamed V
  appendP : Append V
  restP : Rest V

/-- The definition used by the generated code. -/
def FieldDecl.toField {V : Type} (sem : FieldSem V) (f : FieldDecl) : Field V where
  ident := f.ident.map (·.1)
  idents := f.idents.map (·.1)
  default := f.default.map sem.default
  flatten := f.flatten.map fun x => ⟨x.value, x.pre.map fun p => keyString p.segs⟩
  append := f.append.map (·.value)
  rest := f.rest.map (·.value)
  container := f.container.map (·.value)
  skip := f.skip.map (·.value)
  transforms := f.transforms.map sem.transform
  item := sem.item
  flatNamed := sem.flatNamed
  flatUnnamed := sem.flatUnnamed
  appendP := sem.appendP
  restP := sem.restP

/-- The meaning of the expressions of a structure; `field` by position. -/
structure StructSem (V : Type) where
  field : Nat → FieldSem V
  default : DefaultD → List V
  andThen : List Tok → List V → Except SynErr (List V)

/-- The definition used by the code that the attribute derives generate. -/
def StructDecl.toDef {V : Type} (sem : StructSem V) (d : StructDecl) : StructDef V where
  shape := d.shape
  fields := d.fields.zipIdx.map fun x => x.1.toField (sem.field x.2)
  default := d.default.map sem.default
  transparent := d.transparent.map (·.value)
  allowUnknown := d.allowUnknown
  andThens := d.andThens.map sem.andThen

/-- macros/parse_meta_item.rs:40-46: in the `ParseMetaItem` derive a container field gets a default. -/
def fillContainer (f : FieldDecl) : FieldDecl :=
  match f.container with
  | some c => if c.value && f.default.isNone then { f with default := some (.default c.span) } else f
  | none => f

/-- The definition used by the code that the `ParseMetaItem` derive generates. -/
def StructDecl.toMetaDef {V : Type} (sem : StructSem V) (d : StructDecl) : StructDef V :=
  ({ d with fields := d.fields.map fillContainer } : StructDecl).toDef sem

/-- The meaning of the expressions of an enum; variants by position. -/
structure EnumSem (V : Type) where
  field : Nat → Nat → FieldSem V
  default : DefaultD → EnumVal V
  andThen : List Tok → EnumVal V → Except SynErr (EnumVal V)

/-- The definition of a variant used by the generated code. -/
def VariantDecl.toVariant {V : Type} (sem : Nat → FieldSem V) (v : VariantDecl) : Variant V where
  ident := v.ident.1
  shape := v.shape
  fields := v.fields.zipIdx.map fun x => x.1.toField (sem x.2)
  idents := v.idents.map (·.1)
  flatten := v.flatten
  transparent := v.transparent
  skip := v.skip.map (·.value)
  allowUnknown := v.allowUnknown

/-- The definition of an enum used by the generated code. -/
def EnumDecl.toDef {V : Type} (sem : EnumSem V) (e : EnumDecl) : EnumDef V where
  variants := e.variants.zipIdx.map fun x => x.1.toVariant (sem.field x.2)
  default := e.default.map sem.default
  allowUnknown := e.allowUnknown
  andThens := e.andThens.map sem.andThen

/-- macros/parse_meta_item.rs:232-244: the extra check of the `ParseMetaItem` derive for enums. -/
def EnumDecl.metaCheck (e : EnumDecl) (errs : Errors) : Errors :=
  e.variants.foldl (fun errs v => v.fields.foldl (fun errs f =>
    match f.container with
    | some c =>
      if f.isContainer && f.default.isNone then
        errs.push c.span (.custom (txt "derive(ParseMetaItem) requires container field to have `default`"))
      else errs
    | none => errs) errs) errs

end Deluxe
