import Verif.Model.Enum
/-!
# Objects with attributes, and the code generated by `#[derive(ParseAttributes)]` and
`#[derive(ExtractAttributes)]`

core/parse_attributes.rs, macros/parse_attributes.rs.
-/
namespace Deluxe

/-! ## `HasAttributes` -/

/-- `HasAttributes`, core/parse_attributes.rs:37-44.  A mutable reference to the attribute list is the
list and the object as a function of the list. -/
structure HasAttrs (O : Type) where
  attrs : O → List Attr
  attrsMut : O → Except SynErr (List Attr × (List Attr → O))

/-- A `syn` node of some kind: its attribute list and everything else. -/
structure Node (K R : Type) where
  kind : K
  attrs : List Attr
  rest : R
  span : Span

/-- Nodes with an `attrs` field, core/parse_attributes.rs:91-112 (used 114-117, 217-258, 290-293, 325-328,
382-398, 454-465, 497-503). -/
def HasAttrs.node {K R : Type} : HasAttrs (Node K R) where
  attrs n := n.attrs
  attrsMut n := .ok (n.attrs, fun l => { n with attrs := l })

/-- Enumerations of nodes: the kinds whose attributes `attrs` returns, and the message of `attrs_mut` for the
kinds that it does not support. -/
def HasAttrs.kinds {K R : Type} (reads : K → Bool) (writes : K → Option Str) : HasAttrs (Node K R) where
  attrs n := if reads n.kind then n.attrs else []
  attrsMut n :=
    match writes n.kind with
    | none => .ok (n.attrs, fun l => { n with attrs := l })
    | some msg => .error (.new n.span (.custom msg))

/-- core/parse_attributes.rs:46-58 (the span is that of the path; simplified: `Attribute::span` covers all of
it) -/
def HasAttrs.single : HasAttrs Attr where
  attrs a := [a]
  attrsMut a := .error (.new a.path.span (.custom
    "`HasAttributes::attrs_mut()` not supported on single `syn::Attribute`, try moving it into a `Vec<syn::Attribute>`".toList))

/-- core/parse_attributes.rs:60-78 -/
def HasAttrs.slice [Env] : HasAttrs (List Attr) where
  attrs l := l
  attrsMut l :=
    let span := (l.foldl (fun s a =>
      some ((s.bind fun s => Env.join a.path.span s).getD a.path.span)) none).getD callSite
    .error (.new span (.custom
      "`HasAttributes::attrs_mut()` not supported on immutable `[syn::Attribute]`, try using a `Vec<syn::Attribute>`".toList))

/-- core/parse_attributes.rs:80-89 -/
def HasAttrs.vec : HasAttrs (List Attr) where
  attrs l := l
  attrsMut l := .ok (l, id)

/-- The variants of `syn::Expr` (non-exhaustive: `unknown` is any other one). -/
inductive ExprKind
  | array_ | assign_ | async_ | await_ | binary_ | block_ | break_ | call_ | cast_ | closure_
  | const_ | continue_ | field_ | forLoop_ | group_ | if_ | index_ | infer_ | let_ | lit_ | loop_
  | macro_ | match_ | methodCall_ | paren_ | path_ | range_ | reference_ | repeat_ | return_
  | struct_ | try_ | tryBlock_ | tuple_ | unary_ | unsafe_ | while_ | yield_
  | verbatim | unknown

/-- core/parse_attributes.rs:122-164 -/
def ExprKind.reads : ExprKind → Bool
  | .array_ | .assign_ | .async_ | .await_ | .binary_ | .block_ | .break_ | .call_ | .cast_
  | .closure_ | .const_ | .continue_ | .field_ | .forLoop_ | .group_ | .if_ | .index_ | .infer_
  | .let_ | .lit_ | .loop_ | .macro_ | .match_ | .methodCall_ | .paren_ | .path_ | .range_
  | .reference_ | .repeat_ | .return_ | .struct_ | .try_ | .tryBlock_ | .tuple_ | .unary_
  | .unsafe_ | .while_ | .yield_ => true
  | _ => false

/-- core/parse_attributes.rs:166-214 -/
def ExprKind.writes : ExprKind → Option Str
  | .array_ | .assign_ | .async_ | .await_ | .binary_ | .block_ | .break_ | .call_ | .cast_
  | .closure_ | .const_ | .continue_ | .field_ | .forLoop_ | .group_ | .if_ | .index_ | .let_
  | .lit_ | .loop_ | .macro_ | .match_ | .methodCall_ | .paren_ | .path_ | .range_ | .reference_
  | .repeat_ | .return_ | .struct_ | .try_ | .tryBlock_ | .tuple_ | .unary_ | .unsafe_ | .while_
  | .yield_ => none
  | .verbatim => some "`HasAttributes::attrs_mut` not supported with `syn::Expr::Verbatim`".toList
  | _ => some "`HasAttributes::attrs_mut` encountered unknown `syn::Expr` variant".toList

/-- The variants of `syn::ForeignItem` (non-exhaustive: `unknown` is any other one). -/
inductive ForeignItemKind
  | fn_ | static_ | type_ | macro_
  | verbatim | unknown

/-- core/parse_attributes.rs:263-271 -/
def ForeignItemKind.reads : ForeignItemKind → Bool
  | .fn_ | .static_ | .type_ | .macro_ => true
  | _ => false

/-- core/parse_attributes.rs:272-287 -/
def ForeignItemKind.writes : ForeignItemKind → Option Str
  | .fn_ | .static_ | .type_ | .macro_ => none
  | .verbatim => some "`HasAttributes::attrs_mut` not supported with `syn::ForeignItem::Verbatim`".toList
  | _ => some "`HasAttributes::attrs_mut` encountered unknown `syn::ForeignItem` variant".toList

/-- The variants of `syn::ImplItem` (non-exhaustive: `unknown` is any other one). -/
inductive ImplItemKind
  | const_ | fn_ | type_ | macro_
  | verbatim | unknown

/-- core/parse_attributes.rs:298-306 -/
def ImplItemKind.reads : ImplItemKind → Bool
  | .const_ | .fn_ | .type_ | .macro_ => true
  | _ => false

/-- core/parse_attributes.rs:307-322 -/
def ImplItemKind.writes : ImplItemKind → Option Str
  | .const_ | .fn_ | .type_ | .macro_ => none
  | .verbatim => some "`HasAttributes::attrs_mut` not supported with `syn::ImplItem::Verbatim`".toList
  | _ => some "`HasAttributes::attrs_mut` encountered unknown `syn::ImplItem` variant".toList

/-- The variants of `syn::Item` (non-exhaustive: `unknown` is any other one). -/
inductive ItemKind
  | const_ | enum_ | externCrate_ | fn_ | foreignMod_ | impl_ | macro_ | mod_ | static_ | struct_
  | trait_ | traitAlias_ | type_ | union_ | use_
  | verbatim | unknown

/-- core/parse_attributes.rs:333-352 -/
def ItemKind.reads : ItemKind → Bool
  | .const_ | .enum_ | .externCrate_ | .fn_ | .foreignMod_ | .impl_ | .macro_ | .mod_ | .static_
  | .struct_ | .trait_ | .traitAlias_ | .type_ | .union_ | .use_ => true
  | _ => false

/-- core/parse_attributes.rs:353-379 -/
def ItemKind.writes : ItemKind → Option Str
  | .const_ | .enum_ | .externCrate_ | .fn_ | .foreignMod_ | .impl_ | .macro_ | .mod_ | .static_
  | .struct_ | .trait_ | .traitAlias_ | .type_ | .union_ | .use_ => none
  | .verbatim => some "`HasAttributes::attrs_mut` not supported with `syn::Item::Verbatim`".toList
  | _ => some "`HasAttributes::attrs_mut` encountered unknown `syn::Item` variant".toList

/-- The variants of `syn::Pat` (non-exhaustive: `unknown` is any other one). -/
inductive PatKind
  | const_ | ident_ | lit_ | macro_ | or_ | paren_ | path_ | range_ | reference_ | rest_ | slice_
  | struct_ | tuple_ | tupleStruct_ | type_ | wild_
  | verbatim | unknown

/-- core/parse_attributes.rs:403-423 -/
def PatKind.reads : PatKind → Bool
  | .const_ | .ident_ | .lit_ | .macro_ | .or_ | .paren_ | .path_ | .range_ | .reference_ | .rest_
  | .slice_ | .struct_ | .tuple_ | .tupleStruct_ | .type_ | .wild_ => true
  | _ => false

/-- core/parse_attributes.rs:424-451 -/
def PatKind.writes : PatKind → Option Str
  | .const_ | .ident_ | .lit_ | .macro_ | .or_ | .paren_ | .path_ | .range_ | .reference_ | .rest_
  | .slice_ | .struct_ | .tuple_ | .tupleStruct_ | .type_ | .wild_ => none
  | .verbatim => some "`HasAttributes::attrs_mut` not supported with `syn::Pat::Verbatim`".toList
  | _ => some "`HasAttributes::attrs_mut` encountered unknown `syn::Pat` variant".toList

/-- The variants of `syn::TraitItem` (non-exhaustive: `unknown` is any other one). -/
inductive TraitItemKind
  | const_ | fn_ | type_ | macro_
  | verbatim | unknown

/-- core/parse_attributes.rs:470-478 -/
def TraitItemKind.reads : TraitItemKind → Bool
  | .const_ | .fn_ | .type_ | .macro_ => true
  | _ => false

/-- core/parse_attributes.rs:479-494 -/
def TraitItemKind.writes : TraitItemKind → Option Str
  | .const_ | .fn_ | .type_ | .macro_ => none
  | .verbatim => some "`HasAttributes::attrs_mut` not supported with `syn::TraitItem::Verbatim`".toList
  | _ => some "`HasAttributes::attrs_mut` encountered unknown `syn::TraitItem` variant".toList
/-! ## The attribute derives -/

/-- What the derives know of a type: the declared `attributes` paths (their segments,
macros/parse_attributes.rs:302-312) and the code that reads the streams. -/
structure AttrTarget (V α : Type) where
  attributes : List (List Str)
  body : Site V → Mode → M (List Stream) α

namespace AttrTarget
variable {V α O : Type}

/-- The generated `path_matches`, macros/parse_attributes.rs:302-312, 345-348.  `pathMatches` is never
`none`. -/
def matches_ (t : AttrTarget V α) (p : APath) : Bool :=
  t.attributes.isEmpty || t.attributes.any fun segs => (pathMatches p segs).getD false

/-- The closure of macros/parse_attributes.rs:352-357; the path name falls back to the first declared
attribute (338-341). -/
def func (t : AttrTarget V α) (obj : V) (spans : List (Str × Span)) : M (List Stream) α :=
  let pathName := (firstPathName spans).or (t.attributes.head?.map keyString)
  t.body ⟨some obj, pathName⟩ (.named (firstSpan spans))

/-- `parse_attributes`, macros/parse_attributes.rs:349-359; `container` is `ContainerFrom::container_from`,
core/parse_attributes.rs:571-627. -/
def parseAttributes (t : AttrTarget V α) (h : HasAttrs O) (container : O → V) (o : O) : Res α :=
  parseStructAttrTokens (refTokens t.matches_ (h.attrs o)) (t.func (container o))

/-- `extract_attributes`, macros/parse_attributes.rs:349-359, with the object afterwards; `container` is
`ContainerFrom::container_from_mut`, of the object without the extracted attributes. -/
def extractAttributes (t : AttrTarget V α) (h : HasAttrs O) (container : O → V) (o : O) : Res α × O :=
  match h.attrsMut o with
  | .error e => (.err e, o)
  | .ok (attrs, put) =>
    let (tokens, remaining) := takeTokens t.matches_ attrs
    let o' := put remaining
    (parseStructAttrTokens tokens (t.func (container o')), o')
end AttrTarget

section
variable {V : Type} [Env]

/-- The field data of macros/types/struct.rs:160-175 in the attribute derives. -/
def StructDef.attrData (d : StructDef V) (site : Site V) : Fields V :=
  { d.data with obj := site.obj, attrName := site.attrName }

/-- `post` for the field of a transparent structure, macros/types/struct.rs:180-200, 240-244, with the
container field (macros/types/field.rs:510-522). -/
def StructDef.attrTransparentPost (d : StructDef V) (site : Site V) (k : Nat) (r : Res V) :
    Res (List V) :=
  match r with
  | .ok v =>
    let slots := List.zipWith (containerSet (d.attrData site)) d.fields (d.data.init.set k (.some v))
    let (slots, errs) := setPass d.fields slots Errors.new
    runAndThens d.andThens (finish d.data slots errs)
  | .err e => .err e
  | .panic => .panic

/-- The code for a structure, macros/parse_attributes.rs:49-87 with `inline` of macros/types/struct.rs:240-244
(transparent) and macros/types/field.rs:909-925, 962-999, 1018-1027. -/
def StructDef.attrBody (d : StructDef V) (site : Site V) (mode : Mode) : M (List Stream) (List V) :=
  if d.isTransparent then
    match d.fields.zipIdx.find? fun x => x.1.isParsable && !x.1.isFlat with
    | some (f, k) => (f.item.inline mode).mapRes (d.attrTransparentPost site k)
    | none => M.panic
  else
    match d.shape with
    | .named =>
      (namedFlat (d.attrData site) (Field.fieldNames d.fields) mode [] (!d.acceptsAll)).mapRes
        (runAndThens d.andThens)
    | .unnamed => (unnamedFlat (d.attrData site) mode 0).mapRes (runAndThens d.andThens)
    | .unit => fun l =>
      match eofAll l with
      | (.ok (), l') => (runAndThens d.andThens (.ok []), l')
      | (.err e, l') => (.err e, l')
      | (.panic, l') => (.panic, l')

/-- The code for an enum, macros/parse_attributes.rs:129-148. -/
def EnumDef.attrBody (e : EnumDef V) (site : Site V) (mode : Mode) : M (List Stream) (EnumVal V) :=
  enumFlat e site mode [] (!e.acceptsAll)

/-- A derived structure. -/
def StructDef.attrTarget (d : StructDef V) (attributes : List (List Str)) : AttrTarget V (List V) :=
  ⟨attributes, d.attrBody⟩

/-- A derived enum. -/
def EnumDef.attrTarget (e : EnumDef V) (attributes : List (List Str)) : AttrTarget V (EnumVal V) :=
  ⟨attributes, e.attrBody⟩

end

end Deluxe
