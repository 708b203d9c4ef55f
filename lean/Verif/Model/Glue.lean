import Verif.Model.Defs
import Verif.Model.Header
/-!
# The derive macros from input to output (macros/lib.rs:33-43, 113-123, 400-408, macros/util.rs:5-36,
macros/parse_attributes.rs:33-200, macros/parse_meta_item.rs:18-350)

What a derive macro emits: implementations, made from the accepted definition or with `unreachable!()` as body, and
compile errors.
-/
namespace Deluxe

/-- `syn::DeriveInput::data`; the span is that of the keyword `union`. -/
inductive ItemIn
  | struct (d : StructIn)
  | enum (d : EnumIn)
  | union (token : Span)

/-- The three derive macros, macros/lib.rs:33, 113, 400. -/
inductive Derive
  | metaItem
  | attrs (mode : HeadMode)
  deriving DecidableEq

/-- `Struct` or `Enum`, as read. -/
inductive Decl
  | struct (d : StructDecl)
  | enum (d : EnumDecl)

/-- The outcome of `proc_macro_crate::crate_name("deluxe")`, which is not part of deluxe. -/
inductive FoundCrate
  | name (n : Str)
  | itself
  | error (t : Text)

/-- The traits of deluxe that are implemented. -/
inductive ImplTrait
  | item | flatNamed | flatUnnamed | rest | append | parseAttributes | extractAttributes
  deriving DecidableEq

/-- The implementations that a derive macro emits. -/
structure Generated where
  /-- the path of the crate -/
  crate : List Tok
  traits : List ImplTrait
  /-- the definition that the bodies are made from; without one every body is `unreachable!()` -/
  code : Option Decl

/-- The output of a derive macro: implementations, then `compile_error!` invocations. -/
structure DeriveOut where
  impls : Option Generated
  errors : List (List Msg)

/-- `crate_path`, macros/util.rs:10-27; without `errors` nothing is reported. -/
def cratePath (found : FoundCrate) (errs : Errors) (report : Bool) : Errors × Option (List Tok) :=
  let path := fun (n : Str) => [Tok.punct ':' true callSite, .punct ':' false callSite, .ident n callSite]
  match found with
  | .name n => (errs, some (path n))
  | .itself => (errs, some (path (txt "deluxe")))
  | .error t => (if report then errs.push callSite t else errs, none)

/-- `get_crate_path`, macros/util.rs:30-36; `given` is `none` if the attributes could not be read. -/
def getCratePath (found : FoundCrate) (given : Option (Option (List Tok))) (errs : Errors) : Errors × Option (List Tok) :=
  match given with
  | some (some p) => (errs, some p)
  | some none => cratePath found errs true
  | none => cratePath found errs false

/-- `errors.push_result(..)` on an outcome that may be a panic. -/
def pushRes {α : Type} (errs : Errors) (r : Res α) : Res (Errors × Option α) :=
  match r with
  | .ok a => .ok (errs, some a)
  | .err e => .ok (errs.pushSyn e, none)
  | .panic => .panic

/-- macros/types/struct.rs:118-127 -/
def StructDecl.isTransparent (d : StructDecl) : Bool :=
  d.transparent.any (·.value) && ((d.fields.filter fun f => f.isParsable && !f.isFlat).take 2).length == 1

/-- The traits that the derive of `ParseMetaItem` implements for a structure: macros/types/struct.rs:271-360 (those
of transparent ones) and macros/parse_meta_item.rs:85-90, 112-125, 126-201.  Without a definition they are made as for
one that is not transparent. -/
def structTraits (shape : Shape) (d : Option StructDecl) : List ImplTrait :=
  let transparent := d.any (·.isTransparent)
  let asked := fun (g : TransparentD → Option Bool) (t : ImplTrait) =>
    if transparent && (((d.bind (·.transparent)).bind g).getD false) then [t] else []
  .item :: (asked (·.flattenNamed) .flatNamed ++ asked (·.flattenUnnamed) .flatUnnamed ++ asked (·.rest) .rest ++
    asked (·.append) .append ++
    if transparent then []
    else match shape with
      | .named => [.flatNamed, .flatUnnamed]
      | .unnamed => [.flatUnnamed]
      | .unit => [])

/-- The trait of an attribute derive, macros/parse_attributes.rs:322-329. -/
def HeadMode.trait : HeadMode → ImplTrait
  | .parse => .parseAttributes
  | .extract => .extractAttributes

/-- `impl_for_struct` of both derives, macros/parse_meta_item.rs:18-215 and macros/parse_attributes.rs:33-112. -/
def implStruct [Env] (lib : SynLib) (found : FoundCrate) (which : Derive) (d : StructIn) (errs : Errors) :
    Res (Errors × Option Generated) :=
  match pushRes errs (d.read lib) with
  | .ok (errs, attr) =>
    let (errs, crate) := getCratePath found (attr.map (·.crate)) errs
    .ok (errs, crate.map fun c =>
      ⟨c, match which with
          | .metaItem => structTraits d.shape attr
          | .attrs m => [m.trait],
        attr.map .struct⟩)
  | .err e => .err e
  | .panic => .panic

/-- `unwrap()` in macros/types/variant.rs:75-83 panics while the code for the variant is generated: it is transparent,
and has no field for that.  Skipped variants have no code, macros/types/variant.rs:266-268, 303-304. -/
def VariantDecl.genPanics (v : VariantDecl) : Bool :=
  !((v.skip.map (·.value)).getD false) && v.transparent.getD false && !(v.fields.any fun f => f.isParsable && !f.isFlat)

/-- `impl_for_enum` of both derives, macros/parse_meta_item.rs:217-324 and macros/parse_attributes.rs:114-172. -/
def implEnum [Env] (lib : SynLib) (found : FoundCrate) (which : Derive) (d : EnumIn) (errs : Errors) :
    Res (Errors × Option Generated) :=
  match pushRes errs (d.read lib) with
  | .ok (errs, attr) =>
    let (errs, crate) := getCratePath found (attr.map (·.crate)) errs
    match crate with
    | none => .ok (errs, none)
    | some c =>
      let errs := match which, attr with
        | .metaItem, some e => e.metaCheck errs
        | _, _ => errs
      if attr.any fun e => e.variants.any (·.genPanics) then .panic
      else .ok (errs, some
        ⟨c, match which with
            | .metaItem => [.item, .flatNamed, .flatUnnamed]
            | .attrs m => [m.trait],
          attr.map .enum⟩)
  | .err e => .err e
  | .panic => .panic

/-- The messages of macros/parse_meta_item.rs:333 and macros/parse_attributes.rs:182-183. -/
def unionText : Derive → Text
  | .metaItem => .custom (txt "union not supported with derive(ParseMetaItem)")
  | .attrs .parse => .custom (txt "union not supported with derive(ParseAttributes)")
  | .attrs .extract => .custom (txt "union not supported with derive(ExtractAttributes)")

/-- `impl_parse_meta_item` and `impl_parse_attributes` up to the final quotation, macros/parse_meta_item.rs:326-349
and macros/parse_attributes.rs:174-201. -/
def implItem [Env] (lib : SynLib) (found : FoundCrate) (which : Derive) (item : ItemIn) (errs : Errors) :
    Res (Errors × Option Generated) :=
  match item with
  | .struct d => implStruct lib found which d errs
  | .enum d => implEnum lib found which d errs
  | .union sp => .ok (errs.push sp (unionText which), none)

/-- A derive macro, macros/lib.rs:33-43, 113-123, 400-408 and macros/util.rs:5-8.  `parsed` is the outcome of syn's
parser for the item. -/
def deriveMacro [Env] (lib : SynLib) (found : FoundCrate) (which : Derive) (parsed : Except SynErr ItemIn) : Res DeriveOut :=
  match Errors.new.pushResult parsed with
  | (errs, none) => .ok ⟨none, errs.intoCompileErrors⟩
  | (errs, some item) =>
    match implItem lib found which item errs with
    | .ok (errs, impls) => .ok ⟨impls, errs.intoCompileErrors⟩
    | .err e => .err e
    | .panic => .panic

end Deluxe
