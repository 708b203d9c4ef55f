import Verif.Spec.Calls
import Verif.Model.Header
import Verif.Model.Glue
/-!
# The items of the generated implementations (macros/parse_meta_item.rs:18-398, macros/types/struct.rs:252-365,
macros/types/field.rs:844-1050)

The implementations that the derive of `ParseMetaItem` emits, reduced to the functions and constants in them, with the
generic parameters of each function.  The bodies are in the other files.
-/
namespace Deluxe

/-- A function or constant in an implementation, with the generic parameters that it declares itself. -/
structure FnDecl where
  fn : TraitFn
  generics : List GParam

/-- One `impl` block.  Its own generic parameters are those of the item, `input.generics.split_for_impl()`. -/
structure ImplDecl where
  trait : ImplTrait
  items : List FnDecl

/-- `<'____s, ____S>`, macros/parse_meta_item.rs:143, 163, 187, 289, 309, 357 -/
def markedGenerics : List GParam := [.lifetime (txt "____s"), .type (txt "____S")]

/-- `<'s, S: ..>`, macros/types/struct.rs:285, 309, 328 -/
def plainGenerics : List GParam := [.lifetime (txt "s"), .type (txt "S")]

/-- `<'s, S, I, P>`, macros/types/struct.rs:346 -/
def appendGenerics : List GParam := plainGenerics ++ [.type (txt "I"), .type (txt "P")]

/-- `impl ParseMetaItem`, macros/parse_meta_item.rs:350-398: with `parse_meta_item_flag` if `flag` is not `None`, and
with `missing_meta_item` if there is a default. -/
def itemImpl (flag missing : Bool) : ImplDecl :=
  ⟨.item, [⟨.parse, []⟩, ⟨.inline, markedGenerics⟩] ++ (if flag then [⟨.flag, []⟩] else []) ++
    (if missing then [⟨.missing, []⟩] else [])⟩

/-- `impl ParseMetaFlatNamed` of a structure or an enum, macros/parse_meta_item.rs:134-155, 281-302: with `ACCEPTS_ALL`
if there is something to say. -/
def flatNamedImpl (acceptsAll : Bool) : ImplDecl :=
  ⟨.flatNamed, (if acceptsAll then [⟨.acceptsAll, []⟩] else []) ++ [⟨.fieldNames, []⟩, ⟨.flatNamed, markedGenerics⟩]⟩

/-- `impl ParseMetaFlatUnnamed` of a structure or an enum, macros/parse_meta_item.rs:157-174, 180-199, 303-321 -/
def flatUnnamedImpl : ImplDecl := ⟨.flatUnnamed, [⟨.fieldCount, []⟩, ⟨.flatUnnamed, markedGenerics⟩]⟩

/-- `extra_traits` of a transparent structure, macros/types/struct.rs:252-358 -/
def TransparentD.impls (t : TransparentD) : List ImplDecl :=
  (if t.flattenNamed.getD false then
    [⟨.flatNamed, [⟨.acceptsAll, []⟩, ⟨.fieldNames, []⟩, ⟨.flatNamed, plainGenerics⟩]⟩] else []) ++
  (if t.flattenUnnamed.getD false then [⟨.flatUnnamed, [⟨.fieldCount, []⟩, ⟨.flatUnnamed, plainGenerics⟩]⟩] else []) ++
  (if t.rest.getD false then [⟨.rest, [⟨.rest, plainGenerics⟩]⟩] else []) ++
  (if t.append.getD false then [⟨.append, [⟨.append, appendGenerics⟩]⟩] else [])

/-- Whether `Struct::to_accepts_all_tokens` is not `None`, macros/types/struct.rs:139-145, macros/types/field.rs:299-314 -/
def StructDecl.saysAcceptsAll (d : StructDecl) : Bool :=
  d.allowUnknown.getD false || d.fields.any (·.isRest) || d.fields.any (·.isFlatten)

/-- `flag.is_some()` of macros/types/field.rs:1000-1043: in tuple structures only if every field can be left out -/
def StructDecl.hasFlag (d : StructDecl) : Bool :=
  d.isTransparent || d.shape != .unnamed || d.default.isSome ||
    ((d.fields.map fillContainer).filter (·.isParsable)).all fun f => f.isFlat || f.default.isSome

/-- The further implementations for a structure that is not transparent, macros/parse_meta_item.rs:128-201 -/
def kindImpls (shape : Shape) (acceptsAll : Bool) : List ImplDecl :=
  match shape with
  | .named => [flatNamedImpl acceptsAll, flatUnnamedImpl]
  | .unnamed => [flatUnnamedImpl]
  | .unit => []

/-- The implementations for a structure, macros/parse_meta_item.rs:18-215, 350-398.  Without a definition every body is
`unreachable!()`, 111-126. -/
def structImpls (shape : Shape) (d : Option StructDecl) : List ImplDecl :=
  match d with
  | none => itemImpl true false :: kindImpls shape false
  | some d => itemImpl d.hasFlag d.default.isSome ::
      if d.isTransparent then (d.transparent.map TransparentD.impls).getD [] else kindImpls shape d.saysAcceptsAll

/-- The implementations for an enum, macros/parse_meta_item.rs:217-324, 350-398 -/
def enumImpls (d : Option EnumDecl) : List ImplDecl :=
  [itemImpl true (d.any (·.default.isSome)), flatNamedImpl false, flatUnnamedImpl]

/-- The implementations that the derive of `ParseMetaItem` emits, macros/parse_meta_item.rs:326-398; `code` is what was
read from the attributes. -/
def metaImpls (item : ItemIn) (code : Option Decl) : List ImplDecl :=
  match item with
  | .struct s => structImpls s.shape (code.bind fun | .struct d => some d | .enum _ => none)
  | .enum _ => enumImpls (code.bind fun | .enum d => some d | .struct _ => none)
  | .union _ => []

end Deluxe
