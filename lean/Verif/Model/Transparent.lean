import Verif.Model.Attributes
/-!
# The further traits of transparent structures (macros/types/struct.rs:246-365)

`#[deluxe(transparent(flatten_named, flatten_unnamed, append, rest))]` asks for implementations of
`ParseMetaFlatNamed`, `ParseMetaFlatUnnamed`, `ParseMetaAppend` and `ParseMetaRest` that call those of the only
field.  `none` stands for a trait that is not implemented.
-/
namespace Deluxe

/-- The options of `StructTransparent`, macros/types/struct.rs:14-21. -/
structure TransparentOpts where
  flattenNamed : Option Bool
  flattenUnnamed : Option Bool
  append : Option Bool
  rest : Option Bool

section
variable {V : Type} [Env]

/-- The field of a transparent structure and its position, macros/types/struct.rs:207-219. -/
def StructDef.transparentField (d : StructDef V) : Option (Field V × Nat) :=
  d.fields.zipIdx.find? fun x => x.1.isParsable && !x.1.isFlat

/-- `ParseMetaFlatNamed` of a structure: of a transparent one macros/types/struct.rs:273-297, of another named one
macros/parse_meta_item.rs:136-155. -/
def StructDef.implFlatNamed (d : StructDef V) (o : TransparentOpts) : Option (FlatNamed (List V)) :=
  if d.isTransparent then
    if o.flattenNamed.getD false then
      d.transparentField.map fun (f, k) =>
        { acceptsAll := f.flatNamed.acceptsAll
          fieldNames := f.flatNamed.fieldNames
          parse := fun mode pre validate => (f.flatNamed.parse mode pre validate).mapRes (transparentPost d k) }
    else none
  else
    match d.shape with
    | .named => some d.flatNamed
    | _ => none

/-- `ParseMetaFlatUnnamed` of a structure: of a transparent one macros/types/struct.rs:298-320, of another one
macros/parse_meta_item.rs:157-173, 178-198.  In a transparent tuple structure `pre` ends with `let index = 0usize`
(struct.rs:229-233), which hides the parameter `index`. -/
def StructDef.implFlatUnnamed (d : StructDef V) (o : TransparentOpts) : Option (FlatUnnamed (List V)) :=
  if d.isTransparent then
    if o.flattenUnnamed.getD false then
      d.transparentField.map fun (f, k) =>
        { fieldCount := f.flatUnnamed.fieldCount
          parse := fun mode index =>
            (f.flatUnnamed.parse mode (if d.shape = .unnamed then 0 else index)).mapRes (transparentPost d k) }
    else none
  else
    match d.shape with
    | .unit => none
    | _ => some d.flatUnnamed

/-- `ParseMetaRest` of a structure, macros/types/struct.rs:321-338. -/
def StructDef.implRest (d : StructDef V) (o : TransparentOpts) : Option (Rest (List V)) :=
  if d.isTransparent && o.rest.getD false then
    d.transparentField.map fun (f, k) => fun exclude => (f.restP exclude).mapRes (transparentPost d k)
  else none

/-- `ParseMetaAppend` of a structure, macros/types/struct.rs:339-359. -/
def StructDef.implAppend (d : StructDef V) (o : TransparentOpts) : Option (Append (List V)) :=
  if d.isTransparent && o.append.getD false then
    d.transparentField.map fun (f, k) => fun paths => (f.appendP paths).mapRes (transparentPost d k)
  else none

end
end Deluxe
