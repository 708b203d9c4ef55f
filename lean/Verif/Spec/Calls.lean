import Verif.Model.Defs
/-!
# The functions that read a field, as documented

The documentation of the derives (macros/lib.rs:281-396) says where the code that reads a field comes from: from the
module given by `with`, or else from the trait for the role of the field, for the type of the field.  With `map` or
`and_then` it is the type that the first of the functions takes.  A field with `skip` is not read.
-/
namespace Deluxe

/-- The functions that generated code can call for a field. -/
inductive TraitFn
  /-- `ParseMetaItem` -/
  | parse | inline | flag | named | missing
  /-- `ParseMetaFlatNamed` -/
  | flatNamed | fieldNames | acceptsAll
  /-- `ParseMetaFlatUnnamed` -/
  | flatUnnamed | fieldCount
  /-- `ParseMetaAppend`, `ParseMetaRest` -/
  | append | rest
  /-- `Default`, `ContainerFrom` -/
  | default | container
  deriving DecidableEq

/-- Where a called function comes from: the type of the field, the type that the first of the functions of `map` and
`and_then` takes, or the module of `with`. -/
inductive CallSource
  | type | argument | module
  deriving DecidableEq

/-- A call of a function for the field with the index `field`. -/
structure Call where
  field : Nat
  src : CallSource
  fn : TraitFn
  deriving DecidableEq

/-- Where the functions that read a field come from, by the documentation. -/
def FieldDecl.source (f : FieldDecl) : CallSource :=
  match f.with_, f.transforms with
  | some _, _ => .module
  | none, _ :: _ => .argument
  | none, [] => .type

/-- The functions for the role of a field: `append` and `rest` have their own trait, `flatten` has one for named fields
and one for fields of tuples, and all others use `ParseMetaItem`. -/
def FieldDecl.Role (f : FieldDecl) : TraitFn → Prop
  | .append => f.isAppend = true
  | .rest => f.isRest = true
  | .flatNamed | .fieldNames | .acceptsAll => f.isFlatten = true ∧ f.ident.isSome = true
  | .flatUnnamed | .fieldCount => f.isFlatten = true ∧ f.ident = none
  | .named => f.isAppend = false ∧ f.isRest = false ∧ f.isFlatten = false ∧ f.ident.isSome = true
  | .parse => f.isAppend = false ∧ f.isRest = false ∧ f.isFlatten = false ∧ f.ident = none
  | .missing => f.isAppend = false ∧ f.isRest = false ∧ f.isFlatten = false
  | .inline | .flag | .default | .container => False

/-- The functions for the field of a transparent structure: those of `ParseMetaItem`, and those of the further traits
that are asked for. -/
def TransparentD.Role (t : TransparentD) : TraitFn → Prop
  | .parse | .inline | .flag => True
  | .flatNamed | .fieldNames | .acceptsAll => t.flattenNamed = some true
  | .flatUnnamed | .fieldCount => t.flattenUnnamed = some true
  | .append => t.append = some true
  | .rest => t.rest = some true
  | .named | .missing | .default | .container => False

/-- A call for a field is documented: it reads a field that is not skipped, from the right source, with a function for
its role; or it is `Default::default` for a field that asks for that, for the type before `map` and `and_then`; or it
makes a container.  `role` tells the functions for reading. -/
def Documented (role : TraitFn → Prop) (f : FieldDecl) (c : Call) : Prop :=
  (f.isParsable = true ∧ c.src = f.source ∧ role c.fn) ∨
  (c.fn = .default ∧ (c.src = if f.transforms.isEmpty then .type else .argument) ∧ ∃ sp, f.default = some (.default sp)) ∨
  (c.fn = .container ∧ f.isContainer = true)

end Deluxe
