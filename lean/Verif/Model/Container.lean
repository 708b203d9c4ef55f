import Verif.Model.Attributes
/-!
# What a container field is filled with

core/parse_attributes.rs:505-627.  Simplified: a clone of an object is the object.
-/
namespace Deluxe

/-- The types of container fields with an implementation of `ContainerFrom<'t, T>`,
core/parse_attributes.rs:571-627: `T`, `Option<T>`, `&'t T`, `Option<&'t T>`, `&'t mut T`, `Option<&'t mut T>`. -/
inductive ContainerTy
  | owned | option | ref | optionRef | mut | optionMut
  deriving DecidableEq

/-- A value of such a type: a (reference to the) object, or `Some` of it.  `unimplemented` is no value: it marks a
call that ends in `unimplemented!()` (core/parse_attributes.rs:553-568). -/
inductive Held (O : Type)
  | it (o : O)
  | some (o : O)
  | unimplemented

/-- `ContainerFrom::container_from`, core/parse_attributes.rs:571-627, used by the `ParseAttributes` derive
(macros/types/field.rs:514). -/
def containerFrom {O : Type} : ContainerTy → O → Held O
  | .owned, o => .it o
  | .option, o => .some o
  | .ref, o => .it o
  | .optionRef, o => .some o
  | .mut, _ => .unimplemented
  | .optionMut, _ => .unimplemented

/-- `ContainerFrom::container_from_mut`, core/parse_attributes.rs:571-627, used by the `ExtractAttributes` derive
(macros/types/field.rs:515). -/
def containerFromMut {O : Type} : ContainerTy → O → Held O
  | .owned, o => .it o
  | .option, o => .some o
  | .ref, o => .it o
  | .optionRef, o => .some o
  | .mut, o => .it o
  | .optionMut, o => .some o

end Deluxe
