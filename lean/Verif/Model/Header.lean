import Verif.Model.Basic
/-!
# The head of the implementation that the attribute derives generate (macros/parse_attributes.rs:92-102, 150-162, 202-330)

Which object type an attribute derive is for, with which lifetime, parameters and bounds.  Types are modelled as far
as the macro looks at them.
-/
namespace Deluxe

mutual
/-- `syn::Type` as far as macros/parse_attributes.rs:209-256 distinguishes types. -/
inductive Ty
  /-- `Type::Path`: whether there is a `<T as ..>`, a leading `::`, the segments before the last one, its identifier,
  and its arguments in angle brackets if it has any -/
  | path (qself lead : Bool) (pre : List Str) (last : Str) (args : Option (List GArg))
  /-- `Type::Reference` with the name of its lifetime -/
  | ref (lifetime : Option Str) (elem : Ty)
  /-- any other type -/
  | other (toks : List Str)
/-- `syn::GenericArgument` -/
inductive GArg
  | lifetime (name : Str)
  | type (t : Ty)
  | other
end

/-- `syn::GenericParam` -/
inductive GParam
  | lifetime (name : Str)
  | type (name : Str)
  | const (name : Str)
  deriving DecidableEq

/-- `generics.type_params()` -/
def typeParams (ps : List GParam) : List Str :=
  ps.filterMap fun
    | .type n => some n
    | _ => none

/-- `generics.lifetimes()` -/
def lifetimeParams (ps : List GParam) : List Str :=
  ps.filterMap fun
    | .lifetime n => some n
    | _ => none

/-- The `container` attribute of a field (macros/types/field.rs:125-130) and the type of the field. -/
structure HeadField where
  ty : Ty
  /-- value, `lifetime` and `ty` of the attribute -/
  container : Option (Bool × Option Str × Option Ty)

/-- `container_field`, `container_lifetime` and `container_ty` of macros/parse_attributes.rs:92-102, 150-162: taken from
the first field that has the attribute.  The fields of an enum are those of its variants in order. -/
def containerOf (fields : List HeadField) : Option (Ty × Option Str × Option Ty) :=
  fields.findSome? fun f => f.container.map fun c => (f.ty, c.2.1, c.2.2)

/-- The type parameter of an `Option`, any other type itself, macros/parse_attributes.rs:212-223. -/
def stripOption (t : Ty) : Ty :=
  match t with
  | .path false _ _ last (some [.type u]) => if last = "Option".toList then u else t
  | t => t

/-- `container_lifetime`, `container_is_ref` and `ty` after macros/parse_attributes.rs:225-231. -/
def stripRef (lifetime : Option Str) (t : Ty) : Option Str × Bool × Ty :=
  match t with
  | .ref l u => (lifetime.or l, true, u)
  | t => (lifetime, false, t)

/-- The first argument of the last segment of a path, if it is a lifetime, macros/parse_attributes.rs:233-242. -/
def lifetimeArg (t : Ty) : Option Str :=
  match t with
  | .path _ _ _ _ (some (.lifetime l :: _)) => some l
  | _ => none

/-- `path.qself.is_none()` and `path.get_ident()`, macros/parse_attributes.rs:246-250. -/
def singleIdent (t : Ty) : Option Str :=
  match t with
  | .path false false [] x none => some x
  | _ => none

/-- The loops of macros/parse_attributes.rs:262-264 and 289-291: append `_` until the name is not taken.  The fuel
suffices, see `fresh_not_taken`. -/
def fresh (taken : List Str) : Nat → Str → Str
  | 0, name => name
  | n + 1, name => if taken.contains name then fresh taken n (name ++ ['_']) else name

/-- Enough for `fresh`. -/
def freshFuel (taken : List Str) : Nat := (taken.map List.length).sum + 1

/-- The bounds that are added to the where clause. -/
inductive HeadBound
  | clone (t : Ty)
  | hasAttributes (t : Ty)

/-- `parse_attributes::Mode`, macros/parse_attributes.rs:8-12. -/
inductive HeadMode
  | parse | extract
  deriving DecidableEq

/-- `impl<params> ParseAttributes<'lifetime, object> for Self where bounds`, or without the lifetime for
`ExtractAttributes` (macros/parse_attributes.rs:314-329). -/
structure Head where
  params : List GParam
  lifetime : Option Str
  object : Ty
  bounds : List HeadBound

/-- The path made of one identifier. -/
def Ty.ofIdent (x : Str) : Ty := .path false false [] x none

/-- macros/parse_attributes.rs:202-297 -/
def head (mode : HeadMode) (params : List GParam) (c : Option (Ty × Option Str × Option Ty)) : Head :=
  -- 205-256
  let (lifetime, isRef, isGeneric, object) :=
    match c with
    | some (ty, lifetime, given) =>
      let (lifetime, isRef, ty) := stripRef lifetime (stripOption ty)
      let lifetime := lifetime.or (lifetimeArg ty)
      match given with
      | some g => (lifetime, isRef, false, some g)
      | none => (lifetime, isRef, ((singleIdent ty).map fun x => (typeParams params).contains x).getD false, some ty)
    | none => (none, false, false, none)
  -- 257-268
  let (params, isGeneric, object) :=
    match object with
    | some t => (params, isGeneric, t)
    | none =>
      let x := fresh (typeParams params) (freshFuel (typeParams params)) ['T']
      (.type x :: params, true, Ty.ofIdent x)
  -- 270-276
  let bounds := if c.isSome && !isRef then [.clone object] else []
  -- 278-284
  let bounds := bounds ++ if isGeneric then [.hasAttributes object] else []
  -- 286-297
  if mode = .parse ∧ lifetime = none then
    let l := fresh (lifetimeParams params) (freshFuel (lifetimeParams params)) ['t']
    ⟨.lifetime l :: params, some l, object, bounds⟩
  else ⟨params, lifetime, object, bounds⟩

end Deluxe
