import Verif.Model.Dict
/-!
# Entry points (src/lib.rs)
-/
namespace Deluxe

/-- src/lib.rs:658-665 (`parse`, 642-649, is the same on `proc_macro` tokens) -/
def topParse2 {α} (d : Dict α) (attr : List Tok) : Res α :=
  parse2 (single (d.inline (.named callSite))) attr

/-- The `match` of src/lib.rs:708-714, 728-734, 749-755, 771-777; a panic propagates. -/
def orDefault {α} (dflt : α) (r : Res α) (errors : Errors) : Res α × Errors :=
  match r with
  | .ok t => (.ok t, errors)
  | .err e => (.ok dflt, errors.pushSyn e)
  | .panic => (.panic, errors)

/-- src/lib.rs:724-735 (`parse_optional`, 704-715, likewise) -/
def parse2Optional {α} (d : Dict α) (dflt : α) (attr : List Tok) (errors : Errors) :
    Res α × Errors :=
  orDefault dflt (topParse2 d attr) errors

/-- A `ParseAttributes` implementation on an object `obj` with attributes, as the trait's method
core/parse_attributes.rs:16; used by `parse_attributes`, src/lib.rs:673-680. -/
abbrev ParseAttrs (obj α : Type) := obj → Res α

/-- An `ExtractAttributes` implementation, core/parse_attributes.rs:30: also changes the object. -/
abbrev ExtractAttrs (obj α : Type) := obj → Res α × obj

/-- src/lib.rs:744-756 -/
def parseAttributesOptional {obj α} (pa : ParseAttrs obj α) (dflt : α) (o : obj) (errors : Errors) :
    Res α × Errors :=
  orDefault dflt (pa o) errors

/-- src/lib.rs:766-778 -/
def extractAttributesOptional {obj α} (ea : ExtractAttrs obj α) (dflt : α) (o : obj)
    (errors : Errors) : (Res α × Errors) × obj :=
  let (r, o') := ea o
  (orDefault dflt r errors, o')

end Deluxe
