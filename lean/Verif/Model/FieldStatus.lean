import Verif.Model.Helpers
/-!
# `FieldStatus` (core/parse_helpers.rs:22-236)
-/
namespace Deluxe

/-- core/parse_helpers.rs:22-30 -/
inductive FieldStatus (α : Type)
  | none
  | parseError
  | some (a : α)

namespace FieldStatus
variable {α β : Type}
/-- core/parse_helpers.rs:44-50 -/
def and : FieldStatus α → FieldStatus β → FieldStatus β
  | .some _, b => b
  | .parseError, _ => .parseError
  | .none, _ => .none
/-- core/parse_helpers.rs:54-60 -/
def andThen : FieldStatus α → (α → FieldStatus β) → FieldStatus β
  | .some x, f => f x
  | .parseError, _ => .parseError
  | .none, _ => .none
/-- core/parse_helpers.rs:63-69 -/
def map : FieldStatus α → (α → β) → FieldStatus β
  | .some x, f => .some (f x)
  | .parseError, _ => .parseError
  | .none, _ => .none
/-- core/parse_helpers.rs:72-74 -/
def isNone : FieldStatus α → Bool
  | .none => true
  | _ => false
/-- core/parse_helpers.rs:77-79 -/
def isParseError : FieldStatus α → Bool
  | .parseError => true
  | _ => false
/-- core/parse_helpers.rs:82-84 -/
def isSome : FieldStatus α → Bool
  | .some _ => true
  | _ => false
/-- core/parse_helpers.rs:87-93 -/
def or : FieldStatus α → FieldStatus α → FieldStatus α
  | .some x, _ => .some x
  | .parseError, _ => .parseError
  | .none, b => b
/-- core/parse_helpers.rs:97-103 -/
def orElse : FieldStatus α → (Unit → FieldStatus α) → FieldStatus α
  | .some x, _ => .some x
  | .parseError, _ => .parseError
  | .none, f => f ()
/-- core/parse_helpers.rs:111-116 -/
def unwrap : FieldStatus α → Res α
  | .some x => .ok x
  | _ => .panic
/-- core/parse_helpers.rs:119-124 -/
def unwrapOr : FieldStatus α → α → α
  | .some x, _ => x
  | _, d => d
/-- core/parse_helpers.rs:127-132 -/
def unwrapOrElse : FieldStatus α → (Unit → α) → α
  | .some x, _ => x
  | _, f => f ()
/-- core/parse_helpers.rs:135-144, with the conversion `into` as a parameter -/
def flatten (into : α → FieldStatus β) : FieldStatus α → FieldStatus β
  | .some x => into x
  | .parseError => .parseError
  | .none => .none
/-- core/parse_helpers.rs:206-211, 221-226 -/
def intoOption : FieldStatus α → Option α
  | .some x => Option.some x
  | _ => Option.none
/-- core/parse_helpers.rs:228-236 -/
def ofOption : Option α → FieldStatus α
  | Option.some x => .some x
  | Option.none => .none

/-- core/parse_helpers.rs:155-181.  State: status, collected errors, stream.  `func` is the item
parser applied to name and span. -/
def parseNamedItemWith (func : M Stream α) (name : Str) (span : Span)
    (st : FieldStatus α) (errors : Errors) (s : Stream) :
    Res Unit × (FieldStatus α × Errors × Stream) :=
  let errors := if st.isNone then errors else errors.push span (.duplicateAttr name)
  match func s with
  | (.ok v, s') => (.ok (), ((if st.isNone then .some v else st), errors, s'))
  | (.err e, s') =>
    (.ok (), ((if st.isNone then .parseError else st), errors.pushSyn e, skipMetaItem s'))
  | (.panic, s') => (.panic, (st, errors, s'))

/-- core/parse_helpers.rs:192-203 -/
def parseUnnamedItemWith (func : M Stream α) (st : FieldStatus α) (errors : Errors) (s : Stream) :
    Res Unit × (FieldStatus α × Errors × Stream) :=
  match func s with
  | (.ok v, s') => (.ok (), (.some v, errors, s'))
  | (.err e, s') => (.ok (), (.parseError, errors.pushSyn e, skipMetaItem s'))
  | (.panic, s') => (.panic, (st, errors, s'))
end FieldStatus

end Deluxe
