import Verif.Spec.Struct
import Verif.Spec.Positional
/-!
# Specification vocabulary: the items of a derived tuple structure
-/
namespace Deluxe

variable {V : Type}

/-- How many fields before position `k` are parsed. -/
def rank (fields : List (Field V)) (k : Nat) : Nat := (fields.take k).countP (·.isParsable)

/-- `f`, at position `k`, is parsed from item number `j`: `j` parsed fields precede it. -/
def NthField (fields : List (Field V)) (j : Nat) (f : Field V) (k : Nat) : Prop :=
  fields[k]? = some f ∧ f.isParsable = true ∧ rank fields k = j

/-- The tokens `v` are item number `b.1`: they are read by the field of that number as `b.2`, or there is
no such field and they are any tokens without comma. -/
def TupleSeg (fields : List (Field V)) (v rest : List Tok) (sc : Span) (b : Nat × Except SynErr V) :
    Prop :=
  (∃ f k, NthField fields b.1 f k ∧ ReadsAs (f.item.parse .unnamed) v rest sc b.2) ∨
    (fields.countP (·.isParsable) ≤ b.1 ∧ NoComma v)

/-- What the item of the field `f` at position `k` reads as, if there is one. -/
def posGiven (fields : List (Field V)) (xs : List (Except SynErr V)) (f : Field V) (k : Nat) :
    Option (Except SynErr V) :=
  if f.isParsable then xs[rank fields k]? else none

/-- What the type of the field `f` at position `k` gives if the field is missing.  It is told the number
of the field, not counting containers. -/
def posMissing (d : Fields V) (index : Nat) (span : Span) (f : Field V) (k : Nat) : Res V :=
  f.item.missing (missingIndexName d (index + (d.fields.take k).countP (!·.isContainer))) span

/-- Where the value of a field of a tuple structure without flattened fields comes from; `xs` are the
items. -/
abbrev PosBase (d : Fields V) (index : Nat) (span : Span) (xs : List (Except SynErr V)) (f : Field V)
    (k : Nat) : Option V → Prop :=
  Source d f (posGiven d.fields xs f k) .panic (posMissing d index span f k)

/-- The field ends up with the value `v`. -/
abbrev PosHolds (d : Fields V) (index : Nat) (span : Span) (xs : List (Except SynErr V)) (f : Field V)
    (k : Nat) (v : V) : Prop :=
  Ends d f (posGiven d.fields xs f k) .panic (posMissing d index span f k) k v

/-- The messages of a field that is not given, has no default and cannot do without a value. -/
def posMissingMsgs (d : Fields V) (index : Nat) (span : Span) (xs : List (Except SynErr V)) (f : Field V)
    (k : Nat) : List Msg :=
  if f.isParsable = true ∧ xs.length ≤ rank d.fields k ∧ f.default = none ∧ d.target = none then
    match posMissing d index span f k with
    | .err e => e.toList
    | _ => []
  else []

end Deluxe
