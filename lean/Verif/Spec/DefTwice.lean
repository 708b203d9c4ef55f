import Verif.Spec.DefBad
/-!
# Specification vocabulary: attributes that are given more than once
-/
namespace Deluxe
variable [Env]

/-- The tokens are an entry of a list that takes the given keys, and the key is at the given place. -/
inductive PlacedSeg (readers : List (String × Reader)) (v rest : List Tok) (sc : Span) : Entry × Span → Prop
  | fine {key p sp vt} : (key, p) ∈ readers → KeyToks [key.toList] sp v vt → ReadsFully (p sp) vt rest sc () →
      PlacedSeg readers v rest sc (.fine key, sp)
  | unknown {segs sp vt} : KeyToks segs sp v vt → (∀ key ∈ readers.map (·.1), keyString segs ≠ key.toList) →
      NoComma vt → PlacedSeg readers v rest sc (.unknown (keyString segs) sp, sp)
  | unread {key p sp vt ms} : (key, p) ∈ readers → KeyToks [key.toList] sp v vt → Unreadable (p sp) vt rest sc ms →
      PlacedSeg readers v rest sc (.unread key ms, sp)

/-- The message about a key that may be given only once, after the keys `seen`. -/
def repeatMsg (once seen : List String) (key : Option String) (sp : Span) : List Msg :=
  match key with
  | none => []
  | some key => if key ∈ once ∧ key ∈ seen then [⟨sp, .duplicateAttr key.toList⟩] else []

/-- The messages about the entries of a list in which the keys `once` may be given once: where a key is given
again, that it is a duplicate; then those about the entry itself. -/
def entryMsgs (names once : List String) : List String → List (Entry × Span) → List Msg
  | _, [] => []
  | seen, (b, sp) :: bs => repeatMsg once seen b.key? sp ++ b.msgs names ++ entryMsgs names once (b.key?.toList ++ seen) bs

/-- Some key of `once` is given again at the given place. -/
def GivenAgain (once : List String) (bs : List (Entry × Span)) (key : String) (sp : Span) : Prop :=
  key ∈ once ∧ ∃ l1 b1 sp1 l2 b2 l3, bs = l1 ++ (b1, sp1) :: (l2 ++ (b2, sp) :: l3) ∧
    b1.key? = some key ∧ b2.key? = some key

/-- The attributes of fields that may be given once. -/
def fieldOnce : List String := ["rename", "flatten", "append", "rest", "default", "with", "container"]
/-- The attributes of structures that may be given once. -/
def structOnce : List String := ["transparent", "default", "crate", "allow_unknown_fields"]
/-- The attributes of variants that may be given once. -/
def variantOnce : List String := ["skip", "rename", "flatten", "transparent", "allow_unknown_fields"]
/-- The attributes of enums that may be given once. -/
def enumOnce : List String := ["default", "crate", "allow_unknown_fields"]

end Deluxe
