import Verif.Spec.Defs
/-!
# Specification vocabulary: mistakes in the attributes of a definition
-/
namespace Deluxe

/-- A keyed entry of a list: with a value that is read; with a key that does not exist there; or with a value that
cannot be read, with messages about it. -/
inductive Entry
  | fine (key : String)
  | unknown (key : Str) (sp : Span)
  | unread (key : String) (ms : List Msg)

namespace Entry
def isMistake : Entry → Bool
  | fine _ => false
  | unknown .. => true
  | unread .. => true

/-- The known key that it has. -/
def key? : Entry → Option String
  | fine key => some key
  | unknown .. => none
  | unread key _ => some key
end Entry

/-- `p` fails on the tokens `v` of a value, before the comma that ends it, and the given messages are among those
of the failure. -/
def Unreadable {α : Type} (p : M Stream α) (v rest : List Tok) (sc : Span) (ms : List Msg) : Prop :=
  ms ≠ [] ∧ ∀ u, ∃ e v', NoComma v' ∧ ms.Sublist e.toList ∧ p ⟨v ++ rest, sc, u⟩ = (.err e, ⟨v' ++ rest, sc, u⟩)

/-- The messages of a failure. -/
def Res.msgs {α : Type} : Res α → List Msg
  | .err e => e.toList
  | _ => []

/-- The value of a success. -/
def Res.value? {α : Type} : Res α → Option α
  | .ok x => some x
  | _ => none

/-- A reader of a value, its result forgotten. -/
def Reader := Span → M Stream Unit

/-- Reading a value of a type. -/
def ofDict {α : Type} (key : String) (d : Dict α) : String × Reader :=
  (key, fun sp => (d.named key.toList sp).map fun _ => ())

variable [Env]

/-- The messages about an entry; `names` are the keys among which one with a similar name is suggested. -/
def Entry.msgs (names : List String) : Entry → List Msg
  | fine _ => []
  | unknown key sp => (unknownError key sp (names.map String.toList)).toList
  | unread _ ms => ms

/-- The tokens are an entry of a list that takes the given keys. -/
inductive WrittenSeg (readers : List (String × Reader)) (v rest : List Tok) (sc : Span) : Entry → Prop
  | fine {key p sp vt} : (key, p) ∈ readers → KeyToks [key.toList] sp v vt → ReadsFully (p sp) vt rest sc () →
      WrittenSeg readers v rest sc (.fine key)
  | unknown {segs sp vt} : KeyToks segs sp v vt → (∀ key ∈ readers.map (·.1), keyString segs ≠ key.toList) →
      NoComma vt → WrittenSeg readers v rest sc (.unknown (keyString segs) sp)
  | unread {key p sp vt ms} : (key, p) ∈ readers → KeyToks [key.toList] sp v vt → Unreadable (p sp) vt rest sc ms →
      WrittenSeg readers v rest sc (.unread key ms)

/-- The attributes of fields, and how their values are read. -/
def fieldReaders (lib : SynLib) : List (String × Reader) :=
  [ofDict "rename" identSpDict, ofDict "flatten" flattenDict, ofDict "append" (spannedDict boolDict),
    ofDict "rest" (spannedDict boolDict), ofDict "default" defaultDict, ofDict "alias" identSpDict,
    ofDict "with" (synDict lib.path), ofDict "container" (containerDict lib), ofDict "skip" (spannedDict boolDict),
    ofDict "map" tokenStreamDict, ofDict "and_then" tokenStreamDict]

/-- The attributes of structures. -/
def structReaders (lib : SynLib) : List (String × Reader) :=
  [ofDict "transparent" transparentDict, ofDict "default" defaultDict, ofDict "crate" (synDict lib.path),
    ofDict "attributes" (withSeq (modPathDict lib.modPath)), ofDict "and_then" tokenStreamDict,
    ofDict "allow_unknown_fields" boolDict]

/-- The attributes of variants. -/
def variantReaders : List (String × Reader) :=
  [ofDict "skip" (spannedDict boolDict), ofDict "rename" identSpDict,
    ofDict "flatten" (optionDict (spannedDict boolDict)), ofDict "alias" identSpDict,
    ofDict "transparent" (optionDict (spannedDict boolDict)), ofDict "allow_unknown_fields" boolDict]

/-- The attributes of enums. -/
def enumReaders (lib : SynLib) : List (String × Reader) :=
  [ofDict "default" defaultDict, ofDict "crate" (synDict lib.path),
    ofDict "attributes" (withSeq (modPathDict lib.modPath)), ofDict "and_then" tokenStreamDict,
    ofDict "allow_unknown_fields" boolDict]

/-- The options of `flatten(..)`. -/
def flattenReaders : List (String × Reader) := [ofDict "prefix" anyPathDict]

/-- The options of `container(..)`. -/
def containerReaders (lib : SynLib) : List (String × Reader) :=
  [ofDict "lifetime" (synDict lib.lifetime), ofDict "ty" (synDict lib.ty)]

/-- The options of `transparent(..)` on structures. -/
def transparentReaders : List (String × Reader) :=
  [ofDict "flatten_named" boolDict, ofDict "flatten_unnamed" boolDict, ofDict "append" boolDict, ofDict "rest" boolDict]

/-- The attributes are allowed on a field: on a tuple field these are not. -/
def FitsField (f : FieldIn) (bs : List Entry) : Prop :=
  f.ident = none → ∀ b ∈ bs, ∀ key, b.key? = some key → key ∉ ["append", "rest", "rename", "alias"]

/-- The attributes are allowed on a structure. -/
structure FitsStruct (shape : Shape) (fields : List FieldDecl) (bs : List Entry) : Prop where
  tuple : shape = .unnamed → ∀ b ∈ bs, b.key? ≠ some "allow_unknown_fields"
  unit : shape = .unit → ∀ b ∈ bs, b.key? ≠ some "default"
  transparent : ∀ b ∈ bs, b.key? = some "transparent" → CanBeTransparent fields

/-- The attributes are allowed on a variant. -/
structure FitsVariant (v : VariantIn) (fields : List FieldDecl) (bs : List Entry) : Prop where
  tuple : v.shape = .unnamed → ∀ b ∈ bs, b.key? ≠ some "allow_unknown_fields"
  transparent : ∀ b ∈ bs, b.key? = some "transparent" → CanBeTransparent fields

end Deluxe
