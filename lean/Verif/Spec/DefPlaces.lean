import Verif.Spec.DefBad
/-!
# Specification vocabulary: attributes of a definition at a place where they are not allowed
-/
namespace Deluxe

/-- An entry of a list: one with a key that is allowed there or does not exist, or one that is not allowed, with the
text that is said about it and the place of its key. -/
inductive Placed
  | entry (b : Entry)
  | misplaced (text : String) (sp : Span)

/-- `texts key text`: the attribute is not allowed, for the reason in the text. -/
abbrev NotAllowed := String → String → Prop

/-- What is not allowed on a field. -/
inductive NotOnField (f : FieldIn) : NotAllowed
  | append : f.ident = none → NotOnField f "append" "`append` not allowed on tuple struct field"
  | rest : f.ident = none → NotOnField f "rest" "`rest` not allowed on tuple struct field"

/-- Why an item with these fields cannot be transparent. -/
inductive NotTransparent (what : String) (fields : List FieldDecl) : String → Prop
  | nothing : (∀ f ∈ fields, f.isParsable = false) →
      NotTransparent what fields ("`transparent` " ++ what ++ " must have only one parseable field")
  | flatten {f fs} : fields.filter (·.isParsable) = f :: fs → f.isFlatten = true →
      NotTransparent what fields ("`transparent` " ++ what ++ " field cannot be `flat`")
  | append {f fs} : fields.filter (·.isParsable) = f :: fs → f.isFlatten = false → f.isAppend = true →
      NotTransparent what fields ("`transparent` " ++ what ++ " field cannot be `append`")
  | several {f g fs} : fields.filter (·.isParsable) = f :: g :: fs → f.isFlatten = false → f.isAppend = false →
      NotTransparent what fields ("`transparent` " ++ what ++ " must have only one parseable field")

/-- What is not allowed on a structure. -/
inductive NotOnStruct (shape : Shape) (fields : List FieldDecl) : NotAllowed
  | tuple : shape = .unnamed → NotOnStruct shape fields "allow_unknown_fields" "`allow_unknown_fields` not allowed on tuple struct"
  | unit : shape = .unit → NotOnStruct shape fields "default" "`default` not allowed on unit struct"
  | transparent {text} : NotTransparent "struct" fields text → NotOnStruct shape fields "transparent" text

/-- What is not allowed on a variant. -/
inductive NotOnVariant (shape : Shape) (fields : List FieldDecl) : NotAllowed
  | tuple : shape = .unnamed → NotOnVariant shape fields "allow_unknown_fields" "`allow_unknown_fields` not allowed on tuple variant"
  | transparent {text} : NotTransparent "variant" fields text → NotOnVariant shape fields "transparent" text

variable [Env]

/-- The messages about an entry. -/
def Placed.msgs (names : List String) : Placed → List Msg
  | entry b => b.msgs names
  | misplaced text sp => [⟨sp, .custom text.toList⟩]

/-- The tokens are an entry of a list with the given keys, some of which are not allowed; the value of such a key may be
anything. -/
inductive PlaceSeg (readers : List (String × Reader)) (bad : NotAllowed) (v rest : List Tok) (sc : Span) : Placed → Prop
  | entry {b} : WrittenSeg readers v rest sc b → (∀ key text, b.key? = some key → ¬ bad key text) →
      PlaceSeg readers bad v rest sc (.entry b)
  | misplaced {key text sp vt} : bad key text → KeyToks [key.toList] sp v vt → NoComma vt →
      PlaceSeg readers bad v rest sc (.misplaced text sp)

end Deluxe
