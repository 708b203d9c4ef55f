import Verif.Spec.Struct
/-!
# Specification vocabulary: definitions that are extended

A definition is extended when fields are added at its end that may be left out, when fields get further names, when
fields that had to be given get a default, and when unknown keys are no longer refused.
-/
namespace Deluxe

variable {V : Type}

/-- `f'` is the field `f`, but for further names and a default.  A default may be added if the field is read from an
item of its own that had to be given; `target` says if the structure has a default value. -/
structure Field.Grown (target : Bool) (f f' : Field V) : Prop where
  same : f' = { f with idents := f'.idents, default := f'.default }
  first : f'.idents.headD [] = f.idents.headD []
  names : ∀ k ∈ f.idents, k ∈ f'.idents
  flat : f.isFlat = true → f'.idents = f.idents
  default : f'.default = f.default ∨
    (f.Plain ∧ f.default = none ∧ target = false ∧ ∀ n sp v, f.item.missing n sp ≠ .ok v)

/-- The field at position `i` of `d` may be left out. -/
def MayBeLeftOut (d : Fields V) (f : Field V) (i : Nat) : Prop :=
  ∀ n sp, ∃ v, Ends d f none .panic (f.item.missing n sp) i v

/-- `d'` is `d`, extended: see above.  A default value of the structure has values for the new fields. -/
structure Fields.Grows (d d' : Fields V) : Prop where
  kept : ∀ (i : Nat) f, d.fields[i]? = some f → ∃ f', d'.fields[i]? = some f' ∧ Field.Grown d.target.isSome f f'
  added : ∀ (i : Nat) f', d.fields.length ≤ i → d'.fields[i]? = some f' → f'.isFlat = false ∧ MayBeLeftOut d' f' i
  target : (d.target = none ∧ d'.target = none) ∨ ∃ t u, d.target = some t ∧ d'.target = some (t ++ u)
  obj : d'.obj = d.obj
  attrName : d'.attrName = d.attrName
  unknown : d.allowUnknown = true → d'.allowUnknown = true

/-- A name of a field that is read from an item of its own, which this field did not have before. -/
def NewName (fields fields' : List (Field V)) (k : Str) : Prop :=
  ∃ (i : Nat) (f' : Field V), fields'[i]? = some f' ∧ f'.Plain ∧ k ∈ f'.idents ∧
    ∀ f, fields[i]? = some f → k ∉ f.idents

end Deluxe
