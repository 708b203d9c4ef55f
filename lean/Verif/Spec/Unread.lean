import Verif.Spec.Struct
import Verif.Model.Attributes
/-!
# Fields that are not read, and what every successful way of reading gives
-/
namespace Deluxe

variable {V : Type}

/-- What a field that is never read (`skip`, `container`) holds in the value `vs`: the container, in the
attribute derives; or else its default; both with the transforms of the field applied; or else its part of the
default of the structure. -/
def Unread (d : Fields V) (i : Nat) (f : Field V) (vs : List V) : Prop :=
  (∃ b v, (f.isContainer = true ∧ d.obj = some b ∨
      ¬ (f.isContainer = true ∧ d.obj.isSome = true) ∧ f.default = some b) ∧
    runTransforms f.transforms b = .ok v ∧ vs[i]? = some v) ∨
  (¬ (f.isContainer = true ∧ d.obj.isSome = true) ∧ f.default = none ∧
    ∃ t, d.target = some t ∧ vs[i]? = t[i]?)

/-- Every value that the parser gives, from whatever tokens, satisfies `Q`. -/
def OkAll {σ α : Type} (Q : α → Prop) (m : M σ α) : Prop := ∀ s v, (m s).1 = .ok v → Q v

/-- Every value that is read, in whatever way (all but `missing_meta_item`), satisfies `Q`. -/
structure Dict.OkAll {α : Type} (Q : α → Prop) (d : Dict α) : Prop where
  parse : ∀ m, Deluxe.OkAll Q (d.parse m)
  inline : ∀ m, Deluxe.OkAll Q (d.inline m)
  flag : ∀ sp v, d.flag sp = .ok v → Q v
  named : ∀ n sp, Deluxe.OkAll Q (d.named n sp)

end Deluxe
