import Verif.Spec.Items
import Verif.Model.Dict
/-!
# Specification vocabulary: items at the end of a list and before a comma
-/
namespace Deluxe

/-- Whether the parser succeeds on the tokens `v` of an item, its value and what it leaves of `v` are the same whether the
list ends there or a comma and anything else follows. -/
def EndsAlike {α : Type} (p : M Stream α) : Prop :=
  ∀ v sc u, NoComma v →
    (∃ x w u', w <:+ v ∧ ∀ rest, Boundary rest → p ⟨v ++ rest, sc, u⟩ = (.ok x, ⟨w ++ rest, sc, u'⟩)) ∨
    (∀ rest, Boundary rest → ∀ x s', p ⟨v ++ rest, sc, u⟩ ≠ (.ok x, s'))

/-- For both ways of reading a value: in a position, and after a key. -/
structure Dict.EndsAlike {α : Type} (d : Dict α) : Prop where
  parse : ∀ m, Deluxe.EndsAlike (d.parse m)
  named : ∀ n sp, Deluxe.EndsAlike (d.named n sp)

end Deluxe
