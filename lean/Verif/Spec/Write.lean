import Verif.Props.Maps
import Verif.Props.Fixed
import Verif.Props.Optional
/-!
# Specification vocabulary: ways to write a value
-/
namespace Deluxe

variable {α : Type}

def Mode.isNamed : Mode → Bool
  | .named _ => true
  | .unnamed => false

/-- The tokens `v` write the value `a`, as an element of a list (`named = false`) or after `name =` (`named = true`):
followed by the end or a comma, exactly they are read, as `a`. -/
structure Writes (d : Dict α) (named : Bool) (a : α) (v : List Tok) : Prop where
  some : v ≠ []
  noComma : NoComma v
  reads : ∀ m, m.isNamed = named → ∀ rest sc, Boundary rest → ReadsAs (d.parse m) v rest sc (.ok a)

/-- The tokens `v` write the value `a` inside of delimiters, as in `Some(..)`. -/
def WritesInside (d : Dict α) (a : α) (v : List Tok) : Prop :=
  ∀ sc u, ∃ s', d.inline .unnamed [⟨v, sc, u⟩] = (.ok a, [s']) ∧ AtEnd s'.toks

/-- The tokens `vt` after a key write the value `a`. -/
structure WritesItem (d : Dict α) (a : α) (vt : List Tok) : Prop where
  noComma : NoComma vt
  start : ¬ StartsColon2 vt
  reads : ∀ n sp rest sc, Boundary rest → ReadsAs (d.named n sp) vt rest sc (.ok a)

/-- The tokens `kt` write the key `k` of a map, whatever follows. -/
structure WritesKey (d : Dict α) (k : α) (kt : List Tok) : Prop where
  some : kt ≠ []
  noComma : NoComma kt
  reads : ∀ rest sc, ReadsTo (d.parse .unnamed) kt rest sc k

/-- Which values of a type can be written: as an element of a list, after `name =`, and as an item that starts with its
name. -/
structure Domain (α : Type) where
  elem : α → Prop
  val : α → Prop
  item : α → Prop

/-- The same values everywhere. -/
def Domain.same (P : α → Prop) : Domain α := ⟨P, P, P⟩

/-- All that `D` says can be written indeed can. -/
structure CanWrite (d : Dict α) (D : Domain α) : Prop where
  elem : ∀ a, D.elem a → (∃ v, Writes d false a v) ∧ ∃ v, WritesInside d a v
  val : ∀ a, D.val a → ∃ v, Writes d true a v
  item : ∀ a, D.item a → ∃ vt, WritesItem d a vt

end Deluxe
