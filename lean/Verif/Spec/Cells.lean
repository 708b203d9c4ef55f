import Verif.Model.Cells
/-!
# What a `field_names()` should return
-/
namespace Deluxe

namespace NamesCode

/-- The list that the code collects, if every part of it is computed anew. -/
def value : NamesCode → List Str
  | done => []
  | push names next => names ++ next.value
  | extend inner next => inner.value ++ next.value
  | prefixed pre inner => joinPaths pre inner.value
  | cell _ body => body.value

/-- The cells that the code and the functions called by it mention, with their initializers. -/
def cells : NamesCode → List (CellId × NamesCode)
  | done => []
  | push _ next => next.cells
  | extend inner next => inner.cells ++ next.cells
  | prefixed _ inner => inner.cells
  | cell id body => (id, body) :: body.cells

end NamesCode

/-- Every cell has one initializer.  So it is if no type that flattens a field is generic. -/
def OneInit (ts : List NamesCode) : Prop :=
  ∀ t ∈ ts, ∀ t' ∈ ts, ∀ c b b', (c, b) ∈ t.cells → (c, b') ∈ t'.cells → b = b'

end Deluxe
