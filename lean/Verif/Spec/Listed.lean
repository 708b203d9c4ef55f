import Verif.Spec.Pick
import Verif.Spec.Enum
/-!
# Messages up to their order, and the variants of an enum in another order
-/
namespace Deluxe

/-- One list is the other in some order, up to `R`. -/
inductive PermBy {α : Type} (R : α → α → Prop) : List α → List α → Prop
  | nil : PermBy R [] []
  | cons {a b : α} {l l' : List α} : R a b → PermBy R l l' → PermBy R (a :: l) (b :: l')
  | swap (a b : α) (l : List α) : PermBy R (a :: b :: l) (b :: a :: l)
  | trans {l l' l'' : List α} : PermBy R l l' → PermBy R l' l'' → PermBy R l l''

/-- The same text; but names that are suggested may differ, and names that are listed may be in another order. -/
inductive Text.SameUpToLists : Text → Text → Prop
  | same (t : Text) : Text.SameUpToLists t t
  | unknown (key : Str) (c c' : Option Str) : Text.SameUpToLists (.unknownField key c) (.unknownField key c')
  | listed {l l' : List (List (List Str))} : l.Perm l' → Text.SameUpToLists (.expectedOneOf l) (.expectedOneOf l')

/-- The same place and the same text, up to the order of lists. -/
def Msg.SameUpToLists (m m' : Msg) : Prop := m.span = m'.span ∧ m.text.SameUpToLists m'.text

/-- The same messages in some order. -/
def SynErr.SameMsgs (e e' : SynErr) : Prop := PermBy Msg.SameUpToLists e.toList e'.toList

/-- Related values, or the same messages in some order, or a panic in both. -/
inductive Res.RelMsgs {α β : Type} (R : α → β → Prop) : Res α → Res β → Prop
  | ok {a b} : R a b → Res.RelMsgs R (.ok a) (.ok b)
  | err {e e'} : e.SameMsgs e' → Res.RelMsgs R (.err e) (.err e')
  | panic : Res.RelMsgs R .panic .panic

variable {V : Type}

/-- `e'` has the variants of `e` in the order given by `idx`.  A value of `e'` is turned into one of `e` by `up`, and
the functions of the user do the same with both.  No name belongs to two variants, and no two flattened variants have
the same required fields: definitions are checked for this. -/
structure VariantsMoved (e e' : EnumDef V) (idx : List Nat) (up : EnumVal V → EnumVal V) : Prop where
  perm : idx.Perm (List.range e.variants.length)
  variants : e'.variants = select idx e.variants
  pos : ∀ (j i : Nat) xs, idx[j]? = some i → up (j, xs) = (i, xs)
  allowUnknown : e'.allowUnknown = e.allowUnknown
  default : e.default = e'.default.map up
  andLength : e.andThens.length = e'.andThens.length
  andThens : ∀ (n : Nat) f f', e'.andThens[n]? = some f → e.andThens[n]? = some f' → ∀ x, f' (up x) = (f x).map up
  names : ∀ (i j : Nat) v w k, e.variants[i]? = some v → e.variants[j]? = some w → v.ByName → w.ByName →
    k ∈ v.idents → k ∈ w.idents → i = j
  keys : e.DistinctKeys

end Deluxe
