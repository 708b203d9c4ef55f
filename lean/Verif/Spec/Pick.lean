import Verif.Spec.Struct
/-!
# Some of the fields of a structure, in some order
-/
namespace Deluxe

/-- The entries at the positions `idx`, in that order. -/
def select {α : Type} (idx : List Nat) (l : List α) : List α := idx.filterMap (l[·]?)

variable {V : Type}

/-- The positions are those of different fields, and those of all fields that are parsed. -/
structure Picks (idx : List Nat) (fields : List (Field V)) : Prop where
  nodup : idx.Nodup
  lt : ∀ i ∈ idx, i < fields.length
  parsed : ∀ (i : Nat) f, fields[i]? = some f → f.isParsable = true → i ∈ idx

/-- The structure with these fields only, in this order. -/
def Fields.select (idx : List Nat) (d : Fields V) : Fields V :=
  { d with fields := Deluxe.select idx d.fields, target := d.target.map (Deluxe.select idx) }

/-- No name belongs to two fields that are read from items of their own. -/
def OneOwner (fields : List (Field V)) : Prop :=
  ∀ (i j : Nat) f g k, fields[i]? = some f → fields[j]? = some g → f.Plain → g.Plain → k ∈ f.idents →
    k ∈ g.idents → i = j

/-- A `rest` field looks only at which names there are, not at their order. -/
def NamesOnly (fields : List (Field V)) : Prop :=
  ∀ f ∈ fields, ∀ names names', (∀ n : Str, n ∈ names ↔ n ∈ names') → f.restP names = f.restP names'

/-- No field needs a copy of the input, or a copy of the input is like the input: nothing has been read from it. -/
def NoFork (fields : List (Field V)) (l : List Stream) : Prop :=
  (∀ s ∈ l, s.unexp = none) ∨ ∀ f ∈ fields, f.flatParsable = false

/-- A message without the suggested name. -/
def Msg.plain (m : Msg) : Msg :=
  match m with
  | ⟨sp, .unknownField key _⟩ => ⟨sp, .unknownField key none⟩
  | m => m

/-- What a field that is not parsed ends up with. -/
def Unparsed (d : Fields V) (f : Field V) (i : Nat) (v : V) : Prop :=
  (∃ b, (f.isContainer = true ∧ d.obj = some b ∨
      ¬ (f.isContainer = true ∧ d.obj.isSome = true) ∧ f.default = some b) ∧ runTransforms f.transforms b = .ok v) ∨
    (¬ (f.isContainer = true ∧ d.obj.isSome = true) ∧ f.default = none ∧ ∃ t, d.target = some t ∧ t[i]? = some v)

/-- `vs` are the values of all fields, `ws` those of the picked fields; a field that is not picked has the value
that such a field always has. -/
def Restores (idx : List Nat) (d : Fields V) (vs ws : List V) : Prop :=
  vs.length = d.fields.length ∧ ws = select idx vs ∧
    ∀ (i : Nat) f, d.fields[i]? = some f → i ∉ idx → ∃ v, vs[i]? = some v ∧ Unparsed d f i v

/-- The definition with these fields only, in this order, and with its own `and_then` functions. -/
def StructDef.select (idx : List Nat) (thens : List (List V → Except SynErr (List V))) (d : StructDef V) : StructDef V :=
  { d with fields := Deluxe.select idx d.fields, default := d.default.map (Deluxe.select idx), andThens := thens }

end Deluxe
