import Verif.Props.Enums
import Verif.Props.Flatten
import Verif.Props.Transparent
/-!
# C74: a structure that accepts any key does so wherever it is flattened
-/
namespace Deluxe

section
variable {V : Type} [Env]

/-- A structure that takes any key: it is declared to, or has a `rest` field, or contains such a structure as flattened
field, at any depth. -/
inductive TakesAnyKey : {V : Type} → FlatNamed V → Prop
  | declared {V : Type} {d : StructDef V} : d.allowUnknown = some true → TakesAnyKey d.flatNamed
  | rest {V : Type} {d : StructDef V} {f : Field V} : f ∈ d.fields → f.rest = some true → TakesAnyKey d.flatNamed
  | nested {V : Type} {d : StructDef V} {f : Field V} {pre : Option Str} : f ∈ d.fields →
      f.flatten = some ⟨true, pre⟩ → TakesAnyKey f.flatNamed → TakesAnyKey d.flatNamed
  /-- in a `SpannedValue` -/
  | spanned {V : Type} {x : FlatNamed V} : TakesAnyKey x → TakesAnyKey (spannedFlatNamed x)
  /-- as the field of a structure with `transparent(flatten_named)` -/
  | transparent {V : Type} {d : StructDef V} {o : TransparentOpts} {f : Field V} {k : Nat} {y : FlatNamed (List V)} :
      d.isTransparent = true → d.transparentField = some (f, k) → d.implFlatNamed o = some y → TakesAnyKey f.flatNamed →
      TakesAnyKey y

/-- C74: such a structure says so to those that flatten it. -/
theorem c74_announced {x : FlatNamed V} (h : TakesAnyKey x) : x.acceptsAll = true := by
  induction h with
  | declared h => simp [StructDef.flatNamed, StructDef.acceptsAll, h]
  | @rest _ d f hf h =>
    have : d.fields.any (fun f => f.rest.getD false) = true := List.any_eq_true.2 ⟨f, hf, by simp [h]⟩
    simp [StructDef.flatNamed, StructDef.acceptsAll, Field.acceptsAll, this]
  | @nested _ d f pre hf h _ ih =>
    have : d.fields.any (fun f => f.isFlatten && f.flatNamed.acceptsAll) = true :=
      List.any_eq_true.2 ⟨f, hf, by simp [Field.isFlatten, h, ih]⟩
    simp [StructDef.flatNamed, StructDef.acceptsAll, Field.acceptsAll, this]
  | spanned _ ih => exact ih
  | transparent ht hf hy _ ih =>
    unfold StructDef.implFlatNamed at hy
    rw [if_pos ht, hf] at hy
    split at hy
    · simp only [Option.map_some, Option.some.injEq] at hy
      rw [← hy]
      exact ih
    · cases hy

/-- C74: such a structure is parsed exactly if no field is given twice, every given value parses and every field has
a value, whatever other keys there are. -/
theorem c74_parsed {d : StructDef V} (h : TakesAnyKey d.flatNamed) (hs : d.shape = .named) (ha : d.Accepted)
    (ht : d.isTransparent = false) (hg : FieldsGood d.fields) (hn : d.andThens = []) (mode : Mode) {l bs}
    (hl : ItemsAll (StructSeg d.fields []) l bs) (vs : List V) :
    (d.dict.inline mode l).1 = .ok vs ↔
      ItemsOk false [] bs ∧ vs.length = d.fields.length ∧ ∀ (i : Nat) f, d.fields[i]? = some f → ∃ v, vs[i]? = some v ∧
        Holds d.data (Field.fieldNames d.fields) [] (mode.toFullSpan l) l bs f i v := by
  have hall : d.acceptsAll = true := c74_announced h
  have e : (d.dict.inline mode l).1 = (namedFlat d.data (Field.fieldNames d.fields) mode [] false l).1 := by
    unfold StructDef.dict
    rw [ht, hs, hall]
    simp only [StructDef.flatNamed, hn]
    show runAndThens [] (namedFlat d.data (Field.fieldNames d.fields) mode [] false l).1 = _
    cases (namedFlat d.data (Field.fieldNames d.fields) mode [] false l).1 <;> rfl
  rw [e, c31_struct d.data ha.fields ht hg _ mode [] false hl vs, Bool.and_false]
  have : ItemsOk false (Field.fieldNames d.fields) bs ↔ ItemsOk false [] bs := by
    constructor <;> intro h <;> exact ⟨h.1, h.2, by simp⟩
  rw [this]
  rfl

/-! ## Where it is not so -/

/-- `#[deluxe(allow_unknown_fields)] enum E { A }` -/
def lenientEnum : EnumDef Bool where
  variants := [⟨"A".toList, .unit, [], ["a".toList], none, none, none, none⟩]
  default := none
  allowUnknown := some true
  andThens := []

/-- `struct S { #[deluxe(flatten)] e: E }` -/
def aroundEnum : StructDef (EnumVal Bool) where
  shape := .named
  fields := [{ plainField "e".toList lenientEnum.dict with
    idents := [], flatten := some ⟨true, none⟩, flatNamed := lenientEnum.flatNamed }]
  default := none
  transparent := none
  allowUnknown := none
  andThens := []

/-- `a, x` -/
def anyKeyInput : Stream := ⟨[.ident "a".toList 1, .punct ',' false 2, .ident "x".toList 3], 9, none⟩

/-- C74 does not hold for enums: `E` accepts `a, x`, the structure that flattens it reports `x`. -/
theorem c74_enum_violated : (lenientEnum.dict.inline (.named 0) [anyKeyInput]).1 = .ok (0, []) ∧
    ∃ e c, (aroundEnum.dict.inline (.named 0) [anyKeyInput]).1 = .err e ∧ ⟨3, .unknownField "x".toList c⟩ ∈ e.toList :=
  ⟨rfl, _, _, rfl, List.mem_cons_self⟩

/-- `struct R { #[deluxe(rest)] r: T }`, where `T` takes everything. -/
def restStruct : StructDef Bool where
  shape := .named
  fields := [{ plainField "r".toList boolDict with rest := some true, restP := fun _ l => (.ok true, skipAll l) }]
  default := none
  transparent := none
  allowUnknown := none
  andThens := []

/-- C74 does not hold in tuple structures: `R` accepts `a, x` by itself, and reports both keys where it is flattened
into a tuple structure. -/
theorem c74_tuple_violated : (restStruct.dict.inline (.named 0) [anyKeyInput]).1 = .ok [true] ∧
    ∃ e c, (restStruct.flatUnnamed.parse (.named 0) 0 [anyKeyInput]).1 = .err e ∧
      ⟨3, .unknownField "x".toList c⟩ ∈ e.toList :=
  ⟨rfl, _, _, rfl, List.mem_cons_of_mem _ List.mem_cons_self⟩

/-! ## Examples -/

/-- `struct S { #[deluxe(flatten)] r: R }` -/
def aroundRest : StructDef (List Bool) where
  shape := .named
  fields := [{ plainField "e".toList restStruct.dict with
    idents := [], flatten := some ⟨true, none⟩, flatNamed := restStruct.flatNamed }]
  default := none
  transparent := none
  allowUnknown := none
  andThens := []

example : TakesAnyKey aroundRest.flatNamed :=
  .nested List.mem_cons_self rfl (.rest List.mem_cons_self rfl)

/-- `restStruct` meets the conditions of `c74_parsed`. -/
example : TakesAnyKey restStruct.flatNamed ∧ restStruct.shape = .named ∧ restStruct.Accepted ∧
    restStruct.isTransparent = false ∧ FieldsGood restStruct.fields ∧ restStruct.andThens = [] := by
  have one : ∀ {p : Field Bool → Prop}, (∀ f, restStruct.fields = [f] → p f) → ∀ f ∈ restStruct.fields, p f := by
    intro p h f hf
    exact h f (by rw [List.mem_singleton.1 hf]; rfl)
  refine ⟨.rest List.mem_cons_self rfl, rfl, ⟨⟨one ?_, ?_⟩, ?_, ?_⟩, rfl, ⟨?_, one ?_, one ?_⟩, rfl⟩
  · rintro f ⟨⟩ h
    simp [Field.isParsable, Field.isContainer, plainField] at h
  · intro t h
    cases h
  · intro h
    cases h
  · intro h
    cases h
  · exact one (by rintro f ⟨⟩; exact fun _ => boolDict_good.named)
  · rintro f ⟨⟩ n sp h
    cases h
  · rintro f ⟨⟩ - pre sp allowed l
    exact ⟨by simp [Field.flatCall, plainField], skipAll_adv l⟩

example : (aroundRest.dict.inline (.named 0) [anyKeyInput]).1 = .ok [[true]] := rfl

end
end Deluxe
