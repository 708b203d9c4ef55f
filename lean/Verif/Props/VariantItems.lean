import Verif.Props.Added
import Verif.Props.Variants
/-!
# C126, C127, C128 for the variants of enums

The items in the parentheses after the name of a variant with named fields are read like those of the structure with the
same fields (C78), so they can be left out, exchanged and added in the same way.
-/
namespace Deluxe

section
variable [Env] {V : Type}

/-- What is asked of a variant: the derive accepts it, it has named fields and is not transparent, and the types of its
fields take the end of the list like a comma and leave nothing unexpected behind when they succeed. -/
structure Variant.NamedFine (v : Variant V) : Prop where
  transparent : v.isTransparent = false
  shape : v.shape = .named
  accepted : v.asStruct.Accepted
  fine : v.asStruct.FieldsFine
  ends : ∀ f ∈ v.fields, f.item.EndsAlike
  tidy : ∀ f ∈ v.fields, ∀ n sp, Tidy (f.item.named n sp)

theorem Variant.NamedFine.item_eq {v : Variant V} (h : v.NamedFine) (p n : Str) (sp : Span) :
    v.item .meta [] p sp = v.asStruct.dict.named n sp :=
  c78_same_partial v h.transparent (fun hu => by rw [h.shape] at hu; cases hu) p n sp

omit [Env] in
theorem Variant.NamedFine.opaque [Env] {v : Variant V} (h : v.NamedFine) : v.asStruct.isTransparent = false := by
  have : v.transparent.getD false = false := h.transparent
  simp [StructDef.isTransparent, Variant.asStruct, this]

/-- **C126.**  If a variant accepts the items in its parentheses, it accepts them without any of the items of those
fields that may be omitted, and the other fields have the same values. -/
theorem c126_variant (v : Variant V) (h : v.NamedFine) (k : Span) {P : Str → Prop}
    (hP : ∀ key, P key → ∀ f i, Owns v.fields [] key f i → MayOmit v.asStruct.data [] k f i)
    (hfl : ∀ f ∈ v.fields, f.flatParsable = true → PlainIgnores P (f.flatCall [] k (Field.fieldNames v.fields)) ∨
      (PlainSpares P (f.flatCall [] k (Field.fieldNames v.fields)) ∧ f.transforms = []))
    {ts ts' : List Tok} (hd : Dropped P ts ts') (p : Str) (a b : Span) (rest : List Tok) (sc : Span) (vs : List V)
    (hv : (v.item .meta [] p k ⟨.group .paren ts a b :: rest, sc, none⟩).1 = .ok vs) :
    ∃ vs', (v.item .meta [] p k ⟨.group .paren ts' a b :: rest, sc, none⟩).1 = .ok vs' ∧
      ∀ i, LeftAlone v.asStruct k P i → vs'[i]? = vs[i]? := by
  rw [h.item_eq p p] at hv ⊢
  exact ((c126_items v.asStruct h.accepted h.opaque h.shape h.fine rfl h.ends h.tidy k hP hfl vs).2 ts ts' hd a b rest
    sc).2 p hv

/-- **C127.**  In the parentheses of a variant, let one item be exchanged for another of the same field: this is accepted
if and only if the new item can be read on its own, and then only the value of this field is another. -/
theorem c127_variant (v : Variant V) (h : v.NamedFine) (k : Span) {segs segs' sp sp' x xt w wt}
    (hx : KeyToks segs sp x xt) (hw : KeyToks segs' sp' w wt) (n1 : NoComma xt) (n2 : NoComma wt) {f : Field V} {i : Nat}
    (ho : Owns v.fields [] (keyString segs) f i) (ho' : Owns v.fields [] (keyString segs') f i)
    (hfl : ∀ f ∈ v.fields, f.flatParsable = true → PlainIgnores (fun key => key = keyString segs ∨ key = keyString segs')
      (f.flatCall [] k (Field.fieldNames v.fields)))
    {ts ts' : List Tok} (hd : Swapped x w ts ts') (p : Str) (a b : Span) (rest : List Tok) (sc : Span) (vs vs' : List V)
    (hv : (v.item .meta [] p k ⟨.group .paren ts a b :: rest, sc, none⟩).1 = .ok vs) :
    (v.item .meta [] p k ⟨.group .paren ts' a b :: rest, sc, none⟩).1 = .ok vs' ↔
      ∃ y, TakesAlone f b sp' wt y ∧ vs' = vs.set i y := by
  rw [h.item_eq p p] at hv ⊢
  exact ((c127_items v.asStruct h.accepted h.opaque h.shape h.fine rfl h.ends h.tidy k hx hw n1 n2 ho ho' hfl vs
    vs').2 ts ts' hd a b rest sc).2 p hv

/-- **C128.**  In the parentheses of a variant, let an item of a field be added: this is accepted if and only if the field
had no item yet and the new item can be read on its own, and then only the value of this field is another. -/
theorem c128_variant (v : Variant V) (h : v.NamedFine) (k : Span) {segs sp w wt} (hw : KeyToks segs sp w wt)
    (n1 : NoComma wt) {f : Field V} {i : Nat} (ho : Owns v.fields [] (keyString segs) f i)
    (hfl : ∀ f ∈ v.fields, f.flatParsable = true → PlainIgnores (fun key => key = keyString segs)
      (f.flatCall [] k (Field.fieldNames v.fields)))
    {ts ts' : List Tok} (hd : Inserted w ts ts') (p : Str) (a b : Span) (rest : List Tok) (sc : Span) (vs vs' : List V)
    (hv : (v.item .meta [] p k ⟨.group .paren ts a b :: rest, sc, none⟩).1 = .ok vs) :
    (v.item .meta [] p k ⟨.group .paren ts' a b :: rest, sc, none⟩).1 = .ok vs' ↔
      NotYet v.fields [] i [⟨ts, b, none⟩] ∧ ∃ y, TakesAlone f b sp wt y ∧ vs' = vs.set i y := by
  rw [h.item_eq p p] at hv ⊢
  exact ((c128_items v.asStruct h.accepted h.opaque h.shape h.fine rfl h.ends h.tidy k hw n1 ho hfl vs vs').2 ts ts' hd a b
    rest sc).2 p hv

/-! ## Concrete cases -/

/-- A variant `v` with the fields of `omittable` (C126). -/
def omittableVariant : Variant (List Bool) := ⟨['V'], .named, omittable.fields, [['v']], none, none, none, none⟩

/-- The conditions are met; those about the fields and the items are those of `omittable_meets` and of the cases beside
C127 and C128. -/
example : omittableVariant.NamedFine := by
  obtain ⟨h1, _, _, _, h5, h6, h7, _⟩ := omittable_meets 0
  exact ⟨rfl, rfl, h1, h5, h6, h7⟩

/-- `v(p, b, q)` without `b`, with `a = false` in the place of `b`, and with `a = false` and `b`. -/
example : letI : Env := ⟨fun a _ => some a, fun _ _ => 0, 1⟩
    ((omittableVariant.item .meta [] ['v'] 0 ⟨[.group .paren [.ident ['p'] 1, .punct ',' false 2, .ident ['b'] 3,
      .punct ',' false 4, .ident ['q'] 5] 8 9], 0, none⟩).1 matches .ok [[true], [true, true], []]) ∧
    ((omittableVariant.item .meta [] ['v'] 0 ⟨[.group .paren [.ident ['p'] 1, .punct ',' false 2,
      .ident ['q'] 5] 8 9], 0, none⟩).1 matches .ok [[], [true, true], []]) ∧
    ((omittableVariant.item .meta [] ['v'] 0 ⟨[.group .paren [.ident ['p'] 1, .punct ',' false 2, .ident ['a'] 3,
      .punct '=' false 6, .ident "false".toList 7, .punct ',' false 4, .ident ['q'] 5] 8 9], 0, none⟩).1 matches
      .ok [[false], [true, true], []]) ∧
    ((omittableVariant.item .meta [] ['v'] 0 ⟨[.group .paren [.ident ['b'] 1, .punct ',' false 2, .ident ['p'] 1,
      .punct ',' false 2, .ident ['a'] 3, .punct '=' false 6, .ident "false".toList 7, .punct ',' false 4, .ident ['q'] 5]
      8 9], 0, none⟩).1 matches .err _) := by
  decide +kernel

end
end Deluxe
