import Verif.Props.Rename
import Verif.Props.Ignored
/-!
# C40: what a field with `flatten(prefix = p)` reads
-/
namespace Deluxe

section
variable [Env] {V W : Type}

/-- The field is a flattened structure with the prefix `p` that has no flat fields itself. -/
structure PrefixedStruct (f : Field V) (p : Str) (d : StructDef W) (g : List W → V) : Prop where
  flattens : f.Flattens (some p)
  parse : f.flatNamed.parse = fun m pre v => (d.flatNamed.parse m pre v).mapRes (·.map g)
  noFlat : d.fields.all (fun h => !h.isFlat) = true

omit [Env] in
theorem PrefixedStruct.call {f : Field V} {p : Str} {d : StructDef W} {g : List W → V} [Env] (h : PrefixedStruct f p d g)
    (outer : Str) (k : Span) (allowed : List Str) :
    f.flatCall outer k allowed = (d.flatNamed.parse (.named k) (joinPrefix outer p) false).mapRes (·.map g) := by
  have h1 : f.flatCall outer k allowed = f.flatNamed.parse (.named k) (joinPrefix outer p) false := by
    simp [Field.flatCall, h.flattens.append, h.flattens.rest, h.flattens.flatten]
  rw [h1, h.parse]

omit [Env] in
theorem noFlat_reads {fields : List (Field W)} (h : fields.all (fun h => !h.isFlat) = true) {f : Field W}
    (hf : f ∈ fields) : ¬ f.flatParsable = true := by
  have := List.all_eq_true.1 h f hf
  intro h'
  simp only [Field.flatParsable, Bool.and_eq_true] at h'
  rw [h'.1] at this
  cases this

/-- **C40.**  Items whose keys do not begin with the prefix never reach the flattened structure: its result, with all
messages, is the same without them. -/
theorem c40_unprefixed_partial {f : Field V} {p : Str} {d : StructDef W} {g : List W → V} (h : PrefixedStruct f p d g)
    (hg : FieldsGood d.fields) (hl : ∀ f ∈ d.fields, f.item.Local) (outer : Str) (k : Span) (allowed : List Str) :
    Ignores (fun key => ¬ joinPrefix outer p <+: key) (f.flatCall outer k allowed) := by
  rw [h.call]
  refine c124_every_flat (.embed g (.struct d k _ false hg hl ⟨?_, fun _ _ _ h => by cases h⟩ ?_))
  · rintro key hk g i ⟨m, rfl, _⟩
    exact hk (List.prefix_append _ _)
  · intro x hx hp
    exact absurd hp (noFlat_reads h.noFlat hx)

/-- **C40.**  Items whose keys all begin with the prefix are read by the flattened structure as it reads those with the
prefix removed. -/
theorem c40_stripped_partial {f : Field V} {p : Str} {d : StructDef W} {g : List W → V} (h : PrefixedStruct f p d g)
    (ha : Accepted d.data) (ht : d.isTransparent = false)
    (hg : FieldsGood d.fields) (hl : ∀ f ∈ d.fields, f.item.Local) (hb : ∀ f ∈ d.fields, f.TypeBlind) (outer : Str) (k : Span)
    (allowed : List Str) :
    Agree (fun key key' => key = joinPrefix outer p ++ key') (f.flatCall outer k allowed)
      ((d.flatNamed.parse (.named k) [] false).mapRes (·.map g)) := by
  rw [h.call]
  refine c123_every_flat (.embed g (.struct d d k _ _ false ?_ rfl ha ha ht ht hg hg hl hl ?_ ?_))
  · refine ⟨rfl, fun i f f' h1 h2 => ?_, rfl, rfl, rfl⟩
    rw [h1] at h2
    cases h2
    have := hb f (List.mem_of_getElem? h1)
    exact ⟨rfl, rfl, rfl, rfl, rfl, this.1, this.2⟩
  · refine ⟨?_, fun _ _ _ _ _ h => by cases h⟩
    rintro key key' rfl i
    constructor
    · rintro ⟨f, m, hm, ho⟩
      exact ⟨f, m, by simpa using hm, ho⟩
    · rintro ⟨f, m, hm, ho⟩
      exact ⟨f, m, by simpa using hm, ho⟩
  · intro i x x' h1 _ hp
    exact absurd hp (noFlat_reads h.noFlat (List.mem_of_getElem? h1))

/-- **C40.**  The flattened structure sees exactly the items whose keys begin with the prefix, with the prefix removed:
its value is that of the structure itself for these, whatever else is in the list.  For a structure without flat fields
of its own: `c40_nested_violated` and `c75_prefix_violated` show what is wrong with these. -/
theorem c40_reads_partial {f : Field V} {p : Str} {d : StructDef W} {g : List W → V} (h : PrefixedStruct f p d g)
    (ha : Accepted d.data) (ht : d.isTransparent = false)
    (hg : FieldsGood d.fields) (hl : ∀ f ∈ d.fields, f.item.Local) (hb : ∀ f ∈ d.fields, f.TypeBlind) (outer : Str) (k : Span)
    (allowed : List Str) {l l1 l2 : List Stream} (h1 : DroppedAll (fun key => ¬ joinPrefix outer p <+: key) l l1)
    (h2 : RekeyedAll (fun key key' => key = joinPrefix outer p ++ key') l1 l2) :
    SameOk (f.flatCall outer k allowed l).1 ((d.flatNamed.parse (.named k) [] false).mapRes (·.map g) l2).1 := by
  rw [c40_unprefixed_partial h hg hl outer k allowed l l1 h1]
  exact c40_stripped_partial h ha ht hg hl hb outer k allowed l1 l2 h2

/-! ## Concrete cases -/

/-- `#[deluxe(flatten(prefix = x))]` on a structure with the fields `p` and `q` -/
def behindX : Field (List Bool) :=
  { plainField ['i'] (boolDict.map fun b => [b]) with
    idents := [], flatten := some ⟨true, some ['x']⟩,
    flatNamed := { (twoNamed "p" "q").flatNamed with
      parse := fun m pre v => ((twoNamed "p" "q").flatNamed.parse m pre v).mapRes (·.map id) } }

/-- C40: the conditions are met, and `x::p, p = t, x::q` without the item without prefix is `x::p, x::q`, and without
the prefix `p, q`. -/
example : PrefixedStruct behindX ['x'] (twoNamed "p" "q") id ∧ Accepted (twoNamed "p" "q").data ∧
    (twoNamed "p" "q").isTransparent = false ∧ FieldsGood (twoNamed "p" "q").fields ∧
    (∀ f ∈ (twoNamed "p" "q").fields, f.item.Local) ∧ (∀ f ∈ (twoNamed "p" "q").fields, f.TypeBlind) ∧
    Dropped (fun key => ¬ joinPrefix [] ['x'] <+: key)
      [.ident ['x'] 1, .punct ':' true 1, .punct ':' false 1, .ident ['p'] 1, .punct ',' false 2,
        .ident ['p'] 3, .punct '=' false 3, .ident ['t'] 3, .punct ',' false 4,
        .ident ['x'] 5, .punct ':' true 5, .punct ':' false 5, .ident ['q'] 5]
      [.ident ['x'] 1, .punct ':' true 1, .punct ':' false 1, .ident ['p'] 1, .punct ',' false 2,
        .ident ['x'] 5, .punct ':' true 5, .punct ':' false 5, .ident ['q'] 5] := by
  refine ⟨⟨⟨rfl, rfl, rfl, rfl⟩, rfl, rfl⟩, ⟨fun f hf h => ?_, fun _ h => ?_⟩, rfl,
    ⟨fun f hf _ => (twoNamed_fine.item f hf).named, fun f hf => (twoNamed_fine.item f hf).missing, twoNamed_fine.flat rfl⟩,
    ?_, ?_, ?_⟩
  · simp only [StructDef.data, twoNamed, List.mem_cons, List.not_mem_nil, or_false] at hf
    rcases hf with rfl | rfl <;> cases h
  · cases h
  · intro f hf
    simp only [twoNamed, List.mem_cons, List.not_mem_nil, or_false] at hf
    rcases hf with rfl | rfl <;> exact c56_bool
  · intro f hf
    simp only [twoNamed, List.mem_cons, List.not_mem_nil, or_false] at hf
    rcases hf with rfl | rfl <;> exact ⟨fun _ _ _ => rfl, fun _ _ _ _ => ⟨fun h => (by cases h), fun h => (by cases h)⟩⟩
  · refine .keep (v := [.ident ['x'] 1, .punct ':' true 1, .punct ':' false 1, .ident ['p'] 1])
      (by simp [NoComma, Comma]) ⟨_, _, rfl⟩ ?_
    exact .more (segs := [['p']]) (sp := 3) (v := [.ident ['p'] 3, .punct '=' false 3, .ident ['t'] 3])
      (vt := [.punct '=' false 3, .ident ['t'] 3])
      (.mk (pt := [.ident ['p'] 3]) (.plain (.one _ _)) (by simp [StartsColon2]))
      (by simp [joinPrefix, keyString]) (by simp [NoComma, Comma]) ⟨_, _, rfl⟩ (.same _)

/-- C40: `x::p, p = false, x::q = false` is read like `p, q = false`, and `p, x::q` is without `x::p`. -/
example : letI : Env := ⟨fun a _ => some a, fun _ _ => 0, 1⟩
    ((behindX.flatCall [] 0 [] [⟨[.ident ['x'] 1, .punct ':' true 1, .punct ':' false 1, .ident ['p'] 1, .punct ',' false 2,
        .ident ['p'] 3, .punct '=' false 3, .ident "false".toList 3, .punct ',' false 4,
        .ident ['x'] 5, .punct ':' true 5, .punct ':' false 5, .ident ['q'] 5, .punct '=' false 3,
        .ident "false".toList 3], 0, none⟩]).1 matches .ok [true, false]) ∧
    (((twoNamed "p" "q").flatNamed.parse (.named 0) [] false [⟨[.ident ['p'] 1, .punct ',' false 2, .ident ['q'] 5,
        .punct '=' false 3, .ident "false".toList 3], 0, none⟩]).1 matches .ok [true, false]) ∧
    ((behindX.flatCall [] 0 [] [⟨[.ident ['p'] 1, .punct ',' false 2,
        .ident ['x'] 5, .punct ':' true 5, .punct ':' false 5, .ident ['q'] 5], 0, none⟩]).1 matches .err _) := by
  decide +kernel

end
end Deluxe
