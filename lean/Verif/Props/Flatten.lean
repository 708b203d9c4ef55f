import Verif.Props.Structs
/-!
# C39, C40: flattened fields
-/
namespace Deluxe

variable {V W : Type}

/-- The field is flattened, with this prefix if any. -/
structure Field.Flattens (f : Field V) (p : Option Str) : Prop where
  flatten : f.flatten = some ⟨true, p⟩
  append : f.append.getD false = false
  rest : f.rest.getD false = false
  parsable : f.isParsable = true

theorem Field.Flattens.flatParsable {f : Field V} {p} (h : f.Flattens p) : f.flatParsable = true := by
  simp [Field.flatParsable, Field.isFlat, Field.isFlatten, h.flatten, h.parsable]

section
variable [Env]

/-- `d` is the data of the structure whose parser is used by the flattened field `f`; `g` wraps its
fields in a value of the type of `f`. -/
def FlattensStruct (f : Field V) (d : Fields W) (allowed : List Str) (g : List W → V) : Prop :=
  ∀ mode pre validate, f.flatNamed.parse mode pre validate =
    (namedFlat d allowed mode pre validate).mapRes (Res.map g)

omit [Env] in
theorem itemsAll_forkIf {β : Type} {seg : List Tok → List Tok → Span → β → Prop} {l bs} (b : Bool)
    (h : ItemsAll seg l bs) : ItemsAll seg (if b then forkInputs l else l) bs := by
  cases b
  · exact h
  · exact itemsAll_fork h

/-- C39: a flattened field gets its value from the same items as the outer structure, exactly as its type
parses them alone with unknown keys ignored: the keys of the outer structure, and all others, do not
matter. -/
theorem c39_flattened_value (d : Fields V) (allowed : List Str) (span : Span) {i : Nat} {f : Field V}
    (_hf : d.fields[i]? = some f) (hfl : f.Flattens none) (inner : Fields W) (allowed' : List Str)
    (g : List W → V) (hin : FlattensStruct f inner allowed' g) (ha : Accepted inner)
    (ht : inner.transparent = false) (hg : FieldsGood inner.fields) {l bs'}
    (h : ItemsAll (StructSeg inner.fields []) l bs') (v : V) :
    flatOut d.fields [] span allowed l f i = .ok v ↔ ∃ ws, v = g ws ∧ ItemsOk false allowed' bs' ∧
      ws.length = inner.fields.length ∧ ∀ j h, inner.fields[j]? = some h → ∃ w, ws[j]? = some w ∧
        Holds inner allowed' [] span
          (if (d.fields.drop (i + 1)).any (·.flatParsable) then forkInputs l else l) bs' h j w := by
  have hcall : ∀ l, (f.flatCall [] span allowed l).1 =
      ((namedFlat inner allowed' (.named span) [] false l).1).map g := by
    intro l
    simp [Field.flatCall, hfl.append, hfl.rest, hfl.flatten, hin _ _ _, M.mapRes]
  rw [flatOut, hcall]
  have h' := itemsAll_forkIf ((d.fields.drop (i + 1)).any (·.flatParsable)) h
  generalize hl' : (if (d.fields.drop (i + 1)).any (·.flatParsable) then forkInputs l else l) = l' at *
  have key := c31_struct inner ha ht hg allowed' (.named span) [] false h'
  simp only [Bool.and_false] at key
  have hsp : (Mode.named span).toFullSpan l' = span := rfl
  rw [hsp] at key
  constructor
  · intro hm
    cases hr : (namedFlat inner allowed' (.named span) [] false l').1 with
    | ok ws =>
      rw [hr] at hm
      simp only [Res.map, Res.ok.injEq] at hm
      exact ⟨ws, hm.symm, (key ws).1 hr⟩
    | err e => rw [hr] at hm; cases hm
    | panic => rw [hr] at hm; cases hm
  · rintro ⟨ws, rfl, hk⟩
    rw [(key ws).2 hk]
    rfl

omit [Env] in
/-- C39: the names the outer structure accepts are its own and those of the flattened types, after their
prefix; those of skipped and container fields are not among them. -/
theorem c39_names (fields : List (Field V)) (key : Str) : key ∈ Field.fieldNames fields ↔
    ∃ f ∈ fields, f.isParsable = true ∧
      ((∃ k ∈ f.flatNamed.fieldNames, f.flatten = some ⟨true, none⟩ ∧ key = k) ∨
       (∃ k ∈ f.flatNamed.fieldNames, ∃ p, f.flatten = some ⟨true, some p⟩ ∧ key = joinPath p k) ∨
       (f.isFlatten = false ∧ key ∈ f.idents)) := by
  simp only [Field.fieldNames, List.mem_flatMap, List.mem_filter]
  constructor
  · rintro ⟨f, ⟨hf, hp⟩, hk⟩
    refine ⟨f, hf, hp, ?_⟩
    rcases hfl : f.flatten with _ | ⟨_ | _, _ | p⟩ <;> rw [Field.names, hfl] at hk
    · exact .inr (.inr ⟨by simp [Field.isFlatten, hfl], hk⟩)
    · exact .inr (.inr ⟨by simp [Field.isFlatten, hfl], hk⟩)
    · exact .inr (.inr ⟨by simp [Field.isFlatten, hfl], hk⟩)
    · exact .inl ⟨key, hk, by simp, rfl⟩
    · simp only [joinPaths, List.mem_map] at hk
      obtain ⟨k, hk, rfl⟩ := hk
      exact .inr (.inl ⟨k, hk, p, by simp, rfl⟩)
  · rintro ⟨f, hf, hp, h⟩
    refine ⟨f, ⟨hf, hp⟩, ?_⟩
    rcases h with ⟨k, hk, hfl, rfl⟩ | ⟨k, hk, p, hfl, rfl⟩ | ⟨hfl, hk⟩
    · rw [Field.names, hfl]; exact hk
    · rw [Field.names, hfl]; exact List.mem_map.2 ⟨k, hk, rfl⟩
    · rcases hfl' : f.flatten with _ | ⟨_ | _, p⟩
      · rw [Field.names, hfl']; exact hk
      · rw [Field.names, hfl']; exact hk
      · simp [Field.isFlatten, hfl'] at hfl

/-! ## C40 -/

omit [Env] in
/-- C40: a structure parsed with a prefix takes exactly the keys that are the prefix and then a key it
takes without prefix. -/
theorem c40_prefixed_keys (fields : List (Field V)) (pre key : Str) (f : Field V) (i : Nat) :
    Owns fields pre key f i ↔ ∃ k, key = pre ++ k ∧ Owns fields [] k f i := by
  constructor
  · rintro ⟨k, hk, h⟩
    exact ⟨k, hk, k, rfl, h⟩
  · rintro ⟨k, hk, k', hk', h⟩
    exact ⟨k', by rw [hk, hk', List.nil_append], h⟩

omit [Env] in
/-- C40: with `flatten(prefix = q)` in a structure that is itself parsed with prefix `p` (or none), the
type of the field is parsed with the prefix `p::q`, unknown keys ignored, and a key belongs to a field of
it exactly if its segments are those of `p`, those of `q`, and then a key of that field. -/
theorem c40_flatten_prefix_partial (f : Field V) (q p : List Str) (tq tp : Str) (hq : PathText q tq)
    (hp : PathText p tp) (hf : f.Flattens (some tq)) (span : Span) (allowed : List Str) :
    (∃ t, PathText q t ∧ f.flatCall [] span allowed =
        f.flatNamed.parse (.named span) (t ++ [':', ':']) false ∧
      ∀ (inner : List (Field W)) (key : List Str) (tk : Str) (_ : PathText key tk) (g : Field W) (j : Nat),
        Owns inner (t ++ [':', ':']) tk g j ↔
          ∃ rest r, key = q ++ rest ∧ PathText rest r ∧ Owns inner [] r g j) ∧
    (∃ t, PathText (p ++ q) t ∧ f.flatCall (tp ++ [':', ':']) span allowed =
        f.flatNamed.parse (.named span) (t ++ [':', ':']) false ∧
      ∀ (inner : List (Field W)) (key : List Str) (tk : Str) (_ : PathText key tk) (g : Field W) (j : Nat),
        Owns inner (t ++ [':', ':']) tk g j ↔
          ∃ rest r, key = (p ++ q) ++ rest ∧ PathText rest r ∧ Owns inner [] r g j) := by
  have sees : ∀ (s : List Str) (t : Str), PathText s t →
      ∀ (inner : List (Field W)) (key : List Str) (tk : Str) (_ : PathText key tk) (g : Field W) (j : Nat),
        Owns inner (t ++ [':', ':']) tk g j ↔
          ∃ rest r, key = s ++ rest ∧ PathText rest r ∧ Owns inner [] r g j := by
    intro s t hs inner key tk hk g j
    rw [c40_prefixed_keys]
    have hstrip := fun r => c12_strip_segments s key t tk r hs hk
    have hj : joinPrefix [] t = t ++ [':', ':'] := by simp [joinPrefix]
    constructor
    · rintro ⟨k, hkk, ho⟩
      obtain ⟨rest, h1, h2⟩ := (hstrip k).1 (by rw [hj, stripPrefix_iff]; exact hkk)
      exact ⟨rest, k, h1, h2, ho⟩
    · rintro ⟨rest, r, h1, h2, ho⟩
      have := (hstrip r).2 ⟨rest, h1, h2⟩
      rw [hj, stripPrefix_iff] at this
      exact ⟨r, this, ho⟩
  have hcall : ∀ pre, f.flatCall pre span allowed =
      f.flatNamed.parse (.named span) (joinPrefix pre tq) false := by
    intro pre
    simp [Field.flatCall, hf.append, hf.rest, hf.flatten]
  obtain ⟨_, _, _, ⟨t, ht1, ht2⟩, _, h0⟩ := c12_join_segments p q tp tq hp hq
  refine ⟨⟨tq, hq, ?_, sees q tq hq⟩, ⟨t, ht2, ?_, sees (p ++ q) t ht2⟩⟩
  · rw [hcall, h0]
  · rw [hcall, ht1]

/-! ## A flattened field without prefix inside a prefixed one -/

/-- `struct Inner { a: bool }` -/
def innerDef : StructDef Bool where
  shape := .named
  fields := [plainField "a".toList boolDict]
  default := none
  transparent := none
  allowUnknown := none
  andThens := []

/-- `struct Middle { #[deluxe(flatten)] inner: Inner }` -/
def middleDef : StructDef (List Bool) where
  shape := .named
  fields := [{ plainField "inner".toList innerDef.dict with
    idents := [], flatten := some ⟨true, none⟩, flatNamed := innerDef.flatNamed }]
  default := none
  transparent := none
  allowUnknown := none
  andThens := []

/-- `struct Outer { #[deluxe(flatten(prefix = x))] middle: Middle }` -/
def outerDef : StructDef (List (List Bool)) where
  shape := .named
  fields := [{ plainField "middle".toList middleDef.dict with
    idents := [], flatten := some ⟨true, some "x".toList⟩, flatNamed := middleDef.flatNamed }]
  default := none
  transparent := none
  allowUnknown := none
  andThens := []

/-- C40 fails for a flattened field without prefix in a structure that is parsed with a prefix: `Outer`
advertises the key `x::a`, but on `x::a = true` it reports `a` as missing; and on `a = true` the
innermost structure, although below the prefix `x`, takes the unprefixed key, which the
outermost rejects if keys are checked. -/
theorem c40_nested_violated :
    Field.fieldNames outerDef.fields = ["x::a".toList] ∧
    (outerDef.flatNamed.parse (.named 0) [] true
      [⟨[.ident "x".toList 1, .punct ':' true 2, .punct ':' false 3, .ident "a".toList 4,
        .punct '=' false 5, .ident "true".toList 6], 9, none⟩]).1 =
      .err (missingFieldError "`a`".toList 0) ∧
    (outerDef.flatNamed.parse (.named 0) [] false
      [⟨[.ident "a".toList 4, .punct '=' false 5, .ident "true".toList 6], 9, none⟩]).1 =
      .ok [[[true]]] ∧
    ∃ e, (outerDef.flatNamed.parse (.named 0) [] true
      [⟨[.ident "a".toList 4, .punct '=' false 5, .ident "true".toList 6], 9, none⟩]).1 = .err e := by
  refine ⟨rfl, rfl, rfl, _, rfl⟩

/-- C39 and C40: flattening with a prefix and one level works. -/
example :
    let d : StructDef (List Bool) := { middleDef with fields := middleDef.fields.map fun f =>
      { f with flatten := some ⟨true, some "x".toList⟩ } }
    (d.flatNamed.parse (.named 0) [] true
      [⟨[.ident "x".toList 1, .punct ':' true 2, .punct ':' false 3, .ident "a".toList 4,
        .punct '=' false 5, .ident "true".toList 6], 9, none⟩]).1 = .ok [[true]] := rfl

end

end Deluxe
