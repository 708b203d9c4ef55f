import Verif.Props.ScopeTypes
import Verif.Props.Containers

/-!
# C96, C97: concrete cases
-/

namespace Deluxe
variable [Env]

/-- `#[deluxe(and_then = f)] T` -/
def thenIn : FieldIn := ⟨none, [deluxeList [.ident (txt "and_then") 2, .punct '=' false 3, .ident (txt "f") 4]]⟩

/-- `#[deluxe(transparent)] struct S(#[deluxe(and_then = f)] T);` -/
def transparentThen : StructIn := ⟨.unnamed, [thenIn], [deluxeList [.ident (txt "transparent") 5]]⟩

/-- C96 does not hold for all structures: all derives accept `#[deluxe(transparent)] struct S(#[deluxe(and_then = f)] T);`
without an error, and the code uses `errors`, which does not exist. -/
theorem c96_transparent_violated (which : Derive) : ∃ out r,
    deriveMacro demoLib .itself which (.ok (.struct transparentThen)) = .ok out ∧ out.errors = [] ∧
    transparentThen.read demoLib = .ok r ∧ ¬ ∀ g ∈ (Decl.struct r).fns which, g.Resolves := by
  have hr : ∃ r, transparentThen.read demoLib = .ok r ∧ r.isTransparent = true ∧ HasAndThen r.fields :=
    ⟨_, rfl, rfl, _, List.mem_cons_self .., _, List.mem_cons_self ..⟩
  obtain ⟨r, h1, h2, h3⟩ := hr
  have hn : ¬ ∀ g ∈ (Decl.struct r).fns which, g.Resolves := fun h =>
    (c96_struct h1 (by simp [ShapeIs, transparentThen, thenIn]) which).1 h ⟨h2, h3⟩
  cases which with
  | metaItem => exact ⟨_, r, rfl, rfl, h1, hn⟩
  | attrs m => cases m <;> exact ⟨_, r, rfl, rfl, h1, hn⟩

/-- `#[deluxe(flatten, transparent)] V { x: T }` -/
def flatTransparent : VariantIn := ⟨(txt "V", 10), 10, .named, [⟨some (txt "x", 11), []⟩],
  [deluxeList [.ident (txt "flatten") 12, .punct ',' false 13, .ident (txt "transparent") 14]]⟩

/-- C96 does not hold for all enums: all derives accept `enum E { #[deluxe(flatten, transparent)] V { x: T } }` without an
error, and the code uses `input`, which does not exist there. -/
theorem c96_variant_violated (which : Derive) : ∃ out r,
    deriveMacro demoLib .itself which (.ok (.enum ⟨[flatTransparent], []⟩)) = .ok out ∧ out.errors = [] ∧
    EnumIn.read demoLib ⟨[flatTransparent], []⟩ = .ok r ∧ ¬ ∀ g ∈ (Decl.enum r).fns which, g.Resolves := by
  have hr : ∃ r, EnumIn.read demoLib ⟨[flatTransparent], []⟩ = .ok r ∧ (r.variants.any (·.genPanics)) = false ∧
      ∃ v ∈ r.variants, v.isSkipped = false ∧ v.isFlatten = true ∧ v.transparent = some true :=
    ⟨_, rfl, rfl, _, List.mem_cons_self .., rfl, rfl, rfl⟩
  obtain ⟨r, h1, h2, h3⟩ := hr
  have hn : ¬ ∀ g ∈ (Decl.enum r).fns which, g.Resolves := fun h =>
    (c96_enum h1 (by simp [ShapeIs, flatTransparent]) h2 which).1 h h3
  cases which with
  | metaItem => exact ⟨_, r, rfl, rfl, h1, hn⟩
  | attrs m => cases m <;> exact ⟨_, r, rfl, rfl, h1, hn⟩

/-- `#[deluxe(flatten, map = f)] x: T` -/
def flatMap : FieldIn := ⟨some (txt "x", 1), [deluxeList [.ident (txt "flatten") 2, .punct ',' false 3,
  .ident (txt "map") 4, .punct '=' false 5, .ident (txt "f") 6]]⟩

/-- C97 does not hold for all structures: all derives accept `struct S { #[deluxe(flatten, map = f)] x: T }` without an
error, and the code calls a function of a type that is left open. -/
theorem c97_flatten_violated (which : Derive) : ∃ out r,
    deriveMacro demoLib .itself which (.ok (.struct ⟨.named, [flatMap], []⟩)) = .ok out ∧ out.errors = [] ∧
    StructIn.read demoLib ⟨.named, [flatMap], []⟩ = .ok r ∧ ¬ ∀ g ∈ (Decl.struct r).fns which, g.Typed := by
  have hr : ∃ r, StructIn.read demoLib ⟨.named, [flatMap], []⟩ = .ok r ∧ r.isTransparent = false ∧
      ∃ f ∈ r.fields, f.isParsable = true ∧ f.isFlatten = true ∧ ∃ t ts, f.transforms = t :: ts :=
    ⟨_, rfl, rfl, _, List.mem_cons_self .., rfl, rfl, _, _, rfl⟩
  obtain ⟨r, h1, h2, f, h3, h4, h5, t, ts, h6⟩ := hr
  have hn : ¬ ∀ g ∈ (Decl.struct r).fns which, g.Typed := fun h => by
    rcases (c97_struct h1 (by simp [ShapeIs, flatMap]) which).1 h with h | h
    · simp [h2] at h
    · have := h.1 f h3 h4 h5
      simp [h6] at this
  cases which with
  | metaItem => exact ⟨_, r, rfl, rfl, h1, hn⟩
  | attrs m => cases m <;> exact ⟨_, r, rfl, rfl, h1, hn⟩

/-- `#[deluxe(flatten)] V { y: U, #[deluxe(flatten(prefix = p))] x: T }` -/
def flatPrefix : VariantIn := ⟨(txt "V", 10), 10, .named, [⟨some (txt "y", 20), []⟩,
    ⟨some (txt "x", 11), [deluxeList [.ident (txt "flatten") 2, .group .paren [.ident (txt "prefix") 3, .punct '=' false 4,
      .ident (txt "p") 5] 6 7]]⟩],
  [deluxeList [.ident (txt "flatten") 12]]⟩

/-- C97 does not hold for all enums: all derives accept
`enum E { #[deluxe(flatten)] V { y: U, #[deluxe(flatten(prefix = p))] x: T } }` without an error, and the code puts the names
with the prefix in a variable of another type. -/
theorem c97_prefix_violated (which : Derive) : ∃ out r,
    deriveMacro demoLib .itself which (.ok (.enum ⟨[flatPrefix], []⟩)) = .ok out ∧ out.errors = [] ∧
    EnumIn.read demoLib ⟨[flatPrefix], []⟩ = .ok r ∧ ¬ ∀ g ∈ (Decl.enum r).fns which, g.Typed := by
  have hr : ∃ r, EnumIn.read demoLib ⟨[flatPrefix], []⟩ = .ok r ∧
      ∃ v ∈ r.variants, v.isFlatten = true ∧ ∃ f ∈ v.fields, ∃ x, f.flatten = some x ∧ x.value = true ∧
        ∃ p, x.pre = some p :=
    ⟨_, rfl, _, List.mem_cons_self .., rfl, _, List.mem_cons_of_mem _ (List.mem_cons_self ..), _, rfl, rfl, _, rfl⟩
  obtain ⟨r, h1, v, h2, h3, f, h4, x, h5, h6, p, h7⟩ := hr
  have hn : ¬ ∀ g ∈ (Decl.enum r).fns which, g.Typed := fun h => by
    have := ((c97_enum h1 (by simp [ShapeIs, flatPrefix]) which).1 h).2 v h2 h3 f h4 x h5 h6
    simp [h7] at this
  cases which with
  | metaItem => exact ⟨_, r, rfl, rfl, h1, hn⟩
  | attrs m => cases m <;> exact ⟨_, r, rfl, rfl, h1, hn⟩

/-- `struct S { a: A, #[deluxe(flatten)] b: B, #[deluxe(and_then = f)] c: C }` -/
def mixedStruct : StructIn := ⟨.named, [⟨some (txt "a", 1), []⟩, ⟨some (txt "b", 2), [deluxeList [.ident (txt "flatten") 3]]⟩,
  ⟨some (txt "c", 4), [deluxeList [.ident (txt "and_then") 5, .punct '=' false 6, .ident (txt "f") 7]]⟩], []⟩

/-- C96, C97: the code for `mixedStruct`, with a flattened field and a transformed one, resolves and has types. -/
example (which : Derive) : ∃ r, mixedStruct.read demoLib = .ok r ∧
    (∀ g ∈ (Decl.struct r).fns which, g.Resolves) ∧ ∀ g ∈ (Decl.struct r).fns which, g.Typed := by
  have hr : ∃ r, mixedStruct.read demoLib = .ok r ∧ r.isTransparent = false ∧ r.shape = .named ∧
      ∀ f ∈ r.fields, f.isFlatten = true → f.transforms = [] := by
    refine ⟨_, rfl, rfl, rfl, fun f hf h => ?_⟩
    rcases List.mem_cons.1 hf with rfl | hf
    · rfl
    · rcases List.mem_cons.1 hf with rfl | hf
      · rfl
      · rcases List.mem_cons.1 hf with rfl | hf
        · cases h
        · cases hf
  obtain ⟨r, h1, h2, h3, h4⟩ := hr
  have hw : ShapeIs mixedStruct.shape mixedStruct.fields := by simp [ShapeIs, mixedStruct]
  exact ⟨r, h1, (c96_struct h1 hw which).2 (by simp [h2]), (c97_struct h1 hw which).2
    (.inr ⟨fun f hf _ h => h4 f hf h, by simp [h3]⟩)⟩

/-- `enum E { #[deluxe(flatten)] V { y: U, #[deluxe(flatten)] x: T }, #[deluxe(transparent)] W(T) }` -/
def mixedEnum : EnumIn := ⟨[⟨(txt "V", 10), 10, .named, [⟨some (txt "y", 20), []⟩,
      ⟨some (txt "x", 11), [deluxeList [.ident (txt "flatten") 2]]⟩], [deluxeList [.ident (txt "flatten") 12]]⟩,
    ⟨(txt "W", 13), 13, .unnamed, [⟨none, []⟩], [deluxeList [.ident (txt "transparent") 14]]⟩], []⟩

/-- C96, C97: the code for `mixedEnum`, with a flattened variant and a transparent one, resolves and has types. -/
example (which : Derive) : ∃ r, mixedEnum.read demoLib = .ok r ∧
    (∀ g ∈ (Decl.enum r).fns which, g.Resolves) ∧ ∀ g ∈ (Decl.enum r).fns which, g.Typed := by
  have hr : ∃ r v w, mixedEnum.read demoLib = .ok r ∧ r.variants = [v, w] ∧ (r.variants.any (·.genPanics)) = false ∧
      v.transparent = none ∧ v.shape = .named ∧ w.isFlatten = false ∧ w.transparent = some true ∧
      ∃ f g, v.fields = [f, g] ∧ f.transforms = [] ∧ g.transforms = [] ∧ f.flatten = none ∧
        ∃ x, g.flatten = some x ∧ x.pre = none :=
    ⟨_, _, _, rfl, rfl, rfl, rfl, rfl, rfl, rfl, _, _, rfl, rfl, rfl, rfl, _, rfl, rfl⟩
  obtain ⟨r, v, w, h1, h2, h3, h4, h5, h6, h7, f, g, h8, h9, h10, h11, x, h12, h13⟩ := hr
  have hw : ∀ v ∈ mixedEnum.variants, ShapeIs v.shape v.fields := by simp [ShapeIs, mixedEnum]
  refine ⟨r, h1, (c96_enum h1 hw h3 which).2 ?_, (c97_enum h1 hw which).2 ⟨?_, ?_⟩⟩
  · simp [h2, h4, h6]
  · simp [h2, h4, h5, h7, FlatPlain, h8, h9, h10]
  · simp [h2, NoPrefixes, h6, h8, h11, h12, h13]

end Deluxe
