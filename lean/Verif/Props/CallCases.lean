import Verif.Props.Calls
/-!
# C104: what is left out of the theorems, and concrete cases
-/
namespace Deluxe
variable [Env]

omit [Env] in
/-- The type of a flattened field with a name has to implement `ParseMetaFlatNamed`, also if the field has `with`, `map` or
`and_then`, or is skipped: the code for every structure that does not allow unknown fields some other way uses its
`ACCEPTS_ALL`. -/
theorem c104_flatten_type {r : StructDecl} (hs : r.shape = .named) (ht : r.isTransparent = false)
    (hu : r.allowUnknown.getD false = false) (hr : (r.fields.any (·.isRest)) = false) {i : Nat} {f : FieldDecl}
    (hi : r.fields[i]? = some f) (hf : f.isFlatten = true) (which : Derive) :
    ⟨i, .type, .acceptsAll⟩ ∈ r.calls which := by
  have hall : ∀ (fields : List FieldDecl) (g : FieldDecl), (fields.any (·.isRest)) = false → fields[i]? = some g →
      g.isFlatten = true → (⟨i, .type, .acceptsAll⟩ : Call) ∈ r.acceptsAllCalls fields := by
    intro fields g hr hi hf
    unfold StructDecl.acceptsAllCalls acceptsAllCalls
    simp only [hu, hr, Bool.false_eq_true, if_false]
    exact mem_perFieldCalls.2 ⟨i, g, hi, by simp [hf]⟩
  cases which with
  | metaItem =>
    change _ ∈ r.metaCalls
    unfold StructDecl.metaCalls
    simp only [ht, hs, Bool.false_eq_true, if_false]
    refine List.mem_append_left _ (List.mem_append_left _ (List.mem_append_right _ ?_))
    refine hall _ (fillContainer f) ?_ (by rw [List.getElem?_map, hi]; rfl) (by rw [(fillContainer_keeps f).1]; exact hf)
    rw [List.any_map, ← hr]
    congr 1
    funext g
    simp only [Function.comp, FieldDecl.isRest, (fillContainer_same g).2.2.1]
  | attrs m =>
    change _ ∈ r.attrCalls
    unfold StructDecl.attrCalls
    rw [if_pos hs]
    exact List.mem_append_left _ (List.mem_append_left _ (List.mem_append_right _ (hall _ f hr hi hf)))

omit [Env] in
theorem not_documented {role : TraitFn → Prop} {f : FieldDecl} {i : Nat} {s : CallSource} {fn : TraitFn}
    (h : f.isParsable = false ∨ f.source ≠ s) (h1 : fn ≠ .default) (h2 : fn ≠ .container) :
    ¬ Documented role f ⟨i, s, fn⟩ := by
  rintro (⟨h3, h4, -⟩ | ⟨h3, -⟩ | ⟨h3, -⟩)
  · rcases h with h | h
    · rw [h] at h3; cases h3
    · exact h h4.symm
  · exact h1 h3
  · exact h2 h3

/-- `#[deluxe(flatten, with = m)] x: T` -/
def flatWith : FieldIn := ⟨some (txt "x", 1), [deluxeList [.ident (txt "flatten") 2, .punct ',' false 3,
  .ident (txt "with") 4, .punct '=' false 5, .ident (txt "m") 6]]⟩

/-- C104 does not hold for all structures: all derives accept `struct S { #[deluxe(flatten, with = m)] x: T }` without an
error, and the code uses the trait `ParseMetaFlatNamed` of `T`. -/
theorem c104_flatten_with_violated (which : Derive) : ∃ out r f c,
    deriveMacro demoLib .itself which (.ok (.struct ⟨.named, [flatWith], []⟩)) = .ok out ∧ out.errors = [] ∧
    StructIn.read demoLib ⟨.named, [flatWith], []⟩ = .ok r ∧ c ∈ r.calls which ∧ r.fields[c.field]? = some f ∧
    f.source = .module ∧ c.src = .type ∧ ¬ Documented (r.Role f) f c := by
  have hr : ∃ r f, StructIn.read demoLib ⟨.named, [flatWith], []⟩ = .ok r ∧ r.shape = .named ∧ r.isTransparent = false ∧
      r.allowUnknown.getD false = false ∧ (r.fields.any (·.isRest)) = false ∧ r.fields[0]? = some f ∧
      f.isFlatten = true ∧ f.source = .module :=
    ⟨_, _, rfl, rfl, rfl, rfl, rfl, rfl, rfl, rfl⟩
  obtain ⟨r, f, h1, h2, h3, h4, h5, h6, h7, h8⟩ := hr
  have hc := c104_flatten_type h2 h3 h4 h5 h6 h7 which
  have hn : ¬ Documented (r.Role f) f ⟨0, .type, .acceptsAll⟩ :=
    not_documented (.inr (by rw [h8]; exact fun h => nomatch h)) (fun h => nomatch h) (fun h => nomatch h)
  cases which with
  | metaItem => exact ⟨_, r, f, _, rfl, rfl, h1, hc, h6, h8, rfl, hn⟩
  | attrs m => cases m <;> exact ⟨_, r, f, _, rfl, rfl, h1, hc, h6, h8, rfl, hn⟩

/-- `#[deluxe(skip, flatten)] x: T` -/
def skipFlat : FieldIn := ⟨some (txt "x", 1), [deluxeList [.ident (txt "skip") 2, .punct ',' false 3,
  .ident (txt "flatten") 4]]⟩

/-- C104 does not hold for all structures: all derives accept `struct S { #[deluxe(skip, flatten)] x: T }` without an
error, and the code uses the trait `ParseMetaFlatNamed` of `T` although the field is skipped. -/
theorem c104_skip_violated (which : Derive) : ∃ out r f c,
    deriveMacro demoLib .itself which (.ok (.struct ⟨.named, [skipFlat], []⟩)) = .ok out ∧ out.errors = [] ∧
    StructIn.read demoLib ⟨.named, [skipFlat], []⟩ = .ok r ∧ c ∈ r.calls which ∧ r.fields[c.field]? = some f ∧
    f.isSkipped = true ∧ c.fn = .acceptsAll ∧ ¬ Documented (r.Role f) f c := by
  have hr : ∃ r f, StructIn.read demoLib ⟨.named, [skipFlat], []⟩ = .ok r ∧ r.shape = .named ∧ r.isTransparent = false ∧
      r.allowUnknown.getD false = false ∧ (r.fields.any (·.isRest)) = false ∧ r.fields[0]? = some f ∧
      f.isFlatten = true ∧ f.isSkipped = true ∧ f.isParsable = false :=
    ⟨_, _, rfl, rfl, rfl, rfl, rfl, rfl, rfl, rfl, rfl⟩
  obtain ⟨r, f, h1, h2, h3, h4, h5, h6, h7, h8, h9⟩ := hr
  have hc := c104_flatten_type h2 h3 h4 h5 h6 h7 which
  have hn : ¬ Documented (r.Role f) f ⟨0, .type, .acceptsAll⟩ :=
    not_documented (.inl h9) (fun h => nomatch h) (fun h => nomatch h)
  cases which with
  | metaItem => exact ⟨_, r, f, _, rfl, rfl, h1, hc, h6, h8, rfl, hn⟩
  | attrs m => cases m <;> exact ⟨_, r, f, _, rfl, rfl, h1, hc, h6, h8, rfl, hn⟩

/-- `#[deluxe(map = f)] T` -/
def mapIn : FieldIn := ⟨none, [deluxeList [.ident (txt "map") 2, .punct '=' false 3, .ident (txt "f") 4]]⟩

/-- `#[deluxe(transparent)] struct S(#[deluxe(map = f)] T);` -/
def transparentMap : StructIn := ⟨.unnamed, [mapIn], [deluxeList [.ident (txt "transparent") 5]]⟩

/-- C104 does not hold for all structures: all derives accept `#[deluxe(transparent)] struct S(#[deluxe(map = f)] T);`
without an error, and the code parses the type `T` itself and not the one that `f` takes. -/
theorem c104_transparent_map_violated (which : Derive) : ∃ out r f c,
    deriveMacro demoLib .itself which (.ok (.struct transparentMap)) = .ok out ∧ out.errors = [] ∧
    transparentMap.read demoLib = .ok r ∧ c ∈ r.calls which ∧ r.fields[c.field]? = some f ∧
    f.source = .argument ∧ c = ⟨0, .type, .inline⟩ ∧ ¬ Documented (r.Role f) f c := by
  have hr : ∃ r f, transparentMap.read demoLib = .ok r ∧ r.fields[0]? = some f ∧ f.source = .argument ∧
      ⟨0, .type, .inline⟩ ∈ r.metaCalls ∧ ⟨0, .type, .inline⟩ ∈ r.attrCalls :=
    ⟨_, _, rfl, rfl, rfl, List.mem_cons_of_mem _ (List.mem_cons_self ..), List.mem_cons_self ..⟩
  obtain ⟨r, f, h1, h2, h3, h4, h5⟩ := hr
  have hn : ¬ Documented (r.Role f) f ⟨0, .type, .inline⟩ :=
    not_documented (.inr (by rw [h3]; exact fun h => nomatch h)) (fun h => nomatch h) (fun h => nomatch h)
  cases which with
  | metaItem => exact ⟨_, r, f, _, rfl, rfl, h1, h4, h2, h3, rfl, hn⟩
  | attrs m => cases m <;> exact ⟨_, r, f, _, rfl, rfl, h1, h5, h2, h3, rfl, hn⟩

/-- `#[deluxe(transparent)] V(#[deluxe(with = m)] T)` -/
def transparentWith : VariantIn := ⟨(txt "V", 10), 10, .unnamed, [⟨none, [deluxeList [.ident (txt "with") 2,
  .punct '=' false 3, .ident (txt "m") 4]]⟩], [deluxeList [.ident (txt "transparent") 12]]⟩

/-- C104 does not hold for all enums: all derives accept `enum E { #[deluxe(transparent)] V(#[deluxe(with = m)] T) }`
without an error, and the code uses `ParseMetaItem` of `T` and no function of `m` at all. -/
theorem c104_variant_with_violated (which : Derive) : ∃ out r v f c,
    deriveMacro demoLib .itself which (.ok (.enum ⟨[transparentWith], []⟩)) = .ok out ∧ out.errors = [] ∧
    EnumIn.read demoLib ⟨[transparentWith], []⟩ = .ok r ∧ r.variants = [v] ∧ v.fields = [f] ∧ f.source = .module ∧
    r.calls which = [(0, c)] ∧ c = ⟨0, .type, .named⟩ ∧ ¬ Documented (v.Role f) f c := by
  have hr : ∃ r v f, EnumIn.read demoLib ⟨[transparentWith], []⟩ = .ok r ∧ r.variants = [v] ∧ v.fields = [f] ∧
      f.source = .module ∧ ∀ which, r.calls which = [(0, ⟨0, .type, .named⟩)] :=
    ⟨_, _, _, rfl, rfl, rfl, rfl, fun which => by cases which <;> rfl⟩
  obtain ⟨r, v, f, h1, h2, h3, h4, h5⟩ := hr
  have hn : ¬ Documented (v.Role f) f ⟨0, .type, .named⟩ :=
    not_documented (.inr (by rw [h4]; exact fun h => nomatch h)) (fun h => nomatch h) (fun h => nomatch h)
  have h5 := h5 which
  cases which with
  | metaItem => exact ⟨_, r, v, f, _, rfl, rfl, h1, h2, h3, h4, h5, rfl, hn⟩
  | attrs m => cases m <;> exact ⟨_, r, v, f, _, rfl, rfl, h1, h2, h3, h4, h5, rfl, hn⟩

/-- `struct S { #[deluxe(with = m)] a: A, #[deluxe(flatten)] b: B, #[deluxe(map = f)] c: C, #[deluxe(skip)] d: D }` -/
def calledStruct : StructIn := ⟨.named, [
  ⟨some (txt "a", 1), [deluxeList [.ident (txt "with") 2, .punct '=' false 3, .ident (txt "m") 4]]⟩,
  ⟨some (txt "b", 5), [deluxeList [.ident (txt "flatten") 6]]⟩,
  ⟨some (txt "c", 7), [deluxeList [.ident (txt "map") 8, .punct '=' false 9, .ident (txt "f") 10]]⟩,
  ⟨some (txt "d", 11), [deluxeList [.ident (txt "skip") 12]]⟩], []⟩

/-- C104: all fields of `calledStruct` meet the conditions; there are calls from each of the sources. -/
example (which : Derive) : ∃ r, calledStruct.read demoLib = .ok r ∧ ShapeIs calledStruct.shape calledStruct.fields ∧
    (∀ f ∈ r.fields, r.Settled f) ∧
    r.calls which = [⟨1, .type, .fieldNames⟩, ⟨1, .type, .acceptsAll⟩, ⟨0, .module, .named⟩, ⟨2, .argument, .named⟩,
      ⟨1, .type, .flatNamed⟩, ⟨0, .module, .missing⟩, ⟨2, .argument, .missing⟩, ⟨3, .type, .default⟩] := by
  have hr : ∃ r a b c d, calledStruct.read demoLib = .ok r ∧ r.fields = [a, b, c, d] ∧ r.isTransparent = false ∧
      (a.isFlatten = false ∧ c.isFlatten = false ∧ d.isFlatten = false) ∧
      (b.with_ = none ∧ b.transforms = [] ∧ b.isParsable = true) ∧
      ∀ which, r.calls which = [⟨1, .type, .fieldNames⟩, ⟨1, .type, .acceptsAll⟩, ⟨0, .module, .named⟩,
        ⟨2, .argument, .named⟩, ⟨1, .type, .flatNamed⟩, ⟨0, .module, .missing⟩, ⟨2, .argument, .missing⟩,
        ⟨3, .type, .default⟩] :=
    ⟨_, _, _, _, _, rfl, rfl, rfl, ⟨rfl, rfl, rfl⟩, ⟨rfl, rfl, rfl⟩, fun which => by cases which <;> rfl⟩
  obtain ⟨r, a, b, c, d, h1, h2, h3, ⟨h4, h5, h6⟩, h7, h8⟩ := hr
  refine ⟨r, h1, by simp [ShapeIs, calledStruct], fun f hf => ⟨fun hfl => ?_, fun ht => by rw [h3] at ht; cases ht⟩, h8 which⟩
  rw [h2] at hf
  simp only [List.mem_cons, List.not_mem_nil, or_false] at hf
  rcases hf with rfl | rfl | rfl | rfl
  · rw [h4] at hfl; cases hfl
  · exact h7
  · rw [h5] at hfl; cases hfl
  · rw [h6] at hfl; cases hfl

/-- C104: the enum of C96, with a flattened variant and a transparent one, meets the conditions too. -/
example : ∃ r v w f g h, mixedEnum.read demoLib = .ok r ∧ (r.variants.any (·.genPanics)) = false ∧ r.variants = [v, w] ∧
    v.fields = [f, g] ∧ w.fields = [h] ∧ v.Settled f ∧ v.Settled g ∧ w.Settled h ∧
    (0, ⟨1, .type, .fieldNames⟩) ∈ r.calls .metaItem ∧ (r.calls .metaItem).getLast? = some (1, ⟨0, .type, .named⟩) := by
  refine ⟨_, _, _, _, _, _, rfl, rfl, rfl, rfl, rfl, ⟨fun h => ?_, fun h => ?_, fun h => ?_⟩,
    ⟨fun _ => ⟨rfl, rfl, rfl⟩, fun h => ?_, fun h => ?_⟩, ⟨fun h => ?_, fun h => ?_, fun _ => rfl⟩,
    List.mem_cons_self .., rfl⟩
  all_goals exact nomatch h

end Deluxe
