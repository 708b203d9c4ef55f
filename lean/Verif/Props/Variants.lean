import Verif.Props.Transparent
import Verif.Props.EnumKeys
import Verif.Props.With
/-!
# C78: the value of a variant is written like a structure with the same fields

macros/types/variant.rs:55-216.
-/
namespace Deluxe

variable {V : Type}

/-- The structure with the fields and attributes of the variant. -/
def Variant.asStruct (v : Variant V) : StructDef V where
  shape := v.shape
  fields := v.fields
  default := none
  transparent := v.transparent
  allowUnknown := v.allowUnknown
  andThens := []

section
variable [Env]

omit [Env] in
theorem runAndThens_nil {α : Type} (r : Res α) : runAndThens [] r = r := by cases r <;> rfl

omit [Env] in
theorem mapRes_nil {σ α : Type} (m : M σ α) : m.mapRes (runAndThens []) = m := by
  funext s
  simp only [M.mapRes, runAndThens_nil]

omit [Env] in
/-- A positional flattened field that leaves an empty input as it is. -/
def Field.LeavesEmpty (f : Field V) : Prop :=
  ∀ i sc, ∃ s' r, (f.flatUnnamed.parse .unnamed i [⟨[], sc, none⟩]) = (r, [s']) ∧ s'.toks = [] ∧ s'.unexp = none

omit [Env] in
/-- Then the place where leftovers are reported is not used. -/
theorem emptyFlat_span {f : Field V} (h : f.LeavesEmpty) (sp sp' : Span) (i : Nat) :
    emptyFlat sp f i = emptyFlat sp' f i := by
  obtain ⟨s', r, h1, h2, h3⟩ := h i callSite
  simp only [emptyFlat, parseEmpty, parse2, h1]
  cases r <;> simp [h2, h3]

theorem missingUnnamed_emptySpan (d : Fields V) (sp : Span) (mode : Mode) (l : List Stream) (fs : List (Field V))
    (h : ∀ f ∈ fs, f.isFlat = true → f.LeavesEmpty) (sts : Slots V) (errs : Errors) (index cur extra : Nat) :
    missingUnnamed { d with emptySpan := sp } mode l fs sts errs index cur extra =
      missingUnnamed d mode l fs sts errs index cur extra := by
  induction fs generalizing sts errs index cur extra with
  | nil => cases sts <;> rfl
  | cons f fs ih =>
    cases sts with
    | nil => rfl
    | cons st sts =>
      have ih := fun sts errs index cur extra => ih (fun g hg => h g (by simp [hg])) sts errs index cur extra
      cases hf : f.isFlat with
      | false =>
        simp only [missingUnnamed, hf, ih, Bool.false_eq_true, if_false]
        rfl
      | true =>
        simp only [missingUnnamed, hf, ih, if_true, emptyFlat_span (h f (by simp) hf) sp d.emptySpan]
        rfl

theorem unnamedFlat_emptySpan (d : Fields V) (sp : Span) (h : ∀ f ∈ d.fields, f.isFlat = true → f.LeavesEmpty)
    (mode : Mode) (index : Nat) : unnamedFlat { d with emptySpan := sp } mode index = unnamedFlat d mode index := by
  funext l
  have hp : ∀ l slots index errs, postUnnamed { d with emptySpan := sp } mode l slots index errs =
      postUnnamed d mode l slots index errs := by
    intro l slots index errs
    simp only [postUnnamed]
    rw [missingUnnamed_emptySpan d sp mode l d.fields h]
    rfl
  simp only [unnamedFlat, hp]
  rfl

omit [Env] in
/-- Named fields do not use it at all. -/
theorem missingPass_emptySpan (d : Fields V) (sp : Span) (pre : Str) (span : Span) (fs : List (Field V)) (sts : Slots V)
    (errs : Errors) :
    missingPass { d with emptySpan := sp } pre span fs sts errs = missingPass d pre span fs sts errs := by
  induction fs generalizing sts errs with
  | nil => cases sts <;> rfl
  | cons f fs ih =>
    cases sts with
    | nil => rfl
    | cons st sts =>
      simp only [missingPass, ih]
      rfl

theorem namedFlat_emptySpan (d : Fields V) (sp : Span) (allowed : List Str) (mode : Mode) (pre : Str) (validate : Bool) :
    namedFlat { d with emptySpan := sp } allowed mode pre validate = namedFlat d allowed mode pre validate := by
  funext l
  have hp : ∀ span slots errs, postNamed { d with emptySpan := sp } pre span slots errs =
      postNamed d pre span slots errs := by
    intro span slots errs
    simp only [postNamed]
    rw [missingPass_emptySpan d sp]
    rfl
  simp only [namedFlat, hp]
  rfl

/-- C78: in an enum that is not flattened with a prefix, what follows the name of a variant is read exactly as what
follows the name of a field whose type is the structure with the same fields: the same forms, the same values, the same
errors, the same tokens.  (Flattened fields of tuple variants must not leave something behind when there is nothing: this
is reported at different places.) -/
theorem c78_same_partial (v : Variant V) (ht' : v.isTransparent = false)
    (hu : v.shape = .unnamed → ∀ f ∈ v.fields, f.isFlat = true → f.LeavesEmpty) (p name : Str) (sp : Span) :
    v.item .meta [] p sp = v.asStruct.dict.named name sp := by
  have ht : v.asStruct.isTransparent = false := by
    have : v.transparent.getD false = false := ht'
    simp [StructDef.isTransparent, Variant.asStruct, this]
  simp only [Variant.item, ht', Bool.false_eq_true, if_false, parseNamedWith_eq]
  cases hs : v.shape with
  | named =>
    have e1 : ∀ mode, v.inline .meta [] sp mode = v.asStruct.flatNamed.parse mode [] (!v.asStruct.acceptsAll) := by
      intro mode
      simp only [Variant.inline, hs, StructDef.flatNamed]
      rw [show v.asStruct.andThens = [] from rfl, mapRes_nil]
      have : v.data .meta sp = { v.asStruct.data with emptySpan := sp } := by
        simp only [Variant.data, StructDef.data, ht, ht']; rfl
      rw [this, namedFlat_emptySpan]
      rfl
    have hd : v.asStruct.dict.named name sp = parseNamedMetaItem
        (fun mode => parseDelimitedWith .brace (single (v.asStruct.flatNamed.parse mode [] (!v.asStruct.acceptsAll))))
        (fun mode => v.asStruct.flatNamed.parse mode [] (!v.asStruct.acceptsAll))
        (fun sp => parseEmpty sp (single (v.asStruct.flatNamed.parse (.named sp) [] (!v.asStruct.acceptsAll)))) sp := by
      unfold StructDef.dict
      rw [ht, show v.asStruct.shape = .named from hs]
      rfl
    rw [hd]
    funext s
    simp only [Variant.parse, Variant.flag, hs, parseNamedMetaItem, funext e1]
  | unnamed =>
    have e1 : ∀ mode, v.inline .meta [] sp mode = v.asStruct.flatUnnamed.parse mode 0 := by
      intro mode
      have : v.data .meta sp = { v.asStruct.data with emptySpan := sp } := by
        simp only [Variant.data, StructDef.data, ht, ht']; rfl
      simp only [Variant.inline, hs, this]
      rw [unnamedFlat_emptySpan _ _ (hu hs)]
      have : v.asStruct.flatUnnamed.parse mode 0 = (unnamedFlat v.asStruct.data mode 0).mapRes (runAndThens []) := by
        simp only [StructDef.flatUnnamed, show v.asStruct.shape = .unnamed from hs]; rfl
      rw [this, mapRes_nil]
    have hd : v.asStruct.dict.named name sp = parseNamedMetaItem
        (fun mode => parseDelimitedWith .paren (single (v.asStruct.flatUnnamed.parse mode 0)))
        (fun mode => v.asStruct.flatUnnamed.parse mode 0)
        (fun sp => if (v.fields.filter (·.isParsable)).all (fun f => f.isFlat || f.default.isSome) then
            parseEmpty sp (single (v.asStruct.flatUnnamed.parse .unnamed 0))
          else .err (flagDisallowedError sp)) sp := by
      unfold StructDef.dict
      rw [ht, show v.asStruct.shape = .unnamed from hs]
      rfl
    rw [hd]
    funext s
    simp only [Variant.parse, Variant.flag, hs, parseNamedMetaItem, funext e1]
  | unit =>
    have hd : v.asStruct.dict.named name sp = parseNamedMetaItem
        (fun _ => parseDelimitedWith .paren (single (fun l => (.ok [], l))))
        (fun _ l => (.ok [], l)) (fun _ => .ok []) sp := by
      unfold StructDef.dict
      rw [ht, show v.asStruct.shape = .unit from hs]
      rfl
    rw [hd]
    funext s
    have e1 : ∀ mode, v.inline .meta [] sp mode = fun l => (.ok [], l) := by
      intro mode
      simp only [Variant.inline, hs]
      rfl
    simp only [Variant.parse, Variant.flag, hs, parseNamedMetaItem, funext e1]

/-- C78 for a transparent variant: what follows its name is read as the value of its field, with the name of the variant;
the variant has this value after the `map` functions of the field, and the defaults of the others. -/
theorem c78_transparent (v : Variant V) (site : Site V) (ha : v.Accepted site) (ht : v.isTransparent = true)
    (hm : ∀ f ∈ v.fields, f.MapsOnly) (pre p : Str) (sp : Span) :
    ∃ k f, v.fields[k]? = some f ∧ f.isParsable = true ∧ ∀ s,
      (v.item site pre p sp s).2 = (f.item.named p sp s).2 ∧
        Gives v.asStruct site.obj k (f.item.named p sp s).1 (v.item site pre p sp s).1 := by
  obtain ⟨hnf, hone, hflat⟩ := ha.transparent ht
  cases hfind : v.fields.zipIdx.find? fun x => x.1.isParsable && !x.1.isFlat with
  | none =>
    rw [List.find?_eq_none] at hfind
    obtain ⟨f, hf, hp⟩ := List.countP_pos_iff.1 (show 0 < v.fields.countP (·.isParsable) by omega)
    obtain ⟨k, hk⟩ := List.mem_iff_getElem?.1 hf
    exact absurd (by simp [hp, hflat f hf hp]) (hfind (f, k) (List.mem_zipIdx_iff_getElem?.2 hk))
  | some x =>
    obtain ⟨f, k⟩ := x
    have hk : v.fields[k]? = some f := by
      simpa using List.mem_zipIdx_iff_getElem?.1 (List.mem_of_find?_eq_some hfind)
    have hp : f.isParsable = true := by
      have := List.find?_some hfind
      simp only [Bool.and_eq_true] at this
      exact this.1
    refine ⟨k, f, hk, hp, fun s => ?_⟩
    simp only [Variant.item, ht, if_true, hfind, M.mapRes]
    refine ⟨trivial, ?_⟩
    cases (f.item.named p sp s).1 with
    | panic => rfl
    | err e => rfl
    | ok x =>
      have hlt : k < v.fields.length := (List.getElem?_eq_some_iff.1 hk).1
      obtain ⟨ws, hw, hws⟩ := wrapped_of_finish (d := v.asStruct) (obj := site.obj) (k := k) (v := x)
        (slots := List.zipWith (containerSet (v.data site sp)) v.fields ((v.data site sp).init.set k (.some x))) hm
        (by simp [Fields.init, Variant.data, Variant.asStruct])
        (fun i g hg => by
          have hg : v.fields[i]? = some g := hg
          unfold plainSlot
          rw [List.getElem?_zipWith, hg]
          by_cases hik : i = k
          · subst hik
            rw [if_pos rfl, List.getElem?_set_self (by simpa [Fields.init, Variant.data] using hlt)]
            rw [hk] at hg
            cases hg
            have hc : f.isContainer = false := by
              simp only [Field.isParsable, Bool.and_eq_true, Bool.not_eq_true'] at hp
              exact hp.1
            simp only [containerSet, hc, Variant.data]
            cases site.obj <;> rfl
          · rw [if_neg hik, List.getElem?_set_ne (Ne.symm hik)]
            simp only [Fields.init, Variant.data, List.getElem?_map, hg, Option.map_some, containerSet]
            cases g.isContainer <;> cases site.obj <;> rfl)
        (fun i g hg hik => by
          have hg : v.fields[i]? = some g := hg
          have hno : g.isParsable = false := by
            cases hq : g.isParsable with
            | false => rfl
            | true => exact absurd (countP_one_unique hone hg hq hk hp) hik
          rcases ha.filled g (List.mem_of_getElem? hg) hno with h | h
          · exact .inl h
          · exact .inr (.inr h))
        (fun t ht => by simp [Variant.asStruct] at ht)
      refine ⟨ws, hw, ?_⟩
      have he : ∀ slots, (setPass v.fields slots Errors.new).2 = Errors.new := fun slots => by rw [setPass_maps hm]
      simp only [Variant.transparentPost]
      rw [show v.asStruct.fields = v.fields from rfl, he] at hws
      exact hws

/-! ## Where it is not so -/

/-- `enum E { A { x: bool } }` -/
def oneNamed : EnumDef Bool where
  variants := [boolVariant "A" ["a"] false [("x", none)]]
  default := none
  allowUnknown := none
  andThens := []

/-- `p::a(x = true)` or, with the prefix, `p::a(p::x = true)` -/
def prefixedVariant (inner : Bool) : Stream :=
  ⟨[.ident "p".toList 1, .punct ':' true 1, .punct ':' false 1, .ident "a".toList 1, .group .paren
    ((if inner then [.ident "p".toList 2, .punct ':' true 2, .punct ':' false 2] else []) ++
      [.ident "x".toList 2, .punct '=' false 3, .ident "true".toList 4]) 5 6], 9, none⟩

/-- C78 does not hold in an enum that is flattened with `prefix = p`: there the fields in the parentheses need the
prefix too, `p::a(p::x = true)`, and `p::a(x = true)` is an error because `x` is missing. -/
theorem c78_prefix_violated :
    (oneNamed.flatNamed.parse (.named 0) "p::".toList false [prefixedVariant true]).1 = .ok (0, [true]) ∧
    ∃ e sp, (oneNamed.flatNamed.parse (.named 0) "p::".toList false [prefixedVariant false]).1 = .err e ∧
      e.toList = [⟨sp, .missingField "`p::x`".toList⟩] :=
  ⟨rfl, _, _, rfl, rfl⟩

/-! ## Examples -/

/-- `enum E { #[deluxe(transparent)] T { x: bool, #[deluxe(skip, default = false)] y: bool } }` -/
def mappedVariant : Variant Bool :=
  { boolVariant "T" ["t"] false [] with
    transparent := some true
    fields := [{ plainField "x".toList boolDict with transforms := [.map not] },
      { plainField "y".toList boolDict with idents := [], skip := some true, default := some false }] }

omit [Env] in
/-- The hypotheses of `c78_transparent` hold for it. -/
theorem mappedVariant_fine : mappedVariant.Accepted .meta ∧
    ∀ f ∈ mappedVariant.fields, f.MapsOnly := by
  refine ⟨⟨fun f hf hp => ?_, fun hs => (by cases hs), fun _ => ⟨rfl, rfl, fun f hf hp => ?_⟩, fun h => (by cases h)⟩,
    fun f hf t ht => ?_⟩ <;>
    simp only [mappedVariant, List.mem_cons, List.not_mem_nil, or_false] at hf <;> rcases hf with rfl | rfl
  · cases hp
  · exact .inl rfl
  · rfl
  · cases hp
  · simp only [List.mem_cons, List.not_mem_nil, or_false] at ht
    exact ⟨_, ht⟩
  · cases ht

/-- `t = true` is the variant with `x = false`, which is `true` after `map = not`, and `y = false`. -/
example : (mappedVariant.item .meta [] "t".toList 1
    ⟨[.punct '=' false 2, .ident "true".toList 3], 9, none⟩).1 = .ok [false, false] := rfl

/-- `enum E { A(#[deluxe(flatten)] Vec<bool>) }` -/
def tupleVariant : Variant (List Bool) where
  ident := "A".toList
  shape := .unnamed
  fields := [{ plainField [] (boolDict.map fun b => [b]) with
    ident := none, idents := [], flatten := some ⟨true, none⟩, flatUnnamed := seqFlat boolDict }]
  idents := ["a".toList]
  flatten := none
  transparent := none
  skip := none
  allowUnknown := none

/-- The hypotheses of `c78_same_partial` hold for it. -/
example (p name : Str) (sp : Span) :
    tupleVariant.item .meta [] p sp = tupleVariant.asStruct.dict.named name sp :=
  c78_same_partial tupleVariant rfl (fun _ f hf _ => by
    simp only [tupleVariant, List.mem_cons, List.not_mem_nil, or_false] at hf
    subst hf
    exact fun i sc => ⟨_, _, rfl, rfl, rfl⟩) p name sp

end
end Deluxe
