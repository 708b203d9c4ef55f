import Verif.Model.Glue
import Verif.Props.Defs
import Verif.Props.Transparent
/-!
# C73: what the derive macros emit
-/
namespace Deluxe

section
variable [Env]

/-- The derive reads the item as the definition `r`. -/
inductive AcceptedAs (lib : SynLib) : ItemIn → Decl → Prop
  | struct {d r} : d.read lib = .ok r → AcceptedAs lib (.struct d) (.struct r)
  | enum {d r} : d.read lib = .ok r → AcceptedAs lib (.enum d) (.enum r)

/-- The derive rejects the attributes of the item. -/
inductive RejectedWith (lib : SynLib) : ItemIn → SynErr → Prop
  | struct {d e} : d.read lib = .err e → RejectedWith lib (.struct d) e
  | enum {d e} : d.read lib = .err e → RejectedWith lib (.enum d) e

/-- `crate = ..` of a definition. -/
def Decl.crate : Decl → Option (List Tok)
  | .struct d => d.crate
  | .enum d => d.crate

/-- The path under which the crate is found: that of the attribute, or that of the dependency in `Cargo.toml`. -/
inductive CrateAt (found : FoundCrate) : Option (List Tok) → List Tok → Prop
  | given {p} : CrateAt found (some p) p
  | name {n} : found = .name n →
      CrateAt found none [.punct ':' true callSite, .punct ':' false callSite, .ident n callSite]
  | itself : found = .itself →
      CrateAt found none [.punct ':' true callSite, .punct ':' false callSite, .ident (txt "deluxe") callSite]

/-- Every variant that is transparent, and not skipped, has a field that takes the item. -/
def Decl.CanGenerate : Decl → Prop
  | .struct _ => True
  | .enum e => ∀ v ∈ e.variants, (∀ s, v.skip = some s → s.value = false) → v.transparent = some true →
      ∃ f ∈ v.fields, f.isContainer = false ∧ f.isSkipped = false ∧ f.isFlatten = false ∧ f.isAppend = false ∧
        f.isRest = false

omit [Env] in
theorem genPanics_iff (v : VariantDecl) : v.genPanics = true ↔ (∀ s, v.skip = some s → s.value = false) ∧
    v.transparent = some true ∧ ¬ ∃ f ∈ v.fields, f.isContainer = false ∧ f.isSkipped = false ∧ f.isFlatten = false ∧
      f.isAppend = false ∧ f.isRest = false := by
  have h1 : ((v.skip.map (·.value)).getD false) = false ↔ ∀ s, v.skip = some s → s.value = false := by
    cases v.skip <;> simp
  have h2 : v.transparent.getD false = true ↔ v.transparent = some true := by
    cases v.transparent <;> simp
  have h3 : (v.fields.any fun f => f.isParsable && !f.isFlat) = true ↔ ∃ f ∈ v.fields, f.isContainer = false ∧
      f.isSkipped = false ∧ f.isFlatten = false ∧ f.isAppend = false ∧ f.isRest = false := by
    simp [FieldDecl.isParsable, FieldDecl.isFlat, and_assoc]
  rw [VariantDecl.genPanics, Bool.and_eq_true, Bool.and_eq_true, Bool.not_eq_true', h1, h2, Bool.not_eq_true',
    ← Bool.not_eq_true, h3, and_assoc]

omit [Env] in
theorem canGenerate_iff (e : EnumDecl) : Decl.CanGenerate (.enum e) ↔ e.variants.any (·.genPanics) = false := by
  rw [← Bool.not_eq_true, List.any_eq_true]
  simp only [genPanics_iff]
  constructor
  · rintro h ⟨v, hv, a, b, c⟩
    exact c (h v hv a b)
  · intro h v hv a b
    exact Classical.byContradiction fun c => h ⟨v, hv, a, b, c⟩

omit [Env] in
theorem getCratePath_at {found : FoundCrate} {g : Option (List Tok)} {p : List Tok} (h : CrateAt found g p)
    (errs : Errors) : getCratePath found (some g) errs = (errs, some p) := by
  cases h with
  | given => rfl
  | name h => subst h; rfl
  | itself h => subst h; rfl

/-- What the `ParseMetaItem` derive has to say about an accepted definition: container fields of enums need a
default. -/
inductive Complaints : Derive → Decl → List Msg → Prop
  | struct {w d} : Complaints w (.struct d) []
  | attrs {m d} : Complaints (.attrs m) d []
  | enum {e} : Complaints .metaItem (.enum e) (e.metaCheck Errors.new).toList

omit [Env] in
theorem intoCompileErrors_flatten (e : Errors) : e.intoCompileErrors.flatten = e.toList := by
  unfold Errors.intoCompileErrors Errors.toList
  cases e.inner <;> simp

omit [Env] in
theorem intoCompileErrors_length (e : Errors) : e.intoCompileErrors.length ≤ 1 := by
  unfold Errors.intoCompileErrors
  cases e.inner <;> simp

omit [Env] in
theorem intoCompileErrors_nil {e : Errors} : e.intoCompileErrors = [] ↔ e.toList = [] := by
  unfold Errors.intoCompileErrors Errors.toList
  cases e.inner <;> simp [SynErr.toList]

/-- The name under which a derive macro is used. -/
def Derive.name : Derive → String
  | .metaItem => "ParseMetaItem"
  | .attrs .parse => "ParseAttributes"
  | .attrs .extract => "ExtractAttributes"

/-- The traits that a derive macro implements for every definition. -/
inductive Implements : Derive → ImplTrait → Prop
  | item : Implements .metaItem .item
  | parse : Implements (.attrs .parse) .parseAttributes
  | extract : Implements (.attrs .extract) .extractAttributes

/-- C73: from an accepted definition the implementations are made, and nothing is reported but a container field
without `default`.  For which enums the macro panics instead: see `c73_generate_violated`. -/
theorem c73_accepted {lib : SynLib} {item : ItemIn} {r : Decl} (h : AcceptedAs lib item r) (hg : r.CanGenerate)
    {found : FoundCrate} {p : List Tok} (hp : CrateAt found r.crate p) (which : Derive) {msgs : List Msg}
    (hm : Complaints which r msgs) :
    ∃ out g, deriveMacro lib found which (.ok item) = .ok out ∧ out.impls = some g ∧ g.code = some r ∧ g.crate = p ∧
      (∀ t, Implements which t → t ∈ g.traits) ∧ (∀ m, which = .attrs m → g.traits.length = 1) ∧
      out.errors.flatten = msgs := by
  cases h with
  | @struct d r h =>
    have hp' := getCratePath_at hp Errors.new
    simp only [Decl.crate] at hp'
    have e : ∃ ts, deriveMacro lib found which (.ok (.struct d)) = .ok ⟨some ⟨p, ts, some (.struct r)⟩, []⟩ ∧
        (∀ t, Implements which t → t ∈ ts) ∧ ∀ m, which = .attrs m → ts.length = 1 := by
      simp only [deriveMacro, Errors.pushResult, implItem, implStruct, h, pushRes, Option.map_some, hp']
      refine ⟨_, rfl, ?_, ?_⟩
      · intro t ht
        cases ht <;> exact List.mem_cons_self
      · intro m hw
        subst hw
        rfl
    obtain ⟨ts, e, e1, e2⟩ := e
    exact ⟨_, _, e, rfl, rfl, rfl, e1, e2, by cases hm <;> rfl⟩
  | @enum d r h =>
    have hp' := getCratePath_at hp Errors.new
    simp only [Decl.crate] at hp'
    have hg' := (canGenerate_iff r).1 hg
    cases hm with
    | attrs =>
      rename_i m
      have e : deriveMacro lib found (.attrs m) (.ok (.enum d)) =
          .ok ⟨some ⟨p, [m.trait], some (.enum r)⟩, []⟩ := by
        simp only [deriveMacro, Errors.pushResult, implItem, implEnum, h, pushRes, Option.map_some, hp', Option.any_some,
          hg']
        rfl
      refine ⟨_, _, e, rfl, rfl, rfl, ?_, fun _ _ => rfl, rfl⟩
      intro t ht
      cases ht <;> exact List.mem_cons_self
    | enum =>
      have e : deriveMacro lib found .metaItem (.ok (.enum d)) =
          .ok ⟨some ⟨p, [.item, .flatNamed, .flatUnnamed], some (.enum r)⟩, (r.metaCheck Errors.new).intoCompileErrors⟩ := by
        simp only [deriveMacro, Errors.pushResult, implItem, implEnum, h, pushRes, Option.map_some, hp', Option.any_some,
          hg']
        rfl
      refine ⟨_, _, e, rfl, rfl, rfl, ?_, fun _ h => (nomatch h), intoCompileErrors_flatten _⟩
      intro t ht
      cases ht
      exact List.mem_cons_self

/-- C73: if the crate is not found and not given, this is reported, and there is no implementation. -/
theorem c73_crate_missing {lib : SynLib} {item : ItemIn} {r : Decl} (h : AcceptedAs lib item r) (hc : r.crate = none)
    (t : Text) (which : Derive) :
    deriveMacro lib (.error t) which (.ok item) = .ok ⟨none, [[⟨callSite, t⟩]]⟩ := by
  cases h with
  | struct h =>
    simp only [Decl.crate] at hc
    simp only [deriveMacro, Errors.pushResult, implItem, implStruct, h, pushRes, Option.map_some, hc]
    rfl
  | enum h =>
    simp only [Decl.crate] at hc
    simp only [deriveMacro, Errors.pushResult, implItem, implEnum, h, pushRes, Option.map_some, hc]
    rfl

/-- C73: the errors of rejected attributes are reported, all of them and nothing else.  If the crate is found there
are implementations nevertheless, all of whose bodies are `unreachable!()`, so that uses of the type do not lead to
further errors. -/
theorem c73_rejected {lib : SynLib} {item : ItemIn} {e : SynErr} (h : RejectedWith lib item e) (found : FoundCrate)
    (which : Derive) :
    ∃ out, deriveMacro lib found which (.ok item) = .ok out ∧ out.errors = [e.toList] ∧
      (∀ g, out.impls = some g → g.code = none) ∧
      (out.impls = none ↔ ∃ t, found = .error t) := by
  cases h with
  | struct h =>
    simp only [deriveMacro, Errors.pushResult, implItem, implStruct, h, pushRes, Option.map_none, getCratePath]
    refine ⟨_, rfl, ?_⟩
    cases found <;> simp [cratePath, Errors.new, Errors.pushSyn, Errors.intoCompileErrors]
  | enum h =>
    simp only [deriveMacro, Errors.pushResult, implItem, implEnum, h, pushRes, Option.map_none, getCratePath]
    cases found <;>
      exact ⟨_, rfl, by simp [cratePath, Errors.new, Errors.pushSyn, Errors.intoCompileErrors]⟩

/-- C73: unions, and items that syn rejects, are reported, once. -/
theorem c73_no_definition (lib : SynLib) (found : FoundCrate) (which : Derive) :
    (∀ sp, deriveMacro lib found which (.ok (.union sp)) =
      .ok ⟨none, [[⟨sp, .custom (txt ("union not supported with derive(" ++ which.name ++ ")"))⟩]]⟩) ∧
    ∀ e, deriveMacro lib found which (.error e) = .ok ⟨none, [e.toList]⟩ :=
  ⟨fun _ => by cases which with
    | metaItem => rfl
    | attrs m => cases m <;> rfl, fun _ => rfl⟩

/-- C73: the derive macros do not panic, given that reading an enum does not and that its code can be generated.
Without these assumptions they do: `c73_name_violated`, `c73_generate_violated`. -/
theorem c73_never_panics_partial {lib : SynLib} (hl : lib.Good) (found : FoundCrate) (which : Derive)
    (parsed : Except SynErr ItemIn) (hn : ∀ d, parsed = .ok (.enum d) → ∀ v ∈ d.variants, v.read lib ≠ .panic)
    (hg : ∀ d r, parsed = .ok (.enum d) → d.read lib = .ok r → Decl.CanGenerate (.enum r)) :
    ∃ out, deriveMacro lib found which parsed = .ok out := by
  cases parsed with
  | error e => exact ⟨_, rfl⟩
  | ok item =>
    cases item with
    | union sp => exact ⟨_, rfl⟩
    | struct d =>
      cases h : d.read lib with
      | ok r =>
        simp only [deriveMacro, Errors.pushResult, implItem, implStruct, h, pushRes]
        exact ⟨_, rfl⟩
      | err e => exact (c73_rejected (.struct h) found which).imp fun _ h => h.1
      | panic => exact absurd h (d.read_ne_panic hl)
    | enum d =>
      cases h : d.read lib with
      | ok r =>
        simp only [deriveMacro, Errors.pushResult, implItem, implEnum, h, pushRes, Option.any_some,
          (canGenerate_iff r).1 (hg d r rfl h)]
        cases (getCratePath found ((some r).map (·.crate)) Errors.new).2 <;> exact ⟨_, rfl⟩
      | err e => exact (c73_rejected (.enum h) found which).imp fun _ h => h.1
      | panic => exact absurd h (EnumIn.read_ne_panic hl (hn d rfl))

/-- The code violates: if the code of an accepted enum cannot be generated and the crate is found, the macro panics. -/
theorem c73_generate_violated {lib : SynLib} {d : EnumIn} {r : EnumDecl} (h : d.read lib = .ok r)
    (hg : ¬ Decl.CanGenerate (.enum r)) {found : FoundCrate} {p : List Tok} (hp : CrateAt found r.crate p)
    (which : Derive) : deriveMacro lib found which (.ok (.enum d)) = .panic := by
  rw [canGenerate_iff, Bool.not_eq_false] at hg
  have hp' := getCratePath_at hp Errors.new
  simp only [deriveMacro, Errors.pushResult, implItem, implEnum, h, pushRes, Option.map_some, hp', Option.any_some, hg,
    if_true]

/-- The code violates: the macro panics where reading the definition does, as for `enum E { _1 }`, see
`c67_variant_name_violated`. -/
theorem c73_name_violated {lib : SynLib} {d : EnumIn} (h : d.read lib = .panic) (found : FoundCrate) (which : Derive) :
    deriveMacro lib found which (.ok (.enum d)) = .panic := by
  simp only [deriveMacro, Errors.pushResult, implItem, implEnum, h, pushRes]

/-- C73: a derive without compile errors implements the traits for an accepted definition.  No definition is dropped
or replaced by `unreachable!()` silently. -/
theorem c73_silent {lib : SynLib} (hl : lib.Good) {found : FoundCrate} {which : Derive} {parsed : Except SynErr ItemIn}
    {out : DeriveOut} (h : deriveMacro lib found which parsed = .ok out) (hn : out.errors = []) :
    ∃ item r g, parsed = .ok item ∧ AcceptedAs lib item r ∧ Complaints which r [] ∧ CrateAt found r.crate g.crate ∧
      out.impls = some g ∧ g.code = some r := by
  cases parsed with
  | error e =>
    rw [(c73_no_definition lib found which).2 e] at h
    cases h
    simp at hn
  | ok item =>
    have hcrate : ∀ r, AcceptedAs lib item r → (∃ p, CrateAt found r.crate p) ∨ r.crate = none ∧ ∃ t, found = .error t := by
      intro r _
      cases hc : r.crate with
      | some p => exact .inl ⟨p, .given⟩
      | none =>
        cases found with
        | name n => exact .inl ⟨_, .name rfl⟩
        | itself => exact .inl ⟨_, .itself rfl⟩
        | error t => exact .inr ⟨rfl, t, rfl⟩
    have main : ∀ r, AcceptedAs lib item r → r.CanGenerate → ∀ msgs, Complaints which r msgs →
        ∃ g, Complaints which r [] ∧ CrateAt found r.crate g.crate ∧ out.impls = some g ∧ g.code = some r := by
      intro r hr hg msgs hm
      rcases hcrate r hr with ⟨p, hp⟩ | ⟨hc, t, rfl⟩
      · obtain ⟨out', g, h1, h2, h3, h4, -, -, h5⟩ := c73_accepted hr hg hp which hm
        rw [h] at h1
        cases h1
        rw [hn] at h5
        subst h5
        exact ⟨g, hm, h4 ▸ hp, h2, h3⟩
      · rw [c73_crate_missing hr hc] at h
        cases h
        simp at hn
    cases item with
    | union sp =>
      rw [(c73_no_definition lib found which).1 sp] at h
      cases h
      simp at hn
    | struct d =>
      cases hr : d.read lib with
      | ok r =>
        obtain ⟨g, hg⟩ := main _ (.struct hr) trivial [] .struct
        exact ⟨_, _, g, rfl, .struct hr, hg⟩
      | err e =>
        obtain ⟨out', h1, h2, -⟩ := c73_rejected (.struct hr) found which
        rw [h] at h1
        cases h1
        rw [hn] at h2
        simp at h2
      | panic => exact absurd hr (d.read_ne_panic hl)
    | enum d =>
      cases hr : d.read lib with
      | ok r =>
        have : ∃ msgs, Complaints which (.enum r) msgs := by
          cases which with
          | metaItem => exact ⟨_, .enum⟩
          | attrs m => exact ⟨_, .attrs⟩
        obtain ⟨msgs, hm⟩ := this
        by_cases hc : Decl.CanGenerate (.enum r)
        · obtain ⟨g, hg⟩ := main _ (.enum hr) hc _ hm
          exact ⟨_, _, g, rfl, .enum hr, hg⟩
        · rcases hcrate _ (.enum hr) with ⟨p, hp⟩ | ⟨hn', t, rfl⟩
          · rw [c73_generate_violated hr hc hp] at h
            cases h
          · rw [c73_crate_missing (.enum hr) hn'] at h
            cases h
            simp at hn
      | err e =>
        obtain ⟨out', h1, h2, -⟩ := c73_rejected (.enum hr) found which
        rw [h] at h1
        cases h1
        rw [hn] at h2
        simp at h2
      | panic =>
        rw [c73_name_violated hr] at h
        cases h

/-- C73: an accepted field that has a name in the definition and is not flattened has a name to be parsed under, so
that `f.idents.first().unwrap()` in the code generator (macros/types/field.rs:880) does not panic. -/
theorem c73_first_name {lib : SynLib} {f : FieldIn} {r : FieldDecl} (h : f.read lib = .ok r) (hi : f.ident ≠ none)
    (hr : r.isFlatten = false) : r.idents ≠ [] := by
  obtain ⟨acc, hinv, he, -, rfl⟩ := FieldIn.read_ok h
  have hfl : (acc.val.flatten.map (·.value)).unwrapOr false = false := by
    revert hr
    show ((acc.val.flatten.intoOption.map (·.value)).getD false) = false → _
    cases acc.val.flatten <;> simp [FieldStatus.intoOption, FieldStatus.map, FieldStatus.unwrapOr]
  show (if acc.val.names.rename.isNone && !((acc.val.flatten.map (·.value)).unwrapOr false) then _ else _) ≠ _
  rw [hfl]
  cases hx : acc.val.names.rename with
  | none =>
    cases hf : f.ident with
    | none => exact absurd hf hi
    | some x => simp [FieldStatus.isNone]
  | some sp => simpa [FieldStatus.isNone] using hinv.names.some (by rw [hx]; rfl)
  | parseError => exact absurd he (hinv.names.failed (by rw [hx]; rfl))

/-- C73: with `crate = path` the macro does not depend on how the crate is found. -/
theorem c73_crate_given {lib : SynLib} {item : ItemIn} {r : Decl} (h : AcceptedAs lib item r) {p : List Tok}
    (hc : r.crate = some p) (found found' : FoundCrate) (which : Derive) :
    deriveMacro lib found which (.ok item) = deriveMacro lib found' which (.ok item) := by
  cases h with
  | struct h =>
    simp only [Decl.crate] at hc
    simp only [deriveMacro, Errors.pushResult, implItem, implStruct, h, pushRes, Option.map_some, hc, getCratePath]
  | enum h =>
    simp only [Decl.crate] at hc
    simp only [deriveMacro, Errors.pushResult, implItem, implEnum, h, pushRes, Option.map_some, hc, getCratePath]

/-- C73: end to end.  If a derive of a structure shows no compile error, then the implementations are for a definition
whose parsers never panic. -/
theorem c73_struct_end_to_end {lib : SynLib} (hl : lib.Good) {found : FoundCrate} {which : Derive} {d : StructIn}
    {out : DeriveOut} (h : deriveMacro lib found which (.ok (.struct d)) = .ok out) (hn : out.errors = [])
    (hw : ShapeFits d.shape d.fields) :
    ∃ g r, out.impls = some g ∧ g.code = some (.struct r) ∧
      ∀ {V : Type} (sem : StructSem V), sem.Fits r.fields.length → (∀ i, (sem.field i).Fine) →
        (r.toMetaDef sem).dict.Good ∧
        ∀ {O : Type} (attributes : List (List Str)) (a : HasAttrs O) (container : O → V) (o : O),
          ((r.toDef sem).attrTarget attributes).parseAttributes a container o ≠ .panic ∧
          (((r.toDef sem).attrTarget attributes).extractAttributes a container o).1 ≠ .panic := by
  obtain ⟨item, r, g, h1, h2, -, -, h5, h6⟩ := c73_silent hl h hn
  cases h1
  cases h2 with
  | struct hr => exact ⟨g, _, h5, h6, fun sem hf hs => c69_struct_never_panics hr hw hf hs⟩

end

/-! ## Which traits -/

/-- The structure has the record of functions that stands for the trait. -/
def HasTrait {V : Type} [Env] (d : StructDef V) (o : TransparentOpts) : ImplTrait → Prop
  | .item => True
  | .flatNamed => (d.implFlatNamed o).isSome
  | .flatUnnamed => (d.implFlatUnnamed o).isSome
  | .rest => (d.implRest o).isSome
  | .append => (d.implAppend o).isSome
  | .parseAttributes => False
  | .extractAttributes => False

/-- The options of `transparent(..)`. -/
def StructDecl.opts (d : StructDecl) : TransparentOpts :=
  match d.transparent with
  | some t => ⟨t.flattenNamed, t.flattenUnnamed, t.append, t.rest⟩
  | none => ⟨none, none, none, none⟩

theorem toMetaDef_transparent {V : Type} (sem : StructSem V) (d : StructDecl) :
    (d.toMetaDef sem).isTransparent = d.isTransparent := by
  have hfill : ∀ f, ((fillContainer f).isParsable && !(fillContainer f).isFlat) = (f.isParsable && !f.isFlat) := by
    intro f
    unfold fillContainer
    split
    · split <;> rfl
    · rfl
  have hc : ((d.toMetaDef sem).fields.filter fun f => f.isParsable && !f.isFlat).length =
      (d.fields.filter fun f => f.isParsable && !f.isFlat).length := by
    rw [← List.countP_eq_length_filter, ← List.countP_eq_length_filter]
    show ((d.fields.map fillContainer).zipIdx.map fun x => x.1.toField (sem.field x.2)).countP _ = _
    rw [countP_toDef (d.fields.map fillContainer) sem.field (fun f => f.isParsable && !f.isFlat)
      (fun f => f.isParsable && !f.isFlat) fun f s => by rw [FieldDecl.toField_isFlat]; rfl, List.countP_map]
    exact congrFun (congrArg _ (funext hfill)) _
  unfold StructDef.isTransparent StructDecl.isTransparent
  rw [List.length_take, List.length_take, hc]
  congr 1
  show (d.transparent.map (·.value)).getD false = _
  cases h : d.transparent with
  | none => rfl
  | some t => rfl

/-- C73: the implementations that the `ParseMetaItem` derive emits for an accepted structure are exactly those that
C70 and C71 are about: always `ParseMetaItem`, for transparent structures what they ask for, for others those of their
kind. -/
theorem c73_traits [Env] {V : Type} {sem : StructSem V} {d : StructDecl} (ha : (d.toMetaDef sem).Accepted) (t : ImplTrait) :
    t ∈ structTraits d.shape (some d) ↔ HasTrait (d.toMetaDef sem) d.opts t := by
  have ht := toMetaDef_transparent sem d
  have hs : (d.toMetaDef sem).shape = d.shape := rfl
  by_cases h : (d.toMetaDef sem).isTransparent = true
  · have hc := ha.transparent h
    have hex : ∃ f k, (d.toMetaDef sem).transparentField = some (f, k) := by
      have : 0 < (d.toMetaDef sem).fields.countP (·.isParsable) := by omega
      obtain ⟨f, hf, hp⟩ := List.countP_pos_iff.1 this
      obtain ⟨k, hk⟩ := List.getElem?_of_mem hf
      exact ⟨f, k, transparentField_iff hc h hk hp⟩
    obtain ⟨f, k, hfk⟩ := hex
    rw [h] at ht
    cases hd : d.transparent with
    | none => simp [StructDecl.isTransparent, hd] at ht
    | some x =>
      cases t <;>
        simp only [structTraits, HasTrait, StructDef.implFlatNamed, StructDef.implFlatUnnamed, StructDef.implRest,
          StructDef.implAppend, StructDecl.opts, hd, h, hfk, Option.bind_some, Option.any_some, ← ht, Bool.true_and,
          if_true] <;>
        (repeat' split) <;> simp_all
  · rw [Bool.not_eq_true] at h
    rw [h] at ht
    have ht' : (some d).any (·.isTransparent) = false := ht.symm
    unfold structTraits
    rw [ht']
    cases t <;> simp only [HasTrait, StructDef.implFlatNamed, StructDef.implFlatUnnamed, StructDef.implRest,
        StructDef.implAppend, h, hs] <;> cases d.shape <;> simp

/-! ## Structures with `transparent` -/

/-- C70: a structure that is accepted with `transparent` is treated as such, if its field is not `rest`.

Missing: `rest`, see `c70_rest_violated`. -/
theorem c70_accepted_partial [Env] {lib : SynLib} {d : StructIn} {r : StructDecl} (h : d.read lib = .ok r)
    (hw : ShapeFits d.shape d.fields) {t : TransparentD} (ht : r.transparent = some t) (hv : t.value = true)
    (hr : ∀ f ∈ r.fields, f.isRest = false) {V : Type} (sem : StructSem V) : (r.toMetaDef sem).isTransparent = true := by
  rw [toMetaDef_transparent]
  obtain ⟨-, h2, -⟩ := struct_facts h hw
  obtain ⟨f, hf, h3, h4⟩ := h2 (by rw [ht]; rfl)
  have hm : f ∈ r.fields := (List.mem_filter.1 (hf ▸ List.mem_singleton.2 rfl : f ∈ r.fields.filter (·.isParsable))).1
  have : (r.fields.filter fun f => f.isParsable && !f.isFlat) = [f] := by
    have : (r.fields.filter fun f => f.isParsable && !f.isFlat) =
        (r.fields.filter (·.isParsable)).filter (fun f => !f.isFlat) := by
      rw [List.filter_filter]
      congr 1
      funext f
      exact Bool.and_comm _ _
    rw [this, hf]
    simp [FieldDecl.isFlat, h3, h4, hr f hm]
  unfold StructDecl.isTransparent
  rw [this, ht]
  simp [hv]

/-- The code violates: `#[deluxe(transparent)] struct S { #[deluxe(rest)] a: T }` is accepted, and `transparent` has no
effect: the structure takes its fields in braces like any other. -/
theorem c70_rest_violated [Env] :
    ∃ r t, StructIn.read demoLib ⟨.named, [⟨some (txt "a", 1), [deluxeList [.ident (txt "rest") 2]]⟩],
        [deluxeList [.ident (txt "transparent") 3]]⟩ = .ok r ∧ r.transparent = some t ∧ t.value = true ∧
      ∀ {V : Type} (sem : StructSem V), (r.toMetaDef sem).isTransparent = false :=
  ⟨_, _, rfl, rfl, rfl, fun _ => rfl⟩

/-! ## Examples -/

section
variable [Env]

/-- C73: `goodStruct` is accepted, and the crate is found as `dlx`. -/
example : ∃ out g r, deriveMacro demoLib (.name (txt "dlx")) .metaItem (.ok (.struct goodStruct)) = .ok out ∧
    out.impls = some g ∧ g.code = some (.struct r) ∧ out.errors.flatten = [] := by
  obtain ⟨r, hr, -⟩ := goodStruct_read
  have hc : r.crate = none := by
    obtain ⟨ds, -, -, -, -, -, rfl⟩ := (c46_struct (d := goodStruct) (bs := []) (ss := []) .nil .nil _).1 hr
    rfl
  obtain ⟨out, g, h1, h2, h3, -, -, -, h5⟩ := c73_accepted (.struct hr) trivial (found := .name (txt "dlx"))
    (show CrateAt (.name (txt "dlx")) r.crate _ by rw [hc]; exact .name rfl) .metaItem .struct
  exact ⟨out, g, r, h1, h2, h3, h5⟩

/-- The code violates: `enum E { #[deluxe(transparent)] A { #[deluxe(rest)] a: T } }` makes the macro panic, and so
does `enum E { _1 }`. -/
theorem c73_panics_violated (which : Derive) :
    deriveMacro demoLib .itself which (.ok (.enum ⟨[⟨(txt "A", 9), 9, .named,
      [⟨some (txt "a", 1), [deluxeList [.ident (txt "rest") 2]]⟩], [deluxeList [.ident (txt "transparent") 3]]⟩], []⟩)) =
      .panic ∧
    deriveMacro snakeLib .itself which (.ok (.enum ⟨[⟨(txt "_1", 1), 1, .unit, [], []⟩], []⟩)) = .panic :=
  ⟨rfl, rfl⟩

/-- C73: the code of `goodEnum` can be generated, and its variants do not panic. -/
example : (∀ v ∈ goodEnum.variants, v.read demoLib ≠ .panic) ∧
    ∀ r, goodEnum.read demoLib = .ok r → Decl.CanGenerate (.enum r) := by
  refine ⟨fun v hv => ?_, fun r h => ?_⟩
  · simp only [goodEnum, List.mem_cons, List.not_mem_nil, or_false] at hv
    rcases hv with rfl | rfl
    · rw [byName_read _ _ _ _ (by decide)]; simp
    · rw [flat_read]; simp
  · obtain ⟨vs, hf, -, -, rfl⟩ := (c68_enum (d := goodEnum) (bs := []) (ss := []) .nil .nil _).1 h
    simp only [goodEnum, List.map_cons, List.map_nil, flat_read, byName_read "A" "a" 8 1 (by decide)] at hf
    obtain rfl := ok_pair hf
    intro v hv _ ht
    simp only [declaredEnum, List.mem_cons, List.not_mem_nil, or_false] at hv
    rcases hv with rfl | rfl <;> cases ht

/-- C73: `badStruct` is rejected. -/
example : ∃ e out g, RejectedWith demoLib (.struct badStruct) e ∧
    deriveMacro demoLib .itself (.attrs .extract) (.ok (.struct badStruct)) = .ok out ∧ out.errors = [e.toList] ∧
    out.impls = some g ∧ g.code = none := by
  have hb : ∃ e, badStruct.read demoLib = .err e ∧ ⟨5, duplicateNameText (txt "field") (txt "a")⟩ ∈ e.toList := by
    refine c46_reported (d := badStruct) (bs := []) (ss := []) (ds := [declared (plainIn "a" 1) [],
      declared (aliasIn "b" "a" 2) [.alias 3 (txt "a", 5)]]) .nil .nil ?_ ⟨List.nodup_nil, by simp, by simp, by simp⟩
      (pre := [(txt "a", 1), (txt "b", 2)]) (post := []) rfl (by simp)
    show [_, _] = [_, _]
    rw [plainIn_read, aliasIn_read _ _ _ (by decide)]
  obtain ⟨e, he, -⟩ := hb
  obtain ⟨out, h1, h2, h3, h4⟩ := c73_rejected (.struct he) .itself (.attrs .extract)
  cases hg : out.impls with
  | none => simp [hg] at h4
  | some g => exact ⟨e, out, g, .struct he, h1, h2, hg, h3 g hg⟩

end

end Deluxe
