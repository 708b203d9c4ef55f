import Verif.Model.Calls
import Verif.Props.ScopeCases
/-!
# C104: A field is read through its `with` module, or else through the one trait for its role
-/
namespace Deluxe

theorem mem_perFieldCalls {fields : List FieldDecl} {g : Nat → FieldDecl → List Call} {c : Call} :
    c ∈ perFieldCalls fields g ↔ ∃ i f, fields[i]? = some f ∧ c ∈ g i f := by
  unfold perFieldCalls
  rw [List.mem_flatMap]
  constructor
  · rintro ⟨⟨f, i⟩, hx, hc⟩
    exact ⟨i, f, List.mem_zipIdx_iff_getElem?.1 hx, hc⟩
  · rintro ⟨i, f, hf, hc⟩
    exact ⟨(f, i), List.mem_zipIdx_iff_getElem?.2 hf, hc⟩

theorem parsePath_eq (f : FieldDecl) : f.parsePath = f.source := by
  unfold FieldDecl.parsePath FieldDecl.constraintTy FieldDecl.source
  cases f.with_ <;> cases f.transforms <;> rfl

theorem constraintTy_eq {f : FieldDecl} (h : f.with_ = none) : f.constraintTy = f.source := by
  rw [← parsePath_eq]
  simp [FieldDecl.parsePath, h]

theorem readFn_role {f : FieldDecl} : f.Role f.readFn := by
  unfold FieldDecl.readFn
  split
  · assumption
  · rename_i ha
    split
    · assumption
    · rename_i hr
      split
      · rename_i hf
        split
        · exact ⟨hf, ‹_›⟩
        · exact ⟨hf, by simpa using ‹¬ f.ident.isSome = true›⟩
      · rename_i hf
        split
        · exact ⟨by simpa using ha, by simpa using hr, by simpa using hf, ‹_›⟩
        · exact ⟨by simpa using ha, by simpa using hr, by simpa using hf, by simpa using ‹¬ f.ident.isSome = true›⟩

/-- The type of a flattened field parses the input for it, without `with`, `map` or `and_then`, and the field is not
skipped. -/
def FieldDecl.FlatSettled (f : FieldDecl) : Prop :=
  f.isFlatten = true → f.with_ = none ∧ f.transforms = [] ∧ f.isParsable = true

theorem FieldDecl.FlatSettled.source {f : FieldDecl} (h : f.FlatSettled) (hf : f.isFlatten = true) :
    f.source = .type ∧ f.constraintTy = .type := by
  obtain ⟨h1, h2, -⟩ := h hf
  simp [FieldDecl.source, FieldDecl.constraintTy, h1, h2]

/-- What is known of the fields after the definition has been accepted. -/
structure CallFields (shape : Shape) (transparent var : Bool) (fields : List FieldDecl) : Prop where
  names : ∀ f ∈ fields, f.ident.isSome = true ↔ shape = .named
  unit : shape = .unit → fields = []
  plain : shape = .unnamed → ∀ f ∈ fields, f.append = none ∧ f.rest = none
  filled : var = false → ∀ f ∈ fields, f.isParsable = false → f.default.isSome = true ∨ f.isContainer = true
  one : transparent = true → ∀ f ∈ fields, f.isParsable = true → f.isFlat = false

section
variable {shape : Shape} {transparent var : Bool} {fields : List FieldDecl}

/-- All calls in a list are for fields that exist, and documented if the field is settled. -/
def AllDocumented (role : FieldDecl → TraitFn → Prop) (fields : List FieldDecl) (cs : List Call) : Prop :=
  ∀ c ∈ cs, ∃ f, fields[c.field]? = some f ∧ (f.FlatSettled → Documented (role f) f c)

theorem AllDocumented.append {role : FieldDecl → TraitFn → Prop} {a b : List Call} (ha : AllDocumented role fields a)
    (hb : AllDocumented role fields b) : AllDocumented role fields (a ++ b) := by
  intro c hc
  rcases List.mem_append.1 hc with h | h
  · exact ha c h
  · exact hb c h

theorem AllDocumented.nil {role : FieldDecl → TraitFn → Prop} : AllDocumented role fields [] :=
  fun _ h => absurd h List.not_mem_nil

theorem perFieldCalls_documented {role : FieldDecl → TraitFn → Prop} {g : Nat → FieldDecl → List Call}
    (h : ∀ i f, fields[i]? = some f → ∀ c ∈ g i f, c.field = i ∧ (f.FlatSettled → Documented (role f) f c)) :
    AllDocumented role fields (perFieldCalls fields g) := by
  intro c hc
  obtain ⟨i, f, hf, hc⟩ := mem_perFieldCalls.1 hc
  obtain ⟨h1, h2⟩ := h i f hf c hc
  exact ⟨f, by rw [h1]; exact hf, h2⟩

theorem fieldNamesCalls_documented (h : shape = .named) (hf : CallFields shape transparent var fields) :
    AllDocumented FieldDecl.Role fields (fieldNamesCalls fields) := by
  refine perFieldCalls_documented fun i f hi c hc => ?_
  split at hc
  · rename_i hp
    rw [Bool.and_eq_true] at hp
    rw [List.mem_singleton] at hc
    subst hc
    refine ⟨rfl, fun hs => .inl ⟨hp.1, ?_, hp.2, (hf.names f (List.mem_of_getElem? hi)).2 h⟩⟩
    rw [(hs.source hp.2).1, (hs.source hp.2).2]
  · exact absurd hc List.not_mem_nil

theorem acceptsAllCalls_documented (h : shape = .named) (hf : CallFields shape transparent var fields) :
    AllDocumented FieldDecl.Role fields (acceptsAllCalls fields) := by
  unfold acceptsAllCalls
  split
  · exact .nil
  · refine perFieldCalls_documented fun i f hi c hc => ?_
    split at hc
    · rename_i hp
      rw [List.mem_singleton] at hc
      subst hc
      refine ⟨rfl, fun hs => .inl ⟨(hs hp).2.2, ?_, hp, (hf.names f (List.mem_of_getElem? hi)).2 h⟩⟩
      rw [(hs.source hp).1]
    · exact absurd hc List.not_mem_nil

theorem isFlat_split {f : FieldDecl} : f.isFlat = false → f.isAppend = false ∧ f.isRest = false ∧ f.isFlatten = false := by
  unfold FieldDecl.isFlat
  simp only [Bool.or_eq_false_iff]
  rintro ⟨⟨h1, h2⟩, h3⟩
  exact ⟨h2, h3, h1⟩

theorem isFlatten_of_flat {f : FieldDecl} (h : f.isFlat = true) (ha : f.append = none) (hr : f.rest = none) :
    f.isFlatten = true := by
  simpa [FieldDecl.isFlat, FieldDecl.isAppend, FieldDecl.isRest, ha, hr] using h

theorem readCall_documented {i : Nat} {f : FieldDecl} (hp : f.isParsable = true) :
    Documented f.Role f (f.readCall i) := .inl ⟨hp, parsePath_eq f, readFn_role⟩

theorem itemCalls_documented (hf : CallFields shape transparent var fields) :
    AllDocumented FieldDecl.Role fields (itemCalls shape fields) := by
  cases hshape : shape with
  | unit => exact .nil
  | named =>
    unfold itemCalls
    refine perFieldCalls_documented fun i f hi c hc => ?_
    split at hc
    · exact absurd hc List.not_mem_nil
    · rename_i hp
      simp only [Bool.or_eq_true, Bool.not_eq_true', not_or, Bool.not_eq_false] at hp
      rw [List.mem_singleton] at hc
      subst hc
      exact ⟨rfl, fun _ => readCall_documented hp.2⟩
  | unnamed =>
    unfold itemCalls
    refine perFieldCalls_documented fun i f hi c hc => ?_
    have hm := List.mem_of_getElem? hi
    split at hc
    · rename_i hp
      simp only [Bool.and_eq_true] at hp
      rcases List.mem_cons.1 hc with rfl | hc
      · exact ⟨rfl, fun _ => readCall_documented hp.1.1⟩
      · split at hc
        · rename_i hfl
          rw [List.mem_singleton] at hc
          subst hc
          obtain ⟨ha, hr⟩ := hf.plain hshape f hm
          have hfl := isFlatten_of_flat hfl ha hr
          refine ⟨rfl, fun hs => .inl ⟨hp.1.1, ?_, hfl, ?_⟩⟩
          · rw [(hs.source hfl).1, (hs.source hfl).2]
          · have := hf.names f hm
            rw [hshape] at this
            simpa using this
        · exact absurd hc List.not_mem_nil
    · exact absurd hc List.not_mem_nil

/-- The calls for the numbers of positions are documented. -/
theorem fieldErrorsCalls_documented (hf : CallFields shape transparent var fields) (hs : shape ≠ .unit) :
    ∀ (fs : List FieldDecl) (extra : List Call) (i : Nat), (∀ k f, fs[k]? = some f → fields[i + k]? = some f) →
      AllDocumented FieldDecl.Role fields extra →
      AllDocumented FieldDecl.Role fields (fieldErrorsCalls (shape = .named) transparent var extra i fs)
  | [], _, _, _, _ => .nil
  | f :: fs, extra, i, hi, he => by
    have hfi : fields[i]? = some f := hi 0 f rfl
    have hm := List.mem_of_getElem? hfi
    have hcount : shape = .unnamed → f.isFlatten = true → f.isContainer = false →
        AllDocumented FieldDecl.Role fields [⟨i, f.constraintTy, .fieldCount⟩] := by
      intro hu hfl hcon c hc
      rw [List.mem_singleton] at hc
      subst hc
      refine ⟨f, hfi, fun hset => .inl ⟨(hset hfl).2.2, ?_, hfl, ?_⟩⟩
      · rw [(hset.source hfl).1, (hset.source hfl).2]
      · have := hf.names f hm
        rw [hu] at this
        simpa using this
    have hunn : (!decide (shape = .named)) = true → shape = .unnamed := by
      cases shape <;> simp at hs ⊢
    refine AllDocumented.append ?_ (fieldErrorsCalls_documented hf hs fs _ (i + 1) ?_ ?_)
    · unfold fieldErrorCalls
      split
      · exact .nil
      · rename_i hno
        simp only [Bool.or_eq_true, not_or, Bool.not_eq_true] at hno
        obtain ⟨⟨⟨hcon, htr⟩, hdef⟩, hvar⟩ := hno
        have hp : f.isParsable = true := by
          cases hp : f.isParsable with
          | true => rfl
          | false =>
            rcases hf.filled hvar f hm hp with h | h
            · rw [hdef] at h; cases h
            · rw [hcon] at h; cases h
        have hmissing : f.isFlat = false → Documented f.Role f ⟨i, f.parsePath, .missing⟩ := fun h =>
          .inl ⟨hp, parsePath_eq f, isFlat_split h⟩
        split
        · rename_i hn
          obtain ⟨ha, hr⟩ := hf.plain (hunn hn) f hm
          split
          · rename_i hfl
            intro c hc
            refine ⟨f, ?_⟩
            rcases List.mem_cons.1 hc with rfl | hc
            · exact ⟨hfi, fun _ => readCall_documented hp⟩
            · rw [List.mem_singleton] at hc
              subst hc
              refine ⟨hfi, fun _ => .inl ⟨hp, parsePath_eq f, isFlatten_of_flat hfl ha hr, ?_⟩⟩
              have := hf.names f hm
              rw [hunn hn] at this
              simpa using this
          · rename_i hfl
            refine he.append fun c hc => ?_
            rw [List.mem_singleton] at hc
            subst hc
            exact ⟨f, hfi, fun _ => hmissing (by simpa using hfl)⟩
        · split
          · rename_i hfl
            intro c hc
            rw [List.mem_singleton] at hc
            subst hc
            exact ⟨f, hfi, fun _ => hmissing (by simpa using hfl)⟩
          · exact .nil
    · intro k g hg
      have := hi (k + 1) g hg
      rwa [Nat.add_assoc, Nat.add_comm 1 k]
    · split
      · rename_i h
        simp only [Bool.and_eq_true, Bool.not_eq_true', Bool.or_eq_false_iff] at h
        exact he.append (hcount (hunn (by simpa using h.1.1)) h.2 h.1.2.1)
      · exact he

theorem fieldErrorsCalls_transparent (named var : Bool) : ∀ (fs : List FieldDecl) (extra : List Call) (i : Nat),
    fieldErrorsCalls named true var extra i fs = []
  | [], _, _ => rfl
  | f :: fs, extra, i => by
    unfold fieldErrorsCalls
    rw [fieldErrorsCalls_transparent named var fs]
    simp [fieldErrorCalls]

theorem postCalls_documented {attr : Bool} {role : FieldDecl → TraitFn → Prop} (hf : CallFields shape transparent var fields)
    (hr : transparent = false → role = FieldDecl.Role) :
    AllDocumented role fields (postCalls shape fields attr transparent var) := by
  unfold postCalls
  split
  · exact .nil
  · rename_i hs
    refine ((AllDocumented.append ?_ ?_).append ?_).append ?_
    · split
      · refine perFieldCalls_documented fun i f hi c hc => ?_
        split at hc
        · rename_i hp
          rw [Bool.and_eq_true] at hp
          rw [List.mem_singleton] at hc
          subst hc
          refine ⟨rfl, fun _ => ?_⟩
          cases ht : transparent with
          | true => rw [hf.one ht f (List.mem_of_getElem? hi) hp.1] at hp; cases hp.2
          | false => rw [hr ht]; exact readCall_documented hp.1
        · exact absurd hc List.not_mem_nil
      · exact .nil
    · refine perFieldCalls_documented fun i f hi c hc => ?_
      unfold containerCalls at hc
      split at hc
      · rename_i hp
        rw [Bool.and_eq_true] at hp
        rw [List.mem_singleton] at hc
        subst hc
        exact ⟨rfl, fun _ => .inr (.inr ⟨rfl, hp.1⟩)⟩
      · exact absurd hc List.not_mem_nil
    · cases ht : transparent with
      | true => rw [fieldErrorsCalls_transparent]; exact .nil
      | false =>
        rw [hr ht, ← ht]
        exact fieldErrorsCalls_documented hf (fun h => hs h) fields [] 0
          (fun k f h => by rw [Nat.zero_add]; exact h) .nil
    · refine perFieldCalls_documented fun i f hi c hc => ?_
      unfold fieldSetCalls at hc
      split at hc
      · rename_i sp hd
        rw [List.mem_singleton] at hc
        subst hc
        exact ⟨rfl, fun _ => .inr (.inl ⟨rfl, rfl, sp, hd⟩)⟩
      · exact absurd hc List.not_mem_nil
end

/-! ## Structures -/

/-- The functions for a field of a structure. -/
def StructDecl.Role (d : StructDecl) (f : FieldDecl) (fn : TraitFn) : Prop :=
  if d.isTransparent then ∃ t, d.transparent = some t ∧ t.Role fn else f.Role fn

/-- The field of a transparent structure has no `map` or `and_then` without `with`. -/
def FieldDecl.TransparentSettled (f : FieldDecl) : Prop := f.with_.isSome = true ∨ f.transforms = []

theorem transparentCalls_documented {role : TraitFn → Prop} {fields : List FieldDecl} {fns : List TraitFn}
    (h : ∀ fn ∈ fns, role fn) : ∀ c ∈ transparentCalls fields fns, ∃ f, fields[c.field]? = some f ∧
      (f.TransparentSettled → Documented role f c) := by
  intro c hc
  unfold transparentCalls at hc
  split at hc
  · rename_i f i hx
    obtain ⟨fn, hfn, rfl⟩ := List.mem_map.1 hc
    have h1 := List.mem_zipIdx_iff_getElem?.1 (List.mem_of_find?_eq_some hx)
    have h2 := List.find?_some hx
    rw [Bool.and_eq_true] at h2
    refine ⟨f, h1, fun hs => .inl ⟨h2.1, ?_, h fn hfn⟩⟩
    unfold FieldDecl.source
    cases hw : f.with_ with
    | some m => rfl
    | none =>
      rcases hs with h | h
      · rw [hw] at h; cases h
      · rw [h]; rfl
  · exact absurd hc List.not_mem_nil

theorem furtherFns_role {t : TransparentD} : ∀ fn ∈ t.furtherFns, t.Role fn := by
  have key : ∀ {o : Option Bool}, o.getD false = true → o = some true := by
    intro o h
    cases o with
    | none => cases h
    | some b => cases b with
      | true => rfl
      | false => cases h
  intro fn h
  unfold TransparentD.furtherFns at h
  simp only [List.mem_append] at h
  rcases h with ((h | h) | h) | h <;> split at h <;> rename_i hk
  · simp only [List.mem_cons, List.not_mem_nil, or_false] at h
    rcases h with rfl | rfl | rfl <;> exact key hk
  · exact absurd h List.not_mem_nil
  · simp only [List.mem_cons, List.not_mem_nil, or_false] at h
    rcases h with rfl | rfl <;> exact key hk
  · exact absurd h List.not_mem_nil
  · rw [List.mem_singleton] at h
    subst h
    exact key hk
  · exact absurd h List.not_mem_nil
  · rw [List.mem_singleton] at h
    subst h
    exact key hk
  · exact absurd h List.not_mem_nil

theorem isTransparent_some {d : StructDecl} (h : d.isTransparent = true) : ∃ t, d.transparent = some t := by
  unfold StructDecl.isTransparent at h
  cases ht : d.transparent with
  | none => rw [ht] at h; cases h
  | some t => exact ⟨t, rfl⟩

/-- Nothing speaks against a field: see `FlatSettled` and `TransparentSettled`. -/
def StructDecl.Settled (d : StructDecl) (f : FieldDecl) : Prop :=
  f.FlatSettled ∧ (d.isTransparent = true → f.TransparentSettled)

theorem struct_documented {d : StructDecl} {fields : List FieldDecl}
    (hf : CallFields d.shape d.isTransparent d.default.isSome fields) :
    (d.isTransparent = false → AllDocumented d.Role fields (itemCalls d.shape fields)) ∧
    (d.shape = .named → AllDocumented d.Role fields (fieldNamesCalls fields ++ d.acceptsAllCalls fields)) ∧
    (∀ attr, AllDocumented d.Role fields (postCalls d.shape fields attr d.isTransparent d.default.isSome)) := by
  have hrole : d.isTransparent = false → d.Role = FieldDecl.Role := by
    intro ht
    funext f fn
    simp [StructDecl.Role, ht]
  refine ⟨fun ht => by rw [hrole ht]; exact itemCalls_documented hf, fun hn => ?_,
    fun attr => postCalls_documented hf hrole⟩
  have hall : AllDocumented FieldDecl.Role fields (fieldNamesCalls fields ++ d.acceptsAllCalls fields) := by
    refine (fieldNamesCalls_documented hn hf).append ?_
    unfold StructDecl.acceptsAllCalls
    split
    · exact .nil
    · exact acceptsAllCalls_documented hn hf
  cases ht : d.isTransparent with
  | false => rw [hrole ht]; exact hall
  | true =>
    intro c hc
    obtain ⟨f, h1, h2⟩ := hall c hc
    refine ⟨f, h1, fun hs => ?_⟩
    have hfn : c.fn = .fieldNames ∨ c.fn = .acceptsAll := by
      rcases List.mem_append.1 hc with hc | hc
      · obtain ⟨i, g, -, hc⟩ := mem_perFieldCalls.1 hc
        split at hc
        · rw [List.mem_singleton] at hc
          subst hc
          exact .inl rfl
        · exact absurd hc List.not_mem_nil
      · unfold StructDecl.acceptsAllCalls at hc
        split at hc
        · exact absurd hc List.not_mem_nil
        · unfold acceptsAllCalls at hc
          split at hc
          · exact absurd hc List.not_mem_nil
          · obtain ⟨i, g, -, hc⟩ := mem_perFieldCalls.1 hc
            split at hc
            · rw [List.mem_singleton] at hc
              subst hc
              exact .inr rfl
            · exact absurd hc List.not_mem_nil
    rcases h2 hs with ⟨h3, -, h4⟩ | ⟨h3, -⟩ | ⟨h3, -⟩
    · have hfl : f.isFlatten = true := by
        rcases hfn with h | h <;> rw [h] at h4 <;> exact h4.1
      have := hf.one ht f (List.mem_of_getElem? h1) h3
      simp [FieldDecl.isFlat, hfl] at this
    · rcases hfn with h | h <;> rw [h] at h3 <;> cases h3
    · rcases hfn with h | h <;> rw [h] at h3 <;> cases h3

theorem CallFields.fill {shape : Shape} {transparent var : Bool} {fields : List FieldDecl}
    (h : CallFields shape transparent var fields) : CallFields shape transparent var (fields.map fillContainer) where
  names f hf := by
    obtain ⟨g, hg, rfl⟩ := List.mem_map.1 hf
    rw [(fillContainer_same g).1]
    exact h.names g hg
  unit hs := by rw [h.unit hs]; rfl
  plain hs f hf := by
    obtain ⟨g, hg, rfl⟩ := List.mem_map.1 hf
    rw [(fillContainer_same g).2.1, (fillContainer_same g).2.2.1]
    exact h.plain hs g hg
  filled hv f hf hp := by
    obtain ⟨g, hg, rfl⟩ := List.mem_map.1 hf
    rw [(fillContainer_same g).2.2.2.2.1] at hp
    rw [(fillContainer_same g).2.2.2.2.2.2]
    exact (h.filled hv g hg hp).imp (fillContainer_keeps g).2.2 id
  one ht f hf hp := by
    obtain ⟨g, hg, rfl⟩ := List.mem_map.1 hf
    rw [(fillContainer_same g).2.2.2.2.1] at hp
    rw [(fillContainer_same g).2.2.2.1]
    exact h.one ht g hg hp

theorem fillContainer_eq (f : FieldDecl) : fillContainer f = f ∨
    (f.isContainer = true ∧ ∃ sp, fillContainer f = { f with default := some (.default sp) }) := by
  unfold fillContainer
  split
  · rename_i c h
    split
    · rename_i hv
      rw [Bool.and_eq_true] at hv
      exact .inr ⟨by simp [FieldDecl.isContainer, h, hv.1], _, rfl⟩
    · exact .inl rfl
  · exact .inl rfl

/-- A call that is documented for the field as the `ParseMetaItem` derive completes it. -/
theorem documented_fill {role : FieldDecl → TraitFn → Prop} {fields : List FieldDecl} {c : Call}
    {P : FieldDecl → Prop} (hrole : ∀ f x, role { f with default := x } = role f) (hP : ∀ f x, P { f with default := x } = P f)
    (h : ∃ f, (fields.map fillContainer)[c.field]? = some f ∧ (P f → Documented (role f) f c)) :
    ∃ f, fields[c.field]? = some f ∧
      (P f → Documented (role f) f c ∨ (c.fn = .default ∧ f.isContainer = true)) := by
  obtain ⟨f, h1, h2⟩ := h
  rw [List.getElem?_map, Option.map_eq_some_iff] at h1
  obtain ⟨g, h1, rfl⟩ := h1
  refine ⟨g, h1, fun hg => ?_⟩
  rcases fillContainer_eq g with h | ⟨hc, sp, h⟩
  · rw [h] at h2
    exact .inl (h2 hg)
  · rw [h, hP, hrole] at h2
    rcases h2 hg with h | ⟨h, -⟩ | h
    · exact .inl (.inl h)
    · exact .inr ⟨h, hc⟩
    · exact .inl (.inr (.inr h))

section
variable [Env]

theorem callFields_of {lib : SynLib} {d : StructIn} {r : StructDecl} (h : d.read lib = .ok r)
    (hw : ShapeIs d.shape d.fields) : CallFields r.shape r.isTransparent r.default.isSome r.fields where
  names := (fieldsFine_of h hw).names
  unit := (fieldsFine_of h hw).unit
  plain := (fieldsFine_of h hw).plain
  filled := (fieldsTyped_of h hw).filled
  one ht := ((fieldsFine_of h hw).one ht).1

/-- C104 for structures: whatever the code that a derive generates calls for a field is documented: the source is the
module given by `with`, or the type of the field or of the argument of the first of the functions; the function is
one for the role of the field; and fields with `skip` are not read.  The `ParseMetaItem` derive also makes defaults for
containers.  Left out are flattened fields that are skipped or have `with`, `map` or `and_then`, and the field of a
transparent structure with `map` or `and_then`: see the negations below. -/
theorem c104_struct_partial {lib : SynLib} {d : StructIn} {r : StructDecl} (h : d.read lib = .ok r)
    (hw : ShapeIs d.shape d.fields) {which : Derive} {c : Call} (hc : c ∈ r.calls which) :
    ∃ f, r.fields[c.field]? = some f ∧ (r.Settled f → Documented (r.Role f) f c ∨
      (which = .metaItem ∧ c.fn = .default ∧ f.isContainer = true)) := by
  have hf := callFields_of h hw
  have weaken : ∀ {fields : List FieldDecl} {c : Call},
      (∃ f, fields[c.field]? = some f ∧ (f.FlatSettled → Documented (r.Role f) f c)) →
      ∃ f, fields[c.field]? = some f ∧ (r.Settled f → Documented (r.Role f) f c) :=
    fun ⟨f, h1, h2⟩ => ⟨f, h1, fun hs => h2 hs.1⟩
  have htrans : ∀ {fields : List FieldDecl} {fns : List TraitFn} {c : Call}, r.isTransparent = true →
      (∀ t, r.transparent = some t → ∀ fn ∈ fns, t.Role fn) → c ∈ transparentCalls fields fns →
      ∃ f, fields[c.field]? = some f ∧ (r.Settled f → Documented (r.Role f) f c) := by
    intro fields fns c ht hfns hc
    obtain ⟨t, hsome⟩ := isTransparent_some ht
    obtain ⟨f, h1, h2⟩ := transparentCalls_documented (hfns t hsome) c hc
    refine ⟨f, h1, fun hs => ?_⟩
    have hrole : r.Role f = t.Role := by
      funext fn
      simp [StructDecl.Role, ht, hsome]
    rw [hrole]
    exact h2 (hs.2 ht)
  cases which with
  | metaItem =>
    have key : ∃ f, (r.fields.map fillContainer)[c.field]? = some f ∧ (r.Settled f → Documented (r.Role f) f c) := by
      obtain ⟨h1, h2, h3⟩ := struct_documented hf.fill
      change c ∈ r.metaCalls at hc
      unfold StructDecl.metaCalls at hc
      dsimp only at hc
      split at hc
      · rename_i ht
        rcases List.mem_append.1 hc with hc | hc
        · refine htrans ht (fun t hsome fn hfn => ?_) hc
          rw [hsome] at hfn
          rcases List.mem_append.1 hfn with hfn | hfn
          · simp only [List.mem_cons, List.not_mem_nil, or_false] at hfn
            rcases hfn with rfl | rfl | rfl <;> trivial
          · exact furtherFns_role fn hfn
        · exact weaken (h3 false c hc)
      · rename_i ht
        rw [Bool.not_eq_true] at ht
        split at hc
        · rename_i hs
          rcases List.mem_append.1 hc with hc | hc
          · rcases List.mem_append.1 hc with hc | hc
            · exact weaken (h2 hs c hc)
            · exact weaken (h1 ht c hc)
          · exact weaken (h3 false c hc)
        · rename_i hs
          rcases List.mem_append.1 hc with hc | hc
          · rcases List.mem_append.1 hc with hc | hc
            · obtain ⟨i, f, hi, hc⟩ := mem_perFieldCalls.1 hc
              split at hc
              · rename_i hfl
                rw [List.mem_singleton] at hc
                subst hc
                have hm := List.mem_of_getElem? hi
                obtain ⟨ha, hr⟩ := hf.fill.plain hs f hm
                have hfl := isFlatten_of_flat hfl ha hr
                refine ⟨f, hi, fun hset => .inl ⟨(hset.1 hfl).2.2, (hset.1.source hfl).1.symm, ?_⟩⟩
                have hn := hf.fill.names f hm
                rw [hs] at hn
                simp only [StructDecl.Role, ht, Bool.false_eq_true, if_false]
                exact ⟨hfl, by simpa using hn⟩
              · exact absurd hc List.not_mem_nil
            · exact weaken (h1 ht c hc)
          · exact weaken (h3 false c hc)
        · exact absurd hc List.not_mem_nil
    obtain ⟨f, h1, h2⟩ := documented_fill (role := r.Role) (P := r.Settled) (fun _ _ => rfl) (fun _ _ => rfl) key
    exact ⟨f, h1, fun hs => (h2 hs).imp id fun h => ⟨rfl, h⟩⟩
  | attrs m =>
    obtain ⟨h1, h2, h3⟩ := struct_documented hf
    change c ∈ r.attrCalls at hc
    have key : ∃ f, r.fields[c.field]? = some f ∧ (r.Settled f → Documented (r.Role f) f c) := by
      unfold StructDecl.attrCalls at hc
      rcases List.mem_append.1 hc with hc | hc
      · rcases List.mem_append.1 hc with hc | hc
        · split at hc
          · exact weaken (h2 ‹_› c hc)
          · exact absurd hc List.not_mem_nil
        · split at hc
          · rename_i ht
            refine htrans ht (fun t _ fn hfn => ?_) hc
            rw [List.mem_singleton] at hfn
            subst hfn
            trivial
          · exact weaken (h1 (by simpa using ‹¬ r.isTransparent = true›) c hc)
      · exact weaken (h3 true c hc)
    obtain ⟨f, h1, h2⟩ := key
    exact ⟨f, h1, fun hs => .inl (h2 hs)⟩

/-- The functions that read a field from its input. -/
def readingFns : List TraitFn := [.append, .rest, .flatNamed, .flatUnnamed, .named, .parse]

omit [Env] in
theorem readFn_mem (f : FieldDecl) : f.readFn ∈ readingFns := by
  unfold FieldDecl.readFn
  repeat' split
  all_goals decide

omit [Env] in
theorem read_called {shape : Shape} {transparent var attr : Bool} {fields : List FieldDecl}
    (hf : CallFields shape transparent var fields) {i : Nat} {f : FieldDecl} (hi : fields[i]? = some f)
    (hp : f.isParsable = true) :
    f.readCall i ∈ itemCalls shape fields ++ postCalls shape fields attr transparent var := by
  cases hs : shape with
  | unit => rw [hf.unit hs] at hi; cases hi
  | named =>
    cases hfl : f.isFlat with
    | false =>
      unfold itemCalls
      refine List.mem_append_left _ (mem_perFieldCalls.2 ⟨i, f, hi, ?_⟩)
      simp [hfl, hp]
    | true =>
      refine List.mem_append_right _ ?_
      unfold postCalls
      refine List.mem_append_left _ (List.mem_append_left _ (List.mem_append_left _ ?_))
      rw [if_pos rfl]
      refine mem_perFieldCalls.2 ⟨i, f, hi, ?_⟩
      simp [hfl, hp]
  | unnamed =>
    unfold itemCalls
    refine List.mem_append_left _ (mem_perFieldCalls.2 ⟨i, f, hi, ?_⟩)
    obtain ⟨ha, hr⟩ := hf.plain hs f (List.mem_of_getElem? hi)
    simp [hp, FieldDecl.isAppend, FieldDecl.isRest, ha, hr]

omit [Env] in
theorem missing_called {named : Bool} : ∀ (fs : List FieldDecl) (extra : List Call) (n i : Nat) (f : FieldDecl), fs[i]? = some f →
    f.isContainer = false → f.isFlat = false → f.default = none →
    (⟨n + i, f.source, .missing⟩ : Call) ∈ fieldErrorsCalls named false false extra n fs
  | [], _, _, _, _, hi, _, _, _ => by cases hi
  | g :: fs, extra, n, 0, f, hi, hc, hfl, hd => by
    cases hi
    unfold fieldErrorsCalls
    refine List.mem_append_left _ ?_
    unfold fieldErrorCalls
    rw [parsePath_eq]
    cases named <;> simp [hc, hfl, hd]
  | g :: fs, extra, n, i + 1, f, hi, hc, hfl, hd => by
    unfold fieldErrorsCalls
    refine List.mem_append_right _ ?_
    have := missing_called (named := named) fs
      (if !named && !(g.isContainer || false) && g.isFlatten then extra ++ [⟨n, g.constraintTy, .fieldCount⟩] else extra)
      (n + 1) i f hi hc hfl hd
    rwa [Nat.add_assoc, Nat.add_comm 1 i] at this

omit [Env] in
theorem missing_post {shape : Shape} {attr : Bool} {fields : List FieldDecl} (hs : shape ≠ .unit) {i : Nat} {f : FieldDecl}
    (hi : fields[i]? = some f) (hc : f.isContainer = false) (hfl : f.isFlat = false) (hd : f.default = none) :
    (⟨i, f.source, .missing⟩ : Call) ∈ postCalls shape fields attr false false := by
  unfold postCalls
  split
  · exact absurd rfl hs
  · refine List.mem_append_left _ (List.mem_append_right _ ?_)
    have := missing_called (named := decide (shape = .named)) fields [] 0 i f hi hc hfl hd
    rwa [Nat.zero_add] at this

omit [Env] in
theorem fill_same {fields : List FieldDecl} {i : Nat} {f : FieldDecl} (hi : fields[i]? = some f) (hp : f.isParsable = true) :
    (fields.map fillContainer)[i]? = some f := by
  rw [List.getElem?_map, hi]
  rcases fillContainer_eq f with h | ⟨h, -⟩
  · rw [Option.map_some, h]
  · simp [FieldDecl.isParsable, h] at hp

/-- C104, the other way round: the generated code does read every field that is not skipped and is no container, from the
documented source, with the function for its role. -/
theorem c104_struct_reads {lib : SynLib} {d : StructIn} {r : StructDecl} (h : d.read lib = .ok r)
    (hw : ShapeIs d.shape d.fields) (ht : r.isTransparent = false) (which : Derive) {i : Nat} {f : FieldDecl}
    (hi : r.fields[i]? = some f) (hp : f.isParsable = true) :
    (∃ fn ∈ readingFns, f.Role fn ∧ ⟨i, f.source, fn⟩ ∈ r.calls which) ∧
    (f.isFlat = false → f.default = none → r.default = none → ⟨i, f.source, .missing⟩ ∈ r.calls which) := by
  have hf := callFields_of h hw
  have hc : f.isContainer = false := by
    cases hc : f.isContainer with
    | false => rfl
    | true => simp [FieldDecl.isParsable, hc] at hp
  have hs : r.shape ≠ .unit := fun hs => by rw [hf.unit hs] at hi; cases hi
  suffices key : ∀ x, (x ∈ itemCalls r.shape r.fields ++ postCalls r.shape r.fields true r.isTransparent r.default.isSome →
        x ∈ r.attrCalls) ∧
      (x ∈ itemCalls r.shape (r.fields.map fillContainer) ++
          postCalls r.shape (r.fields.map fillContainer) false r.isTransparent r.default.isSome →
        x ∈ r.metaCalls) by
    have hrd : ∀ x, x ∈ r.calls which ↔ x ∈ (match which with | .metaItem => r.metaCalls | .attrs _ => r.attrCalls) :=
      fun x => Iff.rfl
    constructor
    · refine ⟨f.readFn, readFn_mem f, readFn_role, ?_⟩
      rw [hrd, ← parsePath_eq]
      cases which with
      | metaItem => exact (key _).2 (read_called hf.fill (fill_same hi hp) hp)
      | attrs m => exact (key _).1 (read_called hf hi hp)
    · intro hfl hd hsd
      rw [hrd]
      rw [ht, hsd] at key
      cases which with
      | metaItem => exact (key _).2 (List.mem_append_right _ (missing_post hs (fill_same hi hp) hc hfl hd))
      | attrs m => exact (key _).1 (List.mem_append_right _ (missing_post hs hi hc hfl hd))
  intro x
  constructor
  · intro hx
    unfold StructDecl.attrCalls
    rw [List.append_assoc]
    refine List.mem_append_right _ ?_
    simp only [ht, Bool.false_eq_true, if_false]
    rw [ht] at hx
    exact hx
  · intro hx
    unfold StructDecl.metaCalls
    simp only [ht, Bool.false_eq_true, if_false]
    rw [ht] at hx
    cases hshape : r.shape with
    | unit => exact absurd hshape hs
    | named =>
      rw [hshape] at hx
      simp only
      rw [List.append_assoc]
      exact List.mem_append_right _ hx
    | unnamed =>
      rw [hshape] at hx
      simp only
      rw [List.append_assoc]
      exact List.mem_append_right _ hx

/-! ## Enums -/

omit [Env] in
/-- The functions for a field of a variant. -/
def VariantDecl.Role (v : VariantDecl) (f : FieldDecl) (fn : TraitFn) : Prop :=
  if v.transparent = some true then fn = .named else f.Role fn

omit [Env] in
/-- Nothing speaks against a field: it is settled as in a structure; the names of a skipped variant are not asked for;
the field of a transparent variant has no `with`. -/
def VariantDecl.Settled (v : VariantDecl) (f : FieldDecl) : Prop :=
  f.FlatSettled ∧ (v.isSkipped = true → v.isFlatten = true → f.isFlatten = false) ∧
  (v.transparent = some true → f.with_ = none)

/-- C104 for enums: as `c104_struct_partial`.  Also left out are the flattened fields of flattened variants that are
skipped, and the field of a transparent variant with `with`. -/
theorem c104_enum_partial {lib : SynLib} {d : EnumIn} {r : EnumDecl} (h : d.read lib = .ok r)
    (hw : ∀ v ∈ d.variants, ShapeIs v.shape v.fields) (hp : (r.variants.any (·.genPanics)) = false) {which : Derive}
    {j : Nat} {c : Call} (hc : (j, c) ∈ r.calls which) :
    ∃ v f, r.variants[j]? = some v ∧ v.fields[c.field]? = some f ∧
      (v.Settled f → v.isSkipped = false ∧ Documented (v.Role f) f c) := by
  unfold EnumDecl.calls at hc
  obtain ⟨⟨v, j'⟩, hv, hc⟩ := List.mem_flatMap.1 hc
  obtain ⟨c', hc, he⟩ := List.mem_map.1 hc
  cases he
  have hj := List.mem_zipIdx_iff_getElem?.1 hv
  have hvm := List.mem_of_getElem? hj
  have hk := variantKnown_of h hw hp v hvm
  have hfill : ∀ f ∈ v.fields, f.isParsable = false → f.default.isSome = true ∨ f.isContainer = true := by
    obtain ⟨hvs, -⟩ := EnumIn.read_ok h
    have : (Res.ok v : Res VariantDecl) ∈ d.variants.map (VariantIn.read lib) := by
      rw [hvs]; exact List.mem_map_of_mem hvm
    obtain ⟨w, hw', he⟩ := List.mem_map.1 this
    exact (variant_facts he (hw w hw').fits).1
  have htd : v.transparent.getD false = true ↔ v.transparent = some true := by
    cases v.transparent <;> simp
  have hnames : ∀ x : Call, x ∈ v.namesCalls ∨ x ∈ v.acceptsAllCalls → ∃ f, v.fields[x.field]? = some f ∧
      v.isFlatten = true ∧ f.isFlatten = true ∧ x.src = .type ∧ (x.fn = .fieldNames ∨ x.fn = .acceptsAll) := by
    intro x hx
    rcases hx with hx | hx
    · unfold VariantDecl.namesCalls at hx
      split at hx
      · obtain ⟨i, f, hi, hx⟩ := mem_perFieldCalls.1 hx
        split at hx
        · rw [List.mem_singleton] at hx
          subst hx
          exact ⟨f, hi, ‹_›, ‹_›, rfl, .inl rfl⟩
        · exact absurd hx List.not_mem_nil
      · exact absurd hx List.not_mem_nil
    · unfold VariantDecl.acceptsAllCalls at hx
      split at hx
      · unfold acceptsAllCalls at hx
        split at hx
        · exact absurd hx List.not_mem_nil
        · obtain ⟨i, f, hi, hx⟩ := mem_perFieldCalls.1 hx
          split at hx
          · rw [List.mem_singleton] at hx
            subst hx
            exact ⟨f, hi, ‹_›, ‹_›, rfl, .inr rfl⟩
          · exact absurd hx List.not_mem_nil
      · exact absurd hx List.not_mem_nil
  have hfirst : ∀ x : Call, x ∈ v.namesCalls ∨ x ∈ v.acceptsAllCalls → ∃ f, v.fields[x.field]? = some f ∧
      (v.Settled f → v.isSkipped = false ∧ Documented (v.Role f) f x) := by
    intro x hx
    obtain ⟨f, hi, hvf, hff, hsrc, hfn⟩ := hnames x hx
    refine ⟨f, hi, fun hs => ?_⟩
    have hsk : v.isSkipped = false := by
      cases hsk : v.isSkipped with
      | false => rfl
      | true => rw [hs.2.1 hsk hvf] at hff; cases hff
    refine ⟨hsk, .inl ⟨(hs.1 hff).2.2, by rw [hsrc, (hs.1.source hff).1], ?_⟩⟩
    unfold VariantDecl.Role
    split
    · rename_i ht
      have := (hk.one hsk ht).1 f (List.mem_of_getElem? hi) (hs.1 hff).2.2
      simp [FieldDecl.isFlat, hff] at this
    · have hid := (hk.names f (List.mem_of_getElem? hi)).2 (hk.flatNamed hvf)
      rcases hfn with h | h <;> rw [h] <;> exact ⟨hff, hid⟩
  suffices hx : ∃ f, v.fields[c.field]? = some f ∧
      (v.Settled f → v.isSkipped = false ∧ Documented (v.Role f) f c) by
    obtain ⟨f, h1, h2⟩ := hx
    exact ⟨v, f, hj, h1, h2⟩
  rcases List.mem_append.1 hc with hc | hc
  · rcases List.mem_append.1 hc with hc | hc
    · exact hfirst _ (.inl hc)
    · have key : ∀ b : Bool, c ∈ (if b then v.acceptsAllCalls else []) → c ∈ v.acceptsAllCalls := by
        intro b hx
        cases b with
        | true => exact hx
        | false => exact absurd hx List.not_mem_nil
      exact hfirst _ (.inr (key _ hc))
  · split at hc
    · exact absurd hc List.not_mem_nil
    · rename_i hsk
      rw [Bool.not_eq_true] at hsk
      have hf : CallFields v.shape (v.transparent.getD false) false v.fields :=
        ⟨hk.names, hk.unit, hk.plain, fun _ => hfill, fun ht => (hk.one hsk (htd.1 ht)).1⟩
      have hrole : v.transparent.getD false = false → v.Role = FieldDecl.Role := by
        intro ht
        funext f fn
        have : v.transparent ≠ some true := fun h => by rw [htd.2 h] at ht; cases ht
        simp [VariantDecl.Role, this]
      have weaken : ∀ {x : Call}, (∃ f, v.fields[x.field]? = some f ∧ (f.FlatSettled → Documented (v.Role f) f x)) →
          ∃ f, v.fields[x.field]? = some f ∧ (v.Settled f → v.isSkipped = false ∧ Documented (v.Role f) f x) :=
        fun ⟨f, h1, h2⟩ => ⟨f, h1, fun hs => ⟨hsk, h2 hs.1⟩⟩
      unfold VariantDecl.calls at hc
      dsimp only at hc
      rcases List.mem_append.1 hc with hc | hc
      · split at hc
        · rename_i ht
          split at hc
          · rename_i f i hx
            rw [List.mem_singleton] at hc
            subst hc
            have h1 := List.mem_zipIdx_iff_getElem?.1 (List.mem_of_find?_eq_some hx)
            have h2 := List.find?_some hx
            rw [Bool.and_eq_true] at h2
            refine ⟨f, h1, fun hs => ⟨hsk, .inl ⟨h2.1, constraintTy_eq (hs.2.2 (htd.1 ht)), ?_⟩⟩⟩
            unfold VariantDecl.Role
            rw [if_pos (htd.1 ht)]
          · exact absurd hc List.not_mem_nil
        · rename_i ht
          rw [Bool.not_eq_true] at ht
          rw [hrole ht] at weaken ⊢
          rcases List.mem_append.1 hc with hc | hc
          · split at hc
            · rename_i hn
              rcases List.mem_append.1 hc with hc | hc
              · exact weaken (fieldNamesCalls_documented hn hf _ hc)
              · split at hc
                · exact absurd hc List.not_mem_nil
                · exact weaken (acceptsAllCalls_documented hn hf _ hc)
            · exact absurd hc List.not_mem_nil
          · exact weaken (itemCalls_documented hf _ hc)
      · exact weaken (postCalls_documented hf hrole _ hc)

/-- C104, the other way round, for enums: the field of every variant that is not skipped and not transparent is read. -/
theorem c104_enum_reads {lib : SynLib} {d : EnumIn} {r : EnumDecl} (h : d.read lib = .ok r)
    (hw : ∀ v ∈ d.variants, ShapeIs v.shape v.fields) (hp : (r.variants.any (·.genPanics)) = false) (which : Derive)
    {j : Nat} {v : VariantDecl} (hj : r.variants[j]? = some v) (hsk : v.isSkipped = false) (ht : v.transparent ≠ some true)
    {i : Nat} {f : FieldDecl} (hi : v.fields[i]? = some f) (hpar : f.isParsable = true) :
    (∃ fn ∈ readingFns, f.Role fn ∧ (j, ⟨i, f.source, fn⟩) ∈ r.calls which) ∧
    (f.isFlat = false → f.default = none → (j, ⟨i, f.source, .missing⟩) ∈ r.calls which) := by
  have hk := variantKnown_of h hw hp v (List.mem_of_getElem? hj)
  have htd : v.transparent.getD false = false := by
    cases htr : v.transparent with
    | none => rfl
    | some b => cases b with
      | true => exact absurd htr ht
      | false => rfl
  have hf : CallFields v.shape false true v.fields :=
    ⟨hk.names, hk.unit, hk.plain, fun h => Bool.noConfusion h, fun h => Bool.noConfusion h⟩
  have hfalse : ∀ attr, f.readCall i ∈ itemCalls v.shape v.fields ++ postCalls v.shape v.fields attr false false := by
    intro attr
    cases hs : v.shape with
    | unit => rw [hk.unit hs] at hi; cases hi
    | named =>
      rcases List.mem_append.1 (read_called (attr := attr) hf hi hpar) with hm | hm
      · rw [hs] at hm
        exact List.mem_append_left _ hm
      · refine List.mem_append_right _ ?_
        rw [hs] at hm
        unfold postCalls at hm ⊢
        have hnil : ∀ (n : Bool) (fs : List FieldDecl) (e : List Call) (k : Nat), fieldErrorsCalls n false true e k fs = [] := by
          intro n fs
          induction fs with
          | nil => intro e k; rfl
          | cons g gs ih =>
            intro e k
            unfold fieldErrorsCalls
            rw [ih]
            simp [fieldErrorCalls]
        simp only [hnil, List.append_nil, List.mem_append] at hm ⊢
        rcases hm with (hm | hm) | hm
        · exact .inl (.inl (.inl hm))
        · exact .inl (.inl (.inr hm))
        · exact .inr hm
    | unnamed =>
      unfold itemCalls
      refine List.mem_append_left _ (mem_perFieldCalls.2 ⟨i, f, hi, ?_⟩)
      obtain ⟨ha, hr⟩ := hk.plain hs f (List.mem_of_getElem? hi)
      simp [hpar, FieldDecl.isAppend, FieldDecl.isRest, ha, hr]
  have hc : f.isContainer = false := by
    cases hc : f.isContainer with
    | false => rfl
    | true => simp [FieldDecl.isParsable, hc] at hpar
  have hs : v.shape ≠ .unit := fun hs => by rw [hk.unit hs] at hi; cases hi
  have key : ∀ x, (∀ attr, x ∈ itemCalls v.shape v.fields ++ postCalls v.shape v.fields attr false false) →
      (j, x) ∈ r.calls which := by
    intro x hx
    unfold EnumDecl.calls
    refine List.mem_flatMap.2 ⟨(v, j), List.mem_zipIdx_iff_getElem?.2 hj, List.mem_map.2 ⟨x, ?_, rfl⟩⟩
    refine List.mem_append_right _ ?_
    simp only [hsk, Bool.false_eq_true, if_false]
    unfold VariantDecl.calls
    simp only [htd, Bool.false_eq_true, if_false]
    rw [List.append_assoc]
    exact List.mem_append_right _ (hx _)
  refine ⟨⟨f.readFn, readFn_mem f, readFn_role, key _ fun attr => ?_⟩, fun hfl hd => key _ fun attr => ?_⟩
  · rw [← parsePath_eq]
    exact hfalse attr
  · exact List.mem_append_right _ (missing_post hs hi hc hfl hd)

end

end Deluxe
