import Verif.Props.TupleInline
import Verif.Props.TupleStructs
/-!
# C85: a missing field of a tuple structure is reported under its number
-/
namespace Deluxe

variable {V : Type}

/-- What a message calls the field at position `k` of a tuple structure: `k`, or `k on #[path]` if the structure is read
from attributes. -/
def numberName (path : Option Str) (k : Nat) : Str :=
  match path with
  | none => (toString k).toList
  | some p => (toString k).toList ++ " on #[".toList ++ p ++ "]".toList

theorem missingIndexName_eq (d : Fields V) (n : Nat) : missingIndexName d n = numberName d.attrName n := by
  unfold missingIndexName numberName
  cases d.attrName <;> rfl

theorem count_not_container {fs : List (Field V)} {k : Nat} (hk : k ≤ fs.length)
    (hc : ∀ x ∈ fs.take k, x.isContainer = false) : (fs.take k).countP (!·.isContainer) = k := by
  rw [List.countP_eq_length.2 (fun x hx => by simp [hc x hx]), List.length_take]
  omega

section
variable [Env]

/-- C85: if there are too few items, the message for a required field without item has the number of the field,
counted from the number `index` of the first one.  No field is flattened, and no container field stands before. -/
theorem c85_number_partial (d : Fields V) (ha : Accepted d) (ht : d.transparent = false)
    (hn : NoFlat d.fields) (hm : ∀ f ∈ d.fields, ∀ n sp, f.item.missing n sp ≠ .panic) (mode : Mode) (index : Nat)
    (l : List Stream) (bs : List (Nat × Except SynErr V)) (h : ItemsAll (TupleSeg d.fields) l bs) (hnum : Numbered 0 bs)
    (f : Field V) (k : Nat) (hf : d.fields[k]? = some f) (hp : f.isParsable = true)
    (hfew : bs.length ≤ rank d.fields k) (hd : f.default = none) (hs : d.target = none)
    (hc : ∀ x ∈ d.fields.take k, x.isContainer = false)
    (hty : ∀ n sp, f.item.missing n sp = .err (missingFieldError n sp)) :
    ∃ e l', unnamedFlat d mode index l = (.err e, l') ∧
      ⟨mode.toFullSpan l', .missingField (numberName d.attrName (index + k))⟩ ∈ e.toList := by
  have hpos : 0 < d.fields.countP (·.isParsable) :=
    List.countP_pos_iff.2 ⟨f, List.mem_of_getElem? hf, hp⟩
  have hk : k < d.fields.length := (List.getElem?_eq_some_iff.1 hf).1
  obtain ⟨r, l', trans, h1, _, _, h2⟩ := c41_messages d ha ht hn hm hpos mode index l bs h hnum _ rfl
  have hmem : ⟨mode.toFullSpan l', .missingField (numberName d.attrName (index + k))⟩ ∈
      eachField d.fields (posMissingMsgs d index (mode.toFullSpan l')
        ((bs.map (·.2)).take (d.fields.countP (·.isParsable)))) := by
    rw [eachField, List.mem_flatten]
    refine ⟨_, List.mem_map.2 ⟨(f, k), List.mem_zipIdx_iff_getElem?.2 hf, rfl⟩, ?_⟩
    simp only [posMissingMsgs]
    rw [if_pos ⟨hp, by simp; omega, hd, hs⟩, posMissing, hty, count_not_container (by omega) hc, missingIndexName_eq]
    simp [missingFieldError, SynErr.new, SynErr.toList]
  obtain ⟨h3, _⟩ := h2 _ rfl
  obtain ⟨e, h4, h5⟩ := h3 (by
    intro hnil
    simp only [List.append_eq_nil_iff] at hnil
    rw [hnil.1.2] at hmem
    cases hmem)
  refine ⟨e, l', by rw [h1, h4], ?_⟩
  rw [h5]
  simp [hmem]

/-- C85: if every field is required and the items are fine but too few, then the messages are exactly one for every
field that has no item, with its number. -/
theorem c85_missing (d : Fields V) (ht : d.transparent = false) (hs : d.target = none)
    (hp : ∀ f ∈ d.fields, f.Plain ∧ f.transforms = [] ∧ f.default = none ∧
      ∀ n sp, f.item.missing n sp = .err (missingFieldError n sp))
    (mode : Mode) (index : Nat) (l : List Stream) (vs : List V)
    (h : ItemsAll (TupleSeg d.fields) l (vs.zipIdx.map fun x => (x.2, .ok x.1))) (hfew : vs.length < d.fields.length) :
    ∃ e l', unnamedFlat d mode index l = (.err e, l') ∧
      e.toList = (List.range' vs.length (d.fields.length - vs.length)).map fun k =>
        ⟨mode.toFullSpan l', .missingField (numberName d.attrName (index + k))⟩ := by
  have hn : NoFlat d.fields := fun f hf => (hp f hf).1.1
  have ha : Accepted d := ⟨fun f hf h => (by rw [(hp f hf).1.2] at h; cases h),
    fun t ht => (by rw [hs] at ht; cases ht)⟩
  have hm : ∀ f ∈ d.fields, ∀ n sp, f.item.missing n sp ≠ .panic := fun f hf n sp h => by
    rw [(hp f hf).2.2.2 n sp] at h; cases h
  have hcount : ∀ fs : List (Field V), (∀ f ∈ fs, f ∈ d.fields) → fs.countP (·.isParsable) = fs.length := fun fs hfs =>
    List.countP_eq_length.2 fun f hf => (hp f (hfs f hf)).1.2
  have hc : d.fields.countP (·.isParsable) = d.fields.length := hcount _ fun _ h => h
  have hnc : ∀ f ∈ d.fields, f.isContainer = false := fun f hf => by
    have := (hp f hf).1.2
    simp only [Field.isParsable, Bool.and_eq_true, Bool.not_eq_true'] at this
    exact this.1
  have hnum : Numbered 0 (vs.zipIdx.map fun x => (x.2, (.ok x.1 : Except SynErr V))) := by
    simp only [Numbered, List.map_map, List.length_map, List.length_zipIdx, Nat.zero_add, List.map_id']
    rw [show ((fun x : Nat × Except SynErr V => x.1) ∘ fun x : V × Nat => (x.2, Except.ok x.1)) = Prod.snd from rfl,
      List.zipIdx_map_snd, List.range_eq_range']
  obtain ⟨r, l', trans, h1, h2, h3, h4⟩ := c41_messages d ha ht hn hm (by omega) mode index l _ h hnum _ rfl
  have hx : (List.map (fun x : Nat × Except SynErr V => x.2)
      (vs.zipIdx.map fun x => (x.2, (.ok x.1 : Except SynErr V)))).take (d.fields.countP (·.isParsable)) =
      vs.map .ok := by
    rw [hc, List.map_map, show ((fun x : Nat × Except SynErr V => x.2) ∘ fun x : V × Nat => (x.2, Except.ok x.1)) =
      Except.ok ∘ Prod.fst from rfl, ← List.map_map, List.zipIdx_map_fst, List.take_of_length_le (by simp; omega)]
  rw [hx] at h3 h4
  have htr : trans.flatten = [] := by
    rw [List.flatten_eq_nil_iff]
    intro m hm
    obtain ⟨k, hk⟩ := List.getElem?_of_mem hm
    have hkl := (List.getElem?_eq_some_iff.1 hk).1
    have hf : d.fields[k]? = some (d.fields[k]'(by omega)) := List.getElem?_eq_getElem _
    obtain ⟨m', hm', hT⟩ := h3 k _ hf
    rw [hk] at hm'
    cases hm'
    rcases hT with ⟨b, e, _, hr, _⟩ | ⟨rfl, _⟩
    · rw [(hp _ (List.mem_of_getElem? hf)).2.1] at hr
      cases hr
    · rfl
  have herr : ∀ ws : List V, errMsgs (ws.map (Except.ok : V → Except SynErr V)) = [] := by
    intro ws
    induction ws with
    | nil => rfl
    | cons _ _ ih => exact ih
  have hrank : ∀ k, k ≤ d.fields.length → rank d.fields k = k := fun k hk => by
    rw [rank, hcount _ (fun f hf => List.mem_of_mem_take hf), List.length_take]
    omega
  have hmsgs : eachField d.fields (posMissingMsgs d index (mode.toFullSpan l') (vs.map .ok)) =
      (List.range' vs.length (d.fields.length - vs.length)).map fun k =>
        ⟨mode.toFullSpan l', .missingField (numberName d.attrName (index + k))⟩ := by
    have hone : ∀ x ∈ d.fields.zipIdx, posMissingMsgs d index (mode.toFullSpan l') (vs.map .ok) x.1 x.2 =
        if vs.length ≤ x.2 then [⟨mode.toFullSpan l', .missingField (numberName d.attrName (index + x.2))⟩] else [] := by
      rintro ⟨f, k⟩ hx
      have hf := List.mem_zipIdx_iff_getElem?.1 hx
      have hk := (List.getElem?_eq_some_iff.1 hf).1
      have hfp := hp f (List.mem_of_getElem? hf)
      simp only [posMissingMsgs, List.length_map, hrank k (by omega)]
      by_cases hle : vs.length ≤ k
      · rw [if_pos ⟨hfp.1.2, hle, hfp.2.2.1, hs⟩, if_pos hle, posMissing, hfp.2.2.2,
          count_not_container (by omega) (fun x hx => hnc x (List.mem_of_mem_take hx)), missingIndexName_eq]
        rfl
      · rw [if_neg (fun h => hle h.2.1), if_neg hle]
    rw [eachField, List.map_congr_left hone]
    rw [show (fun x : Field V × Nat => if vs.length ≤ x.2 then
        [(⟨mode.toFullSpan l', .missingField (numberName d.attrName (index + x.2))⟩ : Msg)] else []) =
        (fun k => if vs.length ≤ k then
          [(⟨mode.toFullSpan l', .missingField (numberName d.attrName (index + k))⟩ : Msg)] else []) ∘ Prod.snd from rfl,
      ← List.map_map, List.zipIdx_map_snd]
    obtain ⟨j, hj⟩ := Nat.exists_eq_add_of_le (Nat.le_of_lt hfew)
    rw [hj, show vs.length + j - vs.length = j by omega, ← List.range'_append_1, List.map_append, List.flatten_append,
      List.flatten_eq_nil_iff.2, List.nil_append, Nat.zero_add]
    · generalize hb : vs.length = b
      rw [List.map_congr_left (g := fun k => [(⟨mode.toFullSpan l',
        .missingField (numberName d.attrName (index + k))⟩ : Msg)]) (fun k hk => by
          rw [if_pos]
          have := List.mem_range'_1.1 hk
          omega)]
      rw [← List.flatMap_def]
      exact List.map_eq_flatMap.symm
    · intro m hm
      obtain ⟨k, hk, rfl⟩ := List.mem_map.1 hm
      rw [if_neg]
      have := List.mem_range'_1.1 hk
      omega
  obtain ⟨h5, _⟩ := h4 _ rfl
  rw [htr, herr, hmsgs] at h5
  simp only [List.nil_append, List.append_nil] at h5
  obtain ⟨e, h6, h7⟩ := h5 (by
    intro hnil
    have := congrArg List.length hnil
    simp at this
    omega)
  exact ⟨e, l', by rw [h1, h6], h7⟩

/-! ## Examples -/

/-- `struct S(bool, bool, bool);` -/
def triple : Fields Bool :=
  ⟨[plainField [] boolDict, plainField [] boolDict, plainField [] boolDict], none, false, false, none, none, 0⟩

/-- C85: `(true)` misses the fields 1 and 2. -/
example : ∃ e l', unnamedFlat triple (.named 9) 0 [⟨[.ident "true".toList 1], 3, none⟩] = (.err e, l') ∧
    e.toList = [⟨9, .missingField ['1']⟩, ⟨9, .missingField ['2']⟩] :=
  c85_missing triple rfl rfl (fun f hf => by
      simp only [triple, List.mem_cons, List.not_mem_nil, or_false, or_self] at hf
      subst hf
      exact ⟨⟨rfl, rfl⟩, rfl, rfl, fun _ _ => rfl⟩) (.named 9) 0 _ [true]
    (.cons (bs := [_]) (.last (v := [.ident "true".toList 1]) (by simp)
      (.inl ⟨_, 0, ⟨rfl, rfl, rfl⟩, fun u => ⟨u, rfl⟩⟩)) .nil) (by decide)

/-- C85: `Pair` of C41, whose second field has a default, misses field 0 on an empty list. -/
example : ∃ e l', unnamedFlat pair.data (.named 9) 0 [⟨[], 3, none⟩] = (.err e, l') ∧
    ⟨9, .missingField ['0']⟩ ∈ e.toList :=
  c85_number_partial pair.data pair_accepted.fields rfl
    (fun f hf => by
      simp only [StructDef.data, pair, List.mem_cons, List.not_mem_nil, or_false] at hf
      rcases hf with rfl | rfl <;> rfl)
    (fun f hf n sp => (pair_fine.item f hf).missing n sp) (.named 9) 0 [⟨[], 3, none⟩] []
    (.cons (bs := []) .nil .nil) rfl (plainField [] boolDict) 0 rfl rfl (by simp) rfl rfl (by simp)
    (fun _ _ => rfl)

/-! ## Where it fails -/

/-- `#[deluxe(attributes(x))] struct S(#[deluxe(container)] O, bool);`, a value being the number of attributes of the
object, or a boolean as 0 or 1 -/
def containerTuple : StructDef Nat where
  shape := .unnamed
  fields := [{ plainField [] (boolDict.map fun b => if b then 1 else 0) with container := some true },
    plainField [] (boolDict.map fun b => if b then 1 else 0)]
  default := none
  transparent := none
  allowUnknown := none
  andThens := []

/-- A container field is not counted: the field `self.1` that is missing in `#[x()]` is reported as field 0
(macros/types/field.rs:540-542). -/
theorem c85_container_violated : ∃ sp,
    (containerTuple.attrTarget [["x".toList]]).parseAttributes HasAttrs.vec List.length
      [⟨⟨false, [("x".toList, false)], 1⟩, .list .paren []⟩] =
    .err (.new sp (.missingField (numberName (some "x".toList) 0))) := ⟨_, rfl⟩

/-- After a flattened field the fields before are counted twice: with `struct Outer(#[deluxe(flatten)] Inner, bool)` and
`struct Inner(bool)`, the field 1 that is missing in `(true)` is reported as field 2 (macros/types/field.rs:592 and
944-956). -/
theorem c85_flattened_violated : ∃ sp l',
    unnamedFlat (⟨[tupleField ⟨[boolField], none, false, false, none, none, 0⟩, boolField], none, false, false, none,
      none, 0⟩ : Fields (List Bool)) .unnamed 0 [⟨[.ident "true".toList 1], 3, none⟩] =
    (.err (.new sp (.missingField (numberName none 2))), l') := ⟨_, _, rfl⟩

/-- Before a flattened field they are not counted at all: with `struct Outer(bool, #[deluxe(flatten)] Inner)` and
`struct Inner(bool)`, both fields missing in `()` are reported as field 0 (macros/types/field.rs:562-576). -/
theorem c85_before_flattened_violated : ∃ sp sp' l',
    unnamedFlat (⟨[boolField, tupleField ⟨[boolField], none, false, false, none, none, 0⟩], none, false, false, none,
      none, 0⟩ : Fields (List Bool)) .unnamed 0 [⟨[], 3, none⟩] =
    (.err ⟨⟨sp, .missingField (numberName none 0)⟩, [⟨sp', .missingField (numberName none 0)⟩]⟩, l') :=
  ⟨_, _, _, rfl⟩

end

end Deluxe
