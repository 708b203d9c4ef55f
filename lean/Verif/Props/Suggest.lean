import Verif.Props.DefBad
import Verif.Props.Paths
/-!
# Suggestions for misspelt attributes of a definition (C114)
-/
namespace Deluxe

section
variable [Env]

/-- What a message about a wrong key should suggest among the keys that exist: one that is most similar, if one of them is
similar enough, and nothing otherwise. -/
def Suggests (key : Str) (exist : List Str) (c : Option Str) : Prop :=
  match c with
  | none => ∀ n ∈ exist, Env.sim key n ≤ Env.simMin
  | some x => x ∈ exist ∧ Env.simMin < Env.sim key x ∧ ∀ n ∈ exist, Env.sim key n ≤ Env.sim key x

/-- The keys that are read. -/
def keysOf (readers : List (String × Reader)) : List Str := readers.map fun r => r.1.toList

omit [Env] in
theorem keysOf_enum (lib : SynLib) : keysOf (enumReaders lib) =
    [txt "default", txt "crate", txt "attributes", txt "and_then", txt "allow_unknown_fields"] := rfl

theorem unknownError_suggests (key : Str) (sp : Span) (names : List Str) :
    ∃ c, (unknownError key sp names).toList = [⟨sp, .unknownField key c⟩] ∧ Suggests key names c := by
  have hc := closestLoop_spec key [] names none (by simp) (by simp)
  rw [List.nil_append] at hc
  refine ⟨(closestLoop key none names).map (·.2), rfl, ?_⟩
  cases h : closestLoop key none names with
  | none => exact hc.1 h
  | some p =>
    obtain ⟨v, f⟩ := p
    obtain ⟨pre, post, e, h1, h2, h3⟩ := hc.2 v f h
    refine ⟨by rw [e]; simp, h1, fun n hn => ?_⟩
    rw [e] at hn
    simp only [List.mem_append, List.mem_cons] at hn
    rcases hn with hn | rfl | hn
    · exact Nat.le_of_lt (h2 n hn)
    · exact Nat.le_refl _
    · exact h3 n hn

/-- A message about the key with a suggestion among these is in the list. -/
def Corrected (key : Str) (sp : Span) (exist : List Str) (ms : List Msg) : Prop :=
  ∃ c, ⟨sp, .unknownField key c⟩ ∈ ms ∧ Suggests key exist c

theorem corrected_of {names : List String} {exist : List Str} (he : names.map String.toList = exist) {bs : List Entry}
    {key : Str} {sp : Span} (hb : .unknown key sp ∈ bs) {before after ms : List Msg}
    (h : (before ++ bs.flatMap (Entry.msgs names) ++ after).Sublist ms) : Corrected key sp exist ms := by
  obtain ⟨c, h1, h2⟩ := unknownError_suggests key sp exist
  refine ⟨c, h.subset (List.mem_append_left _ (List.mem_append_right _ (List.mem_flatMap.2 ⟨_, hb, ?_⟩))), h2⟩
  show _ ∈ (unknownError key sp (names.map String.toList)).toList
  rw [he, h1]
  exact List.mem_cons_self

/-- C114: if an attribute of a field is misspelt, the message suggests the attribute of fields that is most similar, if one
of them is similar enough. -/
theorem c114_field {lib : SynLib} {f : FieldIn} {ss : List Stream} {bs : List Entry}
    (hm : ListStreams (deluxeAttrs f.attrs) ss) (hi : ItemsAll (WrittenSeg (fieldReaders lib)) ss bs)
    (hf : FitsField f bs) {key : Str} {sp : Span} (hb : .unknown key sp ∈ bs) :
    ∃ e, f.read lib = .err e ∧ Corrected key sp (keysOf (fieldReaders lib)) e.toList := by
  obtain ⟨e, h1, h2⟩ := (c95_field hm hi ⟨_, hb, rfl⟩).2 hf
  exact ⟨e, h1, corrected_of (names := fieldSuggested) (before := []) (after := []) rfl hb (by simpa using h2)⟩

/-- C114: likewise for structures. -/
theorem c114_struct {lib : SynLib} (hl : lib.Good) {d : StructIn} {ss : List Stream} {bs : List Entry}
    (hm : ListStreams (deluxeAttrs d.attrs) ss) (hi : ItemsAll (WrittenSeg (structReaders lib)) ss bs)
    (hf : FitsStruct d.shape (d.fields.filterMap fun f => (f.read lib).value?) bs) {key : Str} {sp : Span}
    (hb : .unknown key sp ∈ bs) :
    ∃ e, d.read lib = .err e ∧ Corrected key sp (keysOf (structReaders lib)) e.toList := by
  obtain ⟨e, h1, h2⟩ := (c95_struct hl hm hi (.inr ⟨_, hb, rfl⟩)).2 hf
  exact ⟨e, h1, corrected_of (names := structSuggested) (after := []) rfl hb (by rw [List.append_nil]; exact h2)⟩

/-- C114: likewise for variants. -/
theorem c114_variant {lib : SynLib} (hl : lib.Good) {v : VariantIn} {ss : List Stream} {bs : List Entry}
    (hm : ListStreams (deluxeAttrs v.attrs) ss) (hi : ItemsAll (WrittenSeg variantReaders) ss bs)
    (hf : FitsVariant v (v.fields.filterMap fun f => (f.read lib).value?) bs)
    (hn : lib.isIdent (lib.snake (bareName v.ident.1)) = true) {key : Str} {sp : Span} (hb : .unknown key sp ∈ bs) :
    ∃ e, v.read lib = .err e ∧ Corrected key sp (keysOf variantReaders) e.toList := by
  obtain ⟨e, h1, h2⟩ := (c95_variant hl hm hi (.inr ⟨_, hb, rfl⟩)).2 hf hn
  exact ⟨e, h1, corrected_of (names := variantSuggested) (after := []) rfl hb (by rw [List.append_nil]; exact h2)⟩

/-- C114: for enums the suggestion is among the attributes without `allow_unknown_fields`.

Missing: `allow_unknown_fields`, see `c114_enum_violated`. -/
theorem c114_enum_partial {lib : SynLib} {d : EnumIn} {ss : List Stream} {bs : List Entry}
    (hm : ListStreams (deluxeAttrs d.attrs) ss) (hi : ItemsAll (WrittenSeg (enumReaders lib)) ss bs)
    (hp : ∀ v ∈ d.variants, v.read lib ≠ .panic) {key : Str} {sp : Span} (hb : .unknown key sp ∈ bs) :
    ∃ e, d.read lib = .err e ∧
      Corrected key sp ((keysOf (enumReaders lib)).filter (· ≠ txt "allow_unknown_fields")) e.toList := by
  obtain ⟨e, h1, h2⟩ := (c95_enum hm hi (.inr ⟨_, hb, rfl⟩)).2 hp
  exact ⟨e, h1, corrected_of (names := enumSuggested) (before := [])
    (exist := (keysOf (enumReaders lib)).filter (· ≠ txt "allow_unknown_fields"))
    (by rw [keysOf_enum]; decide) hb h2⟩

/-- The messages of a value that cannot be read contain these. -/
def ReadFails {α : Type} (p : M Stream α) (v rest : List Tok) (sc : Span) (P : List Msg → Prop) : Prop :=
  ∀ u, ∃ e s, p ⟨v ++ rest, sc, u⟩ = (.err e, s) ∧ P e.toList

theorem readFails_of {α : Type} {p : M Stream α} {v rest : List Tok} {sc : Span} {names : List String} {exist : List Str}
    (he : names.map String.toList = exist) {bs : List Entry} {key : Str} {sp : Span} (hb : .unknown key sp ∈ bs)
    (h : Unreadable p v rest sc (bs.flatMap (Entry.msgs names))) :
    ReadFails p v rest sc (Corrected key sp exist) := by
  intro u
  obtain ⟨e, v', -, h1, h2⟩ := h.2 u
  exact ⟨e, _, h2, corrected_of (before := []) (after := []) he hb (by simpa using h1)⟩

/-- C114: likewise for the options of `flatten(..)`. -/
theorem c114_flatten {inner vt rest : List Tok} {close at' sc : Span} {bs : List Entry} (h : Options inner close vt)
    (hi : Items (WrittenSeg flattenReaders) close inner bs) (nm : Str) {key : Str} {sp : Span}
    (hb : .unknown key sp ∈ bs) :
    ReadFails (flattenDict.named nm at') vt rest sc (Corrected key sp (keysOf flattenReaders)) :=
  readFails_of rfl hb (c95_flatten h hi ⟨_, hb, rfl⟩ nm)

/-- C114: likewise for the options of `container(..)`. -/
theorem c114_container {lib : SynLib} {inner vt rest : List Tok} {close at' sc : Span} {bs : List Entry}
    (h : Options inner close vt) (hi : Items (WrittenSeg (containerReaders lib)) close inner bs) (nm : Str) {key : Str}
    {sp : Span} (hb : .unknown key sp ∈ bs) :
    ReadFails ((containerDict lib).named nm at') vt rest sc (Corrected key sp (keysOf (containerReaders lib))) :=
  readFails_of rfl hb (c95_container h hi ⟨_, hb, rfl⟩ nm)

/-- C114: likewise for the options of `transparent(..)`. -/
theorem c114_transparent {inner vt rest : List Tok} {close at' sc : Span} {bs : List Entry} (h : Options inner close vt)
    (hi : Items (WrittenSeg transparentReaders) close inner bs) (nm : Str) {key : Str} {sp : Span}
    (hb : .unknown key sp ∈ bs) :
    ReadFails (transparentDict.named nm at') vt rest sc (Corrected key sp (keysOf transparentReaders)) :=
  readFails_of rfl hb (c95_transparent h hi ⟨_, hb, rfl⟩ nm)

/-! ## Where the suggestion is of no use -/

/-- The code violates: for `#[deluxe(allow_unknown_field)]` on an enum the attribute `allow_unknown_fields` is not
suggested, however similar it is, although enums have it. -/
theorem c114_enum_violated : ∃ e c, EnumIn.read demoLib ⟨[], [deluxeList [.ident (txt "allow_unknown_field") 12]]⟩ = .err e ∧
    e.toList = [⟨12, .unknownField (txt "allow_unknown_field") c⟩] ∧ c ≠ some (txt "allow_unknown_fields") ∧
    txt "allow_unknown_fields" ∈ keysOf (enumReaders demoLib) := by
  obtain ⟨c, h1, h2⟩ := unknownError_suggests (txt "allow_unknown_field") 12 enumAttrNames
  refine ⟨_, c, rfl, h1, ?_, by decide⟩
  rintro rfl
  exact absurd h2.1 (by decide)

end

/-- The field `#[deluxe(x)] ..` of a tuple structure. -/
def tupleFieldIn (key : Str) : FieldIn := ⟨none, [deluxeList [.ident key 5]]⟩

/-- The code violates: on a field of a tuple structure it also suggests attributes that are not allowed there. -/
theorem c114_allowed_violated : ∃ (_ : Env) (key n : Str), (∃ e, (tupleFieldIn key).read demoLib = .err e ∧
    e.toList = [⟨5, .unknownField key (some n)⟩]) ∧ (∃ e, (tupleFieldIn n).read demoLib = .err e ∧
    e.toList = [⟨5, notOnTupleText n (txt "struct field")⟩]) := by
  exact ⟨⟨fun _ _ => none, fun _ n => if n = txt "append" then 5 else 0, 1⟩, txt "appendd", txt "append", ⟨_, rfl, rfl⟩, ⟨_, rfl, rfl⟩⟩

/-- C114: `#[deluxe(renam)]` on a named field suggests `rename`, if that is the most similar attribute. -/
example [Env] (h : Env.simMin < Env.sim (txt "renam") (txt "rename"))
    (hm : ∀ n ∈ keysOf (fieldReaders demoLib), n ≠ txt "rename" → Env.sim (txt "renam") n < Env.sim (txt "renam") (txt "rename")) :
    ∃ e, FieldIn.read demoLib ⟨some (txt "a", 1), [deluxeList [.ident (txt "renam") 11]]⟩ = .err e ∧
      ⟨11, .unknownField (txt "renam") (some (txt "rename"))⟩ ∈ e.toList := by
  obtain ⟨e, h1, c, h2, h3⟩ := c114_field (lib := demoLib) (f := ⟨some (txt "a", 1), [deluxeList [.ident (txt "renam") 11]]⟩)
    (ss := [⟨[.ident (txt "renam") 11], callSite, none⟩]) (.list .nil)
    (.cons (.last (by simp) (unknown_word (key := "renam") 11 fieldSuggested rfl (by decide))) .nil)
    (fun h => nomatch h) (key := txt "renam") (sp := 11) List.mem_cons_self
  refine ⟨e, h1, ?_⟩
  cases c with
  | none => exact absurd h (Nat.not_lt.2 (h3 (txt "rename") List.mem_cons_self))
  | some x =>
    by_cases hx : x = txt "rename"
    · rwa [hx] at h2
    · exact absurd (hm x h3.1 hx) (Nat.not_lt.2 (h3.2.2 (txt "rename") List.mem_cons_self))

end Deluxe
