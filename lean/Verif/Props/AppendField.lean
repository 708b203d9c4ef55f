import Verif.Props.EnumKeys
import Verif.Props.Collections
/-!
# C79: an `append` field gets the values of all items with one of its names

macros/types/field.rs:397-416; core/parse_meta.rs:535-583, 632-672.
-/
namespace Deluxe

variable {V : Type}

/-- A field with `append` and without transforms, whose value is what `p` gives for its names, made into a value of the
structure by `g`. -/
structure IsAppend {α : Type} (f : Field V) (p : Append α) (g : α → V) : Prop where
  append : f.append = some true
  parsable : f.isParsable = true
  transforms : f.transforms = []
  parser : ∀ names l, (f.appendP names l).1 = (p names l).1.map g

/-- The prefixes that derived code passes on: none, or one that ends in `::`. -/
def IsPrefix (pre : Str) : Prop := pre = [] ∨ [':', ':'] <:+ pre

/-- The keys of a field: its name and aliases, after the prefix. -/
def Field.keys (f : Field V) (pre : Str) : List Str := f.idents.map (pre ++ ·)

theorem joinPaths_keys {pre : Str} (h : IsPrefix pre) (f : Field V) : joinPaths pre f.idents = f.keys pre := by
  unfold joinPaths Field.keys
  refine List.map_congr_left fun k _ => ?_
  rcases h with rfl | h
  · rfl
  · have hne : pre.isEmpty = false := by
      obtain ⟨t, rfl⟩ := h
      simp
    have hc : endsColon2 pre = true := List.isSuffixOf_iff_suffix.2 h
    simp [joinPath, hne, hc]

/-- All results are values. -/
theorem all_ok {α : Type} (xs : List (Except SynErr α)) :
    (∀ x ∈ xs, ∃ a, x = .ok a) ↔ xs = (okVals xs).map .ok := by
  induction xs with
  | nil => simp [okVals]
  | cons x xs ih =>
    cases x with
    | ok a => simp [okVals, ih]
    | error e =>
      simp only [List.mem_cons, forall_eq_or_imp, reduceCtorEq, exists_false, false_and, false_iff, okVals]
      intro h
      have : (Except.error e : Except SynErr α) ∈ (okVals xs).map .ok := by rw [← h]; exact List.mem_cons_self
      obtain ⟨a, -, ha⟩ := List.mem_map.1 this
      cases ha

theorem okVals_ok {α : Type} (vals : List α) : okVals (vals.map .ok) = vals := by
  induction vals with
  | nil => rfl
  | cons a vals ih => simp [okVals, ih]

section
variable [Env]

omit [Env] in
/-- What a flat field without transforms ends up with. -/
theorem holds_flat {d : Fields V} {allowed : List Str} {pre : Str} {span : Span} {l : List Stream}
    {bs : List (SItem V)} {f : Field V} {i : Nat} (hf : f.isFlat = true) (hp : f.isParsable = true)
    (ht : f.transforms = []) (v : V) :
    Holds d allowed pre span l bs f i v ↔ flatOut d.fields pre span allowed l f i = .ok v := by
  have hnp : ¬ f.Plain := fun h => by
    have := h.1
    rw [hf] at this
    cases this
  have hnc : f.isContainer = false := by
    simp only [Field.isParsable, Bool.and_eq_true, Bool.not_eq_true'] at hp
    exact hp.1
  have hng : ∀ gv, ¬ NotGiven d f gv := by
    rintro gv (⟨h1, -⟩ | ⟨h1, -⟩)
    · exact hnp h1
    · rw [hp] at h1; cases h1
  constructor
  · rintro (⟨b, hb, hr⟩ | ⟨hb, -⟩)
    · rw [ht] at hr
      cases hr
      cases hb with
      | item h1 => exact absurd h1 hnp
      | flat _ h1 => exact h1
      | container h1 => rw [hnc] at h1; cases h1
      | default h1 => exact absurd h1 (hng _)
      | missing h1 => exact absurd h1 hnp
    · cases hb with
      | target h1 => exact absurd h1 (hng _)
  · intro h
    exact .inl ⟨v, .flat (by simp [Field.flatParsable, hf, hp]) h, by rw [ht]; rfl⟩

/-- C79 for sequences: the field has a value exactly if the value of each item with one of its keys parses, and then it
is the list of these values in their order, however many there are and whichever of the keys each has. -/
theorem c79_sequence {α : Type} (d : Fields V) (allowed : List Str) {pre : Str} (hpre : IsPrefix pre) (span : Span)
    {l : List Stream} (bs : List (SItem V)) {f : Field V} {vd : Dict α} {g : List α → V}
    (hf : IsAppend f (seqAppend vd) g) (hv : ∀ n sp, Good (vd.named n sp)) (i : Nat) {rs}
    (h : ItemsAll (NamedSeg (f.keys pre) vd.named) l rs) (v : V) :
    Holds d allowed pre span l bs f i v ↔
      ∃ vals, (rs.filterMap id).map (·.1) = vals.map .ok ∧ v = g vals := by
  rw [holds_flat (by simp [Field.isFlat, hf.append]) hf.parsable hf.transforms]
  obtain ⟨r, l', h1, -, h2, h3⟩ := c26_append_sequence vd hv (f.keys pre) _ rs
    (itemsAll_forkIf ((d.fields.drop (i + 1)).any (·.flatParsable)) h)
  have e : flatOut d.fields pre span allowed l f i = r.map g := by
    simp only [flatOut, Field.flatCall, hf.append, Option.getD_some, if_true, hf.parser, joinPaths_keys hpre]
    rw [h1]
  rw [e]
  constructor
  · intro h4
    have hn : errMsgs ((rs.filterMap id).map (·.1)) = [] := by
      by_cases hn : errMsgs ((rs.filterMap id).map (·.1)) = []
      · exact hn
      · obtain ⟨e, h5, -⟩ := h3 hn
        rw [h5] at h4
        cases h4
    refine ⟨_, (all_ok _).1 ((errMsgs_eq_nil _).1 hn), ?_⟩
    rw [h2 hn] at h4
    cases h4
    rfl
  · rintro ⟨vals, h4, rfl⟩
    rw [h4, okVals_ok] at h2
    rw [h2 ((errMsgs_eq_nil _).2 (by simp))]
    rfl

/-- C79 for sets: likewise, and no two of the values are equal. -/
theorem c79_set {α : Type} [DecidableEq α] (d : Fields V) (allowed : List Str) {pre : Str} (hpre : IsPrefix pre)
    (span : Span) {l : List Stream} (bs : List (SItem V)) {f : Field V} {vd : Dict α} {g : List α → V}
    (hf : IsAppend f (setAppend vd) g) (hv : ∀ n sp, Good (vd.named n sp)) (i : Nat) {rs}
    (h : ItemsAll (NamedSeg (f.keys pre) vd.named) l rs) (v : V) :
    Holds d allowed pre span l bs f i v ↔
      ∃ vals, (rs.filterMap id).map (·.1) = vals.map .ok ∧ vals.Nodup ∧ v = g vals := by
  rw [holds_flat (by simp [Field.isFlat, hf.append]) hf.parsable hf.transforms]
  obtain ⟨r, l', h1, -, h2, h3⟩ := c26_append_set vd hv (f.keys pre) _ rs
    (itemsAll_forkIf ((d.fields.drop (i + 1)).any (·.flatParsable)) h)
  have e : flatOut d.fields pre span allowed l f i = r.map g := by
    simp only [flatOut, Field.flatCall, hf.append, Option.getD_some, if_true, hf.parser, joinPaths_keys hpre]
    rw [h1]
  rw [e]
  have hok : (∀ x ∈ rs.filterMap id, ∃ a, x.1 = .ok a) ↔ ∀ x ∈ (rs.filterMap id).map (·.1), ∃ a, x = .ok a := by
    simp only [List.mem_map, forall_exists_index, and_imp, forall_apply_eq_imp_iff₂]
  constructor
  · intro h4
    have hn : setMsgs [] (rs.filterMap id) = [] := by
      by_cases hn : setMsgs [] (rs.filterMap id) = []
      · exact hn
      · obtain ⟨e, h5, -⟩ := h3 hn
        rw [h5] at h4
        cases h4
    obtain ⟨h5, h6, -⟩ := (setMsgs_eq_nil _ _).1 hn
    refine ⟨_, (all_ok _).1 (hok.1 h5), h6, ?_⟩
    rw [h2 hn] at h4
    cases h4
    rfl
  · rintro ⟨vals, h4, h5, rfl⟩
    have hn : setMsgs [] (rs.filterMap id) = [] := (setMsgs_eq_nil _ _).2
      ⟨hok.2 (by rw [h4]; simp), by rw [h4, okVals_ok]; exact h5, by simp⟩
    rw [h4, okVals_ok] at h2
    rw [h2 hn]
    rfl

/-- C79: the items of such a field are never taken for duplicates or unknown keys: a structure with this field alone is
parsed from any number of items, if each has one of its keys and a value that parses. -/
theorem c79_any_number {α : Type} {d : StructDef V} (hs : d.shape = .named) (ht : d.isTransparent = false)
    (hn : d.andThens = []) {f : Field V} (hd : d.fields = [f]) {vd : Dict α} {g : List α → V}
    (hf : IsAppend f (seqAppend vd) g) (hfl : f.isFlatten = false) (ha : d.Accepted) (hg : FieldsGood d.fields)
    (hv : ∀ n sp, Good (vd.named n sp)) (mode : Mode) {l bs} (hl : ItemsAll (StructSeg d.fields []) l bs)
    (hk : ∀ key sp, .other key sp ∈ bs → key ∈ f.idents) {rs}
    (h : ItemsAll (NamedSeg f.idents vd.named) l rs) {vals : List α}
    (hr : (rs.filterMap id).map (·.1) = vals.map .ok) :
    (d.dict.inline mode l).1 = .ok [g vals] := by
  have hkeys : f.keys [] = f.idents := by simp [Field.keys]
  have e : (d.dict.inline mode l).1 = (namedFlat d.data (Field.fieldNames d.fields) mode [] (!d.acceptsAll) l).1 := by
    unfold StructDef.dict
    rw [ht, hs]
    simp only [StructDef.flatNamed, hn]
    show runAndThens [] (namedFlat d.data (Field.fieldNames d.fields) mode [] (!d.acceptsAll) l).1 = _
    cases (namedFlat d.data (Field.fieldNames d.fields) mode [] (!d.acceptsAll) l).1 <;> rfl
  have hno : ∀ b ∈ bs, ∃ key sp, b = .other key sp := by
    intro b hb
    refine itemsAll_mem (P := fun b => ∃ key sp, b = .other key sp) hl hb fun v rest sc b hb => ?_
    cases hb with
    | other => exact ⟨_, _, rfl⟩
    | field _ ho _ =>
      exfalso
      obtain ⟨k, -, h1, h2, -⟩ := ho
      have h3 := List.mem_of_getElem? h1
      rw [hd, List.mem_singleton] at h3
      subst h3
      have := h2.1
      simp [Field.isFlat, hf.append] at this
  rw [e, c31_struct d.data ha.fields ht hg _ mode [] _ hl]
  refine ⟨⟨?_, ?_, ?_⟩, ?_, ?_⟩
  · have : owners bs = [] := by
      clear hl hk
      induction bs with
      | nil => rfl
      | cons b bs ih =>
        obtain ⟨key, sp, rfl⟩ := hno b (by simp)
        exact ih fun b hb => hno b (by simp [hb])
    rw [this]
    exact List.nodup_nil
  · intro i name sp x hx
    obtain ⟨_, _, h1⟩ := hno _ hx
    cases h1
  · intro key sp hx _
    rw [hd]
    simp only [Field.fieldNames, List.mem_flatMap, List.mem_filter, List.mem_cons, List.not_mem_nil, or_false]
    refine ⟨f, ⟨rfl, hf.parsable⟩, ?_⟩
    have := hk key sp hx
    unfold Field.names
    split
    · rename_i h1; simp [Field.isFlatten, h1] at hfl
    · rename_i h1; simp [Field.isFlatten, h1] at hfl
    · exact this
  · show 1 = d.fields.length
    rw [hd]
    rfl
  · intro i f' hi
    have hi : d.fields[i]? = some f' := hi
    rw [hd] at hi
    cases i with
    | succ i => simp at hi
    | zero =>
      cases hi
      exact ⟨_, rfl, (c79_sequence d.data _ (.inl rfl) _ bs hf hv 0 (hkeys ▸ h) _).2 ⟨vals, hr, rfl⟩⟩

/-- C79 does not hold for an omitted field with a default: the default is not used, whatever it is, nor that of the
structure; the field is empty. -/
theorem c79_default_violated {α : Type} (d : Fields V) (allowed : List Str) (span : Span)
    {l : List Stream} (bs : List (SItem V)) {f : Field V} {vd : Dict α} {g : List α → V}
    (hf : IsAppend f (seqAppend vd) g) (hv : ∀ n sp, Good (vd.named n sp)) (dflt : V) (_hd : f.default = some dflt)
    (i : Nat) {rs} (h : ItemsAll (NamedSeg (f.keys []) vd.named) l rs) (hr : ∀ x ∈ rs, x = none) (v : V) :
    Holds d allowed [] span l bs f i v ↔ v = g [] := by
  rw [c79_sequence d allowed (.inl rfl) span bs hf hv i h]
  have : rs.filterMap id = [] := by
    rw [List.filterMap_eq_nil_iff]
    exact hr
  rw [this]
  simp

/-! ## Examples -/

/-- `#[deluxe(append, alias = b, default = vec![true])] a: Vec<bool>` -/
def appendBools : Field (List Bool) :=
  { plainField "a".toList (boolDict.map fun b => [b]) with
    idents := ["a".toList, "b".toList], append := some true, default := some [true], appendP := seqAppend boolDict }

/-- `struct S { .. }` with this field -/
def onlyAppend : StructDef (List Bool) where
  shape := .named
  fields := [appendBools]
  default := none
  transparent := none
  allowUnknown := none
  andThens := []

/-- The hypotheses of the theorems above hold for it. -/
theorem appendBools_is : IsAppend appendBools (seqAppend boolDict) id :=
  ⟨rfl, rfl, rfl, fun names l => by
    show (seqAppend boolDict names l).1 = (seqAppend boolDict names l).1.map id
    cases (seqAppend boolDict names l).1 <;> rfl⟩

/-- `a = true, b = false, a` -/
def appendInput : List Tok :=
  [.ident "a".toList 1, .punct '=' false 2, .ident "true".toList 3, .punct ',' false 4,
    .ident "b".toList 5, .punct '=' false 6, .ident "false".toList 7, .punct ',' false 8, .ident "a".toList 9]

theorem appendInput_items : ItemsAll (NamedSeg appendBools.idents boolDict.named) [⟨appendInput, 10, none⟩]
    [some (.ok true, itemSpan ⟨[.punct '=' false 2, .ident "true".toList 3] ++ appendInput.drop 3, 10, none⟩
        ⟨appendInput.drop 3, 10, none⟩),
      some (.ok false, itemSpan ⟨[.punct '=' false 6, .ident "false".toList 7] ++ appendInput.drop 7, 10, none⟩
        ⟨appendInput.drop 7, 10, none⟩),
      some (.ok true, itemSpan ⟨[] ++ [], 10, none⟩ ⟨[], 10, none⟩)] := by
  refine .cons (bs := [_, _, _]) (.cons (v := [.ident "a".toList 1, .punct '=' false 2, .ident "true".toList 3])
    ⟨_, _, rfl⟩ ?_ (.cons (v := [.ident "b".toList 5, .punct '=' false 6, .ident "false".toList 7])
    ⟨_, _, rfl⟩ ?_ (.last (by simp) ?_))) .nil
  · exact .mine (segs := ["a".toList]) (vt := [.punct '=' false 2, .ident "true".toList 3])
      (.mk (pt := [.ident "a".toList 1]) (.plain (.one _ _)) (by simp [StartsColon2])) List.mem_cons_self (fun u => ⟨_, rfl⟩)
  · exact .mine (segs := ["b".toList]) (vt := [.punct '=' false 6, .ident "false".toList 7])
      (.mk (pt := [.ident "b".toList 5]) (.plain (.one _ _)) (by simp [StartsColon2])) (List.mem_cons_of_mem _ List.mem_cons_self) (fun u => ⟨_, rfl⟩)
  · exact .mine (segs := ["a".toList]) (vt := [])
      (.mk (pt := [.ident "a".toList 9]) (.plain (.one _ _)) (by simp [StartsColon2])) List.mem_cons_self (fun u => ⟨_, rfl⟩)

/-- C79: the field is `[true, false, true]`. -/
example (d : Fields (List Bool)) (allowed : List Str) (span : Span) (bs : List (SItem (List Bool))) (i : Nat)
    (v : List Bool) : Holds d allowed [] span [⟨appendInput, 10, none⟩] bs appendBools i v ↔ v = [true, false, true] := by
  rw [c79_sequence d allowed (.inl rfl) span bs appendBools_is boolDict_good.named i appendInput_items]
  constructor
  · rintro ⟨vals, h1, rfl⟩
    have := congrArg okVals h1
    rw [okVals_ok] at this
    exact this.symm
  · rintro rfl
    exact ⟨_, rfl, rfl⟩

/-- C79: the hypotheses of `c79_any_number` hold: the structure is parsed. -/
example : (onlyAppend.dict.inline (.named 0) [⟨appendInput, 10, none⟩]).1 = .ok [[true, false, true]] := by
  have hno : ∀ key f i, ¬ Owns onlyAppend.fields [] key f i := by
    rintro key f i ⟨k, -, h1, h2, -⟩
    have h3 := List.mem_of_getElem? h1
    simp only [onlyAppend, List.mem_singleton] at h3
    subst h3
    exact absurd h2.1 (by simp [Field.isFlat, appendBools])
  have hmem : ∀ f ∈ onlyAppend.fields, f = appendBools := fun f hf => List.mem_singleton.1 hf
  refine c79_any_number (d := onlyAppend) (bs := [.other "a".toList 1, .other "b".toList 5, .other "a".toList 9]) rfl rfl
    rfl rfl appendBools_is rfl ⟨⟨fun f hf hp => ?_, fun t ht => (by cases ht)⟩, fun h => (by cases h), fun h => (by cases h)⟩
    ⟨fun f hf hp => ?_, fun f hf => ?_, fun f hf _ => ?_⟩ boolDict_good.named _ ?_ ?_ appendInput_items rfl
  · rw [hmem f hf] at hp; cases hp
  · rw [hmem f hf]; exact (Dict.map_good _ boolDict_good).named
  · rw [hmem f hf]; exact (Dict.map_good _ boolDict_good).missing
  · rw [hmem f hf]
    intro pre sp allowed
    exact seqAppend_good boolDict_good.named _
  · refine .cons (bs := [_, _, _]) (.cons (v := [.ident "a".toList 1, .punct '=' false 2, .ident "true".toList 3])
      ⟨_, _, rfl⟩ ?_ (.cons (v := [.ident "b".toList 5, .punct '=' false 6, .ident "false".toList 7])
      ⟨_, _, rfl⟩ ?_ (.last (by simp) ?_))) .nil
    · exact .other (segs := ["a".toList]) (vt := [.punct '=' false 2, .ident "true".toList 3])
        (.mk (pt := [.ident "a".toList 1]) (.plain (.one _ _)) (by simp [StartsColon2])) (hno _) (by simp [NoComma, Comma])
    · exact .other (segs := ["b".toList]) (vt := [.punct '=' false 6, .ident "false".toList 7])
        (.mk (pt := [.ident "b".toList 5]) (.plain (.one _ _)) (by simp [StartsColon2])) (hno _) (by simp [NoComma, Comma])
    · exact .other (segs := ["a".toList]) (vt := [])
        (.mk (pt := [.ident "a".toList 9]) (.plain (.one _ _)) (by simp [StartsColon2])) (hno _) (by simp [NoComma])
  · intro key sp hk
    simp only [List.mem_cons, SItem.other.injEq, List.not_mem_nil, or_false] at hk
    rcases hk with ⟨rfl, -⟩ | ⟨rfl, -⟩ | ⟨rfl, -⟩
    · exact List.mem_cons_self
    · exact List.mem_cons_of_mem _ List.mem_cons_self
    · exact List.mem_cons_self

/-- C79: without items it is empty, although the default is `[true]`. -/
example : (onlyAppend.dict.inline (.named 0) [⟨[], 1, none⟩]).1 = .ok [[]] := rfl

end
end Deluxe
