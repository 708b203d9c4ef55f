import Verif.Props.Attributes
/-!
# C120: types that read different attributes do not interfere

An object often has attributes of several crates, or of several types of one crate.  Attributes with other paths have no
influence on what is read, so extracting the attributes of one type leaves those of another type as they were, and the
order of the two does not matter.  This is so for types without a container field, which holds all of the object.
-/
namespace Deluxe

section
variable {V W α β O O' : Type}

/-- No attribute of the list has a path that both declare. -/
def PathsApart (as bs : List (List Str)) (l : List Attr) : Prop :=
  ∀ a ∈ l, ¬ (Declared as a.path ∧ Declared bs a.path)

/-- Types that declare paths, and none in common, are apart in every list. -/
theorem apart_of_paths {as bs : List (List Str)} (ha : as ≠ []) (hb : bs ≠ []) (h : ∀ p ∈ as, p ∉ bs) (l : List Attr) :
    PathsApart as bs l := by
  rintro a - ⟨h1 | ⟨h1, -⟩, h2 | ⟨h2, -⟩⟩
  · exact ha h1
  · exact ha h1
  · exact hb h2
  · exact h _ h1 h2

theorem matching_of_apart {as bs : List (List Str)} {l : List Attr} (h : PathsApart as bs l) :
    matching bs (l.filter fun a => ¬ Declared as a.path) = matching bs l := by
  unfold matching
  rw [List.filter_filter]
  refine List.filter_congr fun a ha => ?_
  have := h a ha
  by_cases h2 : Declared bs a.path
  · have h1 : ¬ Declared as a.path := fun h1 => this ⟨h1, h2⟩
    simp [h1, h2]
  · simp [h2]

theorem func_same {t : AttrTarget V α} (ht : t.NoObj) (x y : V) : t.func x = t.func y := by
  funext spans
  exact ht _ _ _ _

/-- C120: only the attributes with a declared path matter. -/
theorem c120_others {t : AttrTarget V α} (ht : t.NoObj) (h : HasAttrs O) (h' : HasAttrs O') (container : O → V)
    (container' : O' → V) {o : O} {o' : O'}
    (hm : (h.attrs o).filter (fun a => Declared t.attributes a.path) =
      (h'.attrs o').filter fun a => Declared t.attributes a.path) :
    t.parseAttributes h container o = t.parseAttributes h' container' o' := by
  rw [parseAttributes_eq, parseAttributes_eq]
  unfold matching
  rw [hm, func_same ht]

/-- C120: parsing after the attributes of another type were extracted. -/
theorem c120_parse_after (t : AttrTarget W β) {u : AttrTarget V α} (hu : u.NoObj) {h : HasAttrs O} (hl : h.Lawful)
    (container : O → W) (container' : O → V) {o : O} (ha : PathsApart t.attributes u.attributes (h.attrs o)) :
    u.parseAttributes h container' (t.extractAttributes h container o).2 = u.parseAttributes h container' o := by
  cases ho : h.attrsMut o with
  | error e => rw [c58_unsupported t h container o ho]
  | ok x =>
    obtain ⟨l, put⟩ := x
    refine c120_others hu h h container' container' ?_
    rw [(c18_extract_removes t hl container ho).2]
    exact matching_of_apart ha

theorem extract_error {t : AttrTarget V α} {h : HasAttrs O} {container : O → V} {o : O} {e : SynErr}
    (ho : h.attrsMut o = .error e) : t.extractAttributes h container o = (.err e, o) :=
  c58_unsupported t h container o ho

/-- C120: two types may be extracted in either order, whether this succeeds or not: each gives the same, and the same is
left of the object. -/
theorem c120_commute {t : AttrTarget W β} {u : AttrTarget V α} (ht : t.NoObj) (hu : u.NoObj) {h : HasAttrs O}
    (hl : h.Lawful) (container : O → W) (container' : O → V) {o : O}
    (ha : PathsApart t.attributes u.attributes (h.attrs o)) :
    (t.extractAttributes h container o).1 =
      (t.extractAttributes h container (u.extractAttributes h container' o).2).1 ∧
    (u.extractAttributes h container' (t.extractAttributes h container o).2).1 =
      (u.extractAttributes h container' o).1 ∧
    (u.extractAttributes h container' (t.extractAttributes h container o).2).2 =
      (t.extractAttributes h container (u.extractAttributes h container' o).2).2 := by
  cases ho : h.attrsMut o with
  | error e => rw [extract_error ho, extract_error ho, extract_error ho]; exact ⟨rfl, rfl, rfl⟩
  | ok x =>
    obtain ⟨l, put⟩ := x
    have h1 := (c18_extract_removes t hl container ho).1
    have h2 := (c18_extract_removes u hl container' ho).1
    obtain ⟨l1, p1⟩ : ∃ l1, h.attrsMut (t.extractAttributes h container o).2 = .ok (l1, put) := by
      rw [h1]; exact ⟨_, (hl.only o l put ho).2 _⟩
    obtain ⟨l2, p2⟩ : ∃ l2, h.attrsMut (u.extractAttributes h container' o).2 = .ok (l2, put) := by
      rw [h2]; exact ⟨_, (hl.only o l put ho).2 _⟩
    have hb : PathsApart u.attributes t.attributes (h.attrs o) := fun a hm ⟨x, y⟩ => ha a hm ⟨y, x⟩
    refine ⟨?_, ?_, ?_⟩
    · rw [← same_of_noObj ht hl container container p2, ← same_of_noObj ht hl container container ho]
      exact (c120_parse_after u ht hl container' container hb).symm
    · rw [← same_of_noObj hu hl container' container' p1, ← same_of_noObj hu hl container' container' ho]
      exact c120_parse_after t hu hl container container' ha
    · rw [(c18_extract_removes u hl container' p1).1, (c18_extract_removes t hl container p2).1,
        (c18_extract_removes t hl container ho).2, (c18_extract_removes u hl container' ho).2, List.filter_filter,
        List.filter_filter]
      congr 1
      refine List.filter_congr fun a _ => ?_
      rw [Bool.and_comm]

/-- C120: extracting a second time finds nothing: the result is that for an object without such attributes, and the
object stays as it is. -/
theorem c120_again {t : AttrTarget V α} (ht : t.NoObj) {h : HasAttrs O} (hl : h.Lawful) (container container' : O → V)
    {o : O} {l put} (ho : h.attrsMut o = .ok (l, put)) {h' : HasAttrs O'} {container2 : O' → V} {o' : O'}
    (hnone : ∀ a ∈ h'.attrs o', ¬ Declared t.attributes a.path) :
    t.extractAttributes h container' (t.extractAttributes h container o).2 =
      (t.parseAttributes h' container2 o', (t.extractAttributes h container o).2) := by
  have h1 := c18_extract_removes t hl container ho
  obtain ⟨l1, p1⟩ : ∃ l1, h.attrsMut (t.extractAttributes h container o).2 = .ok (l1, put) := by
    rw [h1.1]; exact ⟨_, (hl.only o l put ho).2 _⟩
  have e1 : (h.attrs (t.extractAttributes h container o).2).filter (fun a => Declared t.attributes a.path) = [] := by
    rw [h1.2, List.filter_filter, List.filter_eq_nil_iff]
    intro a _
    by_cases hd : Declared t.attributes a.path <;> simp [hd]
  refine Prod.ext ?_ ?_
  · rw [← same_of_noObj ht hl container' container' p1]
    refine c120_others ht h h' container' container2 ?_
    rw [e1, List.filter_eq_nil_iff.2]
    intro a hm
    simp [hnone a hm]
  · rw [(c18_extract_removes t hl container' p1).1, h1.2, h1.1, List.filter_filter]
    congr 1
    refine List.filter_congr fun a _ => ?_
    rw [Bool.and_self]

variable [Env]

/-- C120 for derived types: two structures without container field that declare different paths. -/
theorem c120_structs {d : StructDef W} {d' : StructDef V} (hd : NoContainer d.fields) (hd' : NoContainer d'.fields)
    {as bs : List (List Str)} (ha : as ≠ []) (hb : bs ≠ []) (hab : ∀ p ∈ as, p ∉ bs) {h : HasAttrs O} (hl : h.Lawful)
    (container : O → W) (container' : O → V) (o : O) :
    ((d.attrTarget as).extractAttributes h container o).1 =
      ((d.attrTarget as).extractAttributes h container ((d'.attrTarget bs).extractAttributes h container' o).2).1 ∧
    ((d'.attrTarget bs).extractAttributes h container' ((d.attrTarget as).extractAttributes h container o).2).1 =
      ((d'.attrTarget bs).extractAttributes h container' o).1 ∧
    ((d'.attrTarget bs).extractAttributes h container' ((d.attrTarget as).extractAttributes h container o).2).2 =
      ((d.attrTarget as).extractAttributes h container ((d'.attrTarget bs).extractAttributes h container' o).2).2 :=
  c120_commute (d.noObj hd as) (d'.noObj hd' bs) hl container container' (apart_of_paths ha hb hab _)

/-- C120 for derived types: a structure and an enum; two enums likewise by `c120_commute`. -/
theorem c120_struct_enum {d : StructDef W} {e : EnumDef V} (hd : NoContainer d.fields)
    (he : ∀ v ∈ e.variants, NoContainer v.fields) {as bs : List (List Str)} (ha : as ≠ []) (hb : bs ≠ [])
    (hab : ∀ p ∈ as, p ∉ bs) {h : HasAttrs O} (hl : h.Lawful) (container : O → W) (container' : O → V) (o : O) :
    ((d.attrTarget as).extractAttributes h container o).1 =
      ((d.attrTarget as).extractAttributes h container ((e.attrTarget bs).extractAttributes h container' o).2).1 ∧
    ((e.attrTarget bs).extractAttributes h container' ((d.attrTarget as).extractAttributes h container o).2).1 =
      ((e.attrTarget bs).extractAttributes h container' o).1 ∧
    ((e.attrTarget bs).extractAttributes h container' ((d.attrTarget as).extractAttributes h container o).2).2 =
      ((d.attrTarget as).extractAttributes h container ((e.attrTarget bs).extractAttributes h container' o).2).2 :=
  c120_commute (d.noObj hd as) (e.noObj he bs) hl container container' (apart_of_paths ha hb hab _)

end

section
variable [Env]

/-! ## Cases -/

/-- `#[deluxe(attributes(..))] struct S { #[deluxe(default = false)] a: bool }` -/
def oneFlag : StructDef Bool := ⟨.named, [{ plainField ['a'] boolDict with default := some false }], none, none, none, []⟩

/-- `#[x(a)] #[y] #[x]` -/
def mixedAttrs : List Attr :=
  [⟨⟨false, [(['x'], false)], 1⟩, .list .paren [.ident ['a'] 2]⟩, ⟨⟨false, [(['y'], false)], 3⟩, .path⟩,
    ⟨⟨false, [(['x'], false)], 4⟩, .path⟩]

omit [Env] in
theorem oneFlag_free : NoContainer oneFlag.fields := by
  intro f hf
  simp only [oneFlag, List.mem_singleton] at hf
  subst hf
  rfl

/-- C120: the hypotheses hold of `oneFlag` for `x` and `y`, and of a vector of attributes. -/
example : [[['x']]] ≠ ([] : List (List Str)) ∧ (∀ p ∈ [[['x']]], p ∉ [[['y']]]) ∧ HasAttrs.vec.Lawful ∧
    ((oneFlag.attrTarget [[['x']]]).extractAttributes HasAttrs.vec (fun _ => true) mixedAttrs).1 = .ok [true] := by
  refine ⟨by simp, by decide, (c58_same_list (K := Unit) (R := Unit)).2.1, ?_⟩
  rw [← same_of_noObj (oneFlag.noObj oneFlag_free _) (c58_same_list (K := Unit) (R := Unit)).2.1 (fun _ => true)
    (fun _ => true) (o := mixedAttrs) rfl]
  rfl

/-- C120: the second extraction gives the default of the field. -/
example : (oneFlag.attrTarget [[['x']]]).extractAttributes HasAttrs.vec (fun _ => true)
    ((oneFlag.attrTarget [[['x']]]).extractAttributes HasAttrs.vec (fun _ => true) mixedAttrs).2 =
      (.ok [false], ((oneFlag.attrTarget [[['x']]]).extractAttributes HasAttrs.vec (fun _ => true) mixedAttrs).2) :=
  c120_again (oneFlag.noObj oneFlag_free _) (c58_same_list (K := Unit) (R := Unit)).2.1 _ _ (o := mixedAttrs) rfl
    (h' := HasAttrs.vec) (container2 := fun _ => true) (o' := []) (by simp [HasAttrs.vec])

/-- C120 fails for types that declare a path in common: the first one takes the attributes of the other. -/
theorem c120_shared_violated : ∃ (d : StructDef Bool) (as bs : List (List Str)) (o : List Attr), NoContainer d.fields ∧
    ((d.attrTarget as).extractAttributes HasAttrs.vec (fun _ => true) o).1 ≠
      ((d.attrTarget as).extractAttributes HasAttrs.vec (fun _ => true)
        ((d.attrTarget bs).extractAttributes HasAttrs.vec (fun _ => true) o).2).1 := by
  have hv := (c58_same_list (K := Unit) (R := Unit)).2.1
  refine ⟨oneFlag, [[['x']]], [[['y']], [['x']]], mixedAttrs, oneFlag_free, ?_⟩
  rw [← same_of_noObj (oneFlag.noObj oneFlag_free _) hv (fun _ => true) (fun _ => true) (o := mixedAttrs) rfl,
    (c18_extract_removes (oneFlag.attrTarget [[['y']], [['x']]]) hv (fun _ => true) (o := mixedAttrs) rfl).1,
    ← same_of_noObj (oneFlag.noObj oneFlag_free _) hv (fun _ => true) (fun _ => true) rfl]
  intro h
  have h1 : (oneFlag.attrTarget [[['x']]]).parseAttributes HasAttrs.vec (fun _ => true) mixedAttrs = .ok [true] := rfl
  rw [h1] at h
  exact absurd h (by
    rw [c120_others (oneFlag.noObj oneFlag_free _) HasAttrs.vec HasAttrs.vec (fun _ => true) (fun _ => true) (o' := [])]
    · exact fun h => (by cases h)
    · rfl)

/-- `demoAttrs`, then `#[y]` -/
def demoAndY : List Attr := demoAttrs ++ [⟨⟨false, [("y".toList, false)], 9⟩, .path⟩]

/-- C120 fails for a type with a container field: the object it holds has the attributes that the other type did not
take yet. -/
theorem c120_container_violated : ∃ (d : StructDef Nat) (d' : StructDef Bool) (as bs : List (List Str)) (o : List Attr),
    NoContainer d'.fields ∧ as ≠ [] ∧ bs ≠ [] ∧ (∀ p ∈ as, p ∉ bs) ∧
    ((d.attrTarget as).extractAttributes HasAttrs.vec List.length o).1 ≠
      ((d.attrTarget as).extractAttributes HasAttrs.vec List.length
        ((d'.attrTarget bs).extractAttributes HasAttrs.vec (fun _ => true) o).2).1 := by
  have hv := (c58_same_list (K := Unit) (R := Unit)).2.1
  refine ⟨attrDemo, oneFlag, [["x".toList]], [["y".toList]],
    demoAndY, oneFlag_free, by simp, by simp, by decide, ?_⟩
  rw [(c18_extract_removes (oneFlag.attrTarget [["y".toList]]) hv (fun _ => true)
    (o := demoAndY) rfl).1]
  have h1 : ((attrDemo.attrTarget [["x".toList]]).extractAttributes HasAttrs.vec List.length
      demoAndY).1 = .ok [1, 1, 2] := by
    simp only [AttrTarget.extractAttributes, HasAttrs.vec]
    rw [(c17_take_partition _ _).1, (c17_take_partition _ _).2.1]
    rfl
  have h2 : ((attrDemo.attrTarget [["x".toList]]).extractAttributes HasAttrs.vec List.length demoAttrs).1 =
      .ok [1, 1, 1] := by
    rw [c18_container_differs.2]
  rw [h1]
  intro h
  have h3 := h.trans h2
  exact absurd h3 (fun h => (by cases h))

end

end Deluxe
