import Verif.Lemmas.Tidy
import Verif.Props.Reorder
import Verif.Props.AppendField
/-!
# C101 and C102 for structures with flat fields

Of the fields marked as `flatten`, `append` or `rest` all but the last read a copy of the input (macros/types/field.rs:715-740).
What the last one leaves of the input itself is seen by whatever reads on.  So that the order does not matter, a flat
field that succeeds must have read everything.  Those that exist do.
-/
namespace Deluxe

variable {V : Type}

section
variable [Env] {idx : List Nat} {d : StructDef V} {thens : List (List V → Except SynErr (List V))} {O : Type}

/-- C101: a structure with any flat fields that read everything is read in the same way in every form if its fields are
declared in another order, and leaves the same input if it succeeds. -/
theorem c101_item_flat (hp : idx.Perm (List.range d.fields.length)) (ha : d.Accepted) (hg : d.FieldsFine)
    (hs : d.shape = .named) (ht : d.isTransparent = false) (ho : OneOwner d.fields) (hn : NamesOnly d.fields)
    (hf : FlatDrain d.fields) (hth : ThensMove idx d thens) :
    d.dict.RelFresh (fun vs ws => ws = select idx vs) (d.select idx thens).dict :=
  (Picks.of_perm hp).dict_fresh hs ha.fields ht (hg.good hs) ho hn hf _ (fun vs _ h => h.2.1 ▸ hth vs h.1)
    (fun _ _ hf hi => absurd (all_picked hp hf) hi) (acceptsAll_perm hp)

/-- C101: so are the attributes of an object. -/
theorem c101_attributes_flat (hp : idx.Perm (List.range d.fields.length)) (ha : d.AttrAccepted) (hg : d.FieldsFine)
    (hs : d.shape = .named) (ht : d.isTransparent = false) (ho : OneOwner d.fields) (hn : NamesOnly d.fields)
    (hf : FlatDrain d.fields) (hth : ThensMove idx d thens) (attributes : List (List Str))
    (h : HasAttrs O) (container : O → V) (o : O) :
    Res.Rel (fun vs ws => ws = select idx vs) ((d.attrTarget attributes).parseAttributes h container o)
        (((d.select idx thens).attrTarget attributes).parseAttributes h container o) ∧
      Res.Rel (fun vs ws => ws = select idx vs) ((d.attrTarget attributes).extractAttributes h container o).1
        (((d.select idx thens).attrTarget attributes).extractAttributes h container o).1 ∧
      ((d.attrTarget attributes).extractAttributes h container o).2 =
        (((d.select idx thens).attrTarget attributes).extractAttributes h container o).2 := by
  have key := fun obj toks => (Picks.of_perm hp).attributes_fresh (thens := thens) hs (fun ⟨o, n⟩ hx => by
      cases o with
      | none => cases hx
      | some x => exact ha.data x n) ht (hg.good hs) ho hn hf
    (fun vs ws => ws = select idx vs) obj (fun _ vs _ h => h.2.1 ▸ hth vs h.1)
    (fun _ _ _ hf hi => absurd (all_picked hp hf) hi) (acceptsAll_perm hp) attributes toks
  refine ⟨key _ _, ?_⟩
  unfold AttrTarget.extractAttributes
  cases h.attrsMut o with
  | error e => exact ⟨.err, rfl⟩
  | ok x => exact ⟨key _ _, rfl⟩

/-- C102: a structure with any flat fields that read everything is read, in every form, as if the fields that are not
parsed were not written, if those are not marked as `rest` or `flatten` besides. -/
theorem c102_item_flat_partial (hp : Picks idx d.fields) (ha : d.Accepted) (hg : d.FieldsFine) (hs : d.shape = .named)
    (ht : d.isTransparent = false) (ho : OneOwner d.fields) (hn : NamesOnly d.fields)
    (hf : FlatDrain d.fields) (h1 : d.andThens = []) (hm : LeftPlain idx d.fields)
    (hu : ∀ (i : Nat) f, d.fields[i]? = some f → i ∉ idx → ∃ v, Unparsed d.data f i v) :
    d.dict.RelFresh (Restores idx d.data) (d.select idx []).dict :=
  hp.dict_fresh hs ha.fields ht (hg.good hs) ho hn hf _ (then_nil h1) hu hm.acceptsAll

/-- C102: and so are the attributes of an object. -/
theorem c102_attributes_flat_partial (hp : Picks idx d.fields) (ha : d.AttrAccepted) (hg : d.FieldsFine)
    (hs : d.shape = .named) (ht : d.isTransparent = false) (ho : OneOwner d.fields) (hn : NamesOnly d.fields)
    (hf : FlatDrain d.fields) (h1 : d.andThens = []) (hm : LeftPlain idx d.fields)
    (attributes : List (List Str)) (h : HasAttrs O) (container : O → V) (o : O)
    (hu : ∀ (i : Nat) f, d.fields[i]? = some f → i ∉ idx →
      ∃ v, Unparsed (d.attrData ⟨some (container o), none⟩) f i v) :
    Res.Rel (Restores idx (d.attrData ⟨some (container o), none⟩))
      ((d.attrTarget attributes).parseAttributes h container o)
      (((d.select idx []).attrTarget attributes).parseAttributes h container o) :=
  hp.attributes_fresh (thens := []) hs (fun ⟨o, n⟩ hx => by
      cases o with
      | none => cases hx
      | some x => exact ha.data x n) ht (hg.good hs) ho hn hf _ _
    (fun _ vs ws hr => then_nil h1 vs ws hr) (fun _ => hu) hm.acceptsAll attributes _

/-! ## Which flat fields read everything -/

/-- C101: collections and sets that are appended to, and maps of the rest, read everything. -/
theorem c101_drains {α κ : Type} [DecidableEq α] [DecidableEq κ] {vd : Dict α} {kd : Dict κ} (keyStr : κ → Str)
    (hv : ∀ n sp, Tidy (vd.named n sp)) (hk : ∀ m, Tidy (kd.parse m)) (names : List Str) :
    Drains (seqAppend vd names) ∧ Drains (setAppend vd names) ∧ Drains (mapRest kd keyStr vd names) :=
  ⟨seqAppend_drains hv names, setAppend_drains hv names, mapRest_drains keyStr hk hv names⟩

/-- C101: so does a structure that is flattened, if its own flat fields do. -/
theorem c101_drains_struct (hg : d.FieldsFine) (hs : d.shape = .named) (ht : PlainTidy d.fields) (hf : FlatDrain d.fields)
    (mode : Mode) (pre : Str) (validate : Bool) : Drains (d.flatNamed.parse mode pre validate) := by
  intro l hl a ha
  simp only [StructDef.flatNamed, M.mapRes] at ha ⊢
  obtain ⟨vs, hvs⟩ := runAndThens_from ha
  exact namedFlat_drains_all (d := d.data) (hg.good hs) ht hf _ mode pre validate l hl vs hvs

/-- C101: and such a structure leaves nothing unexpected behind when it is the item of another field. -/
theorem c101_tidy_struct (hg : d.FieldsFine) (hs : d.shape = .named) (hnt : d.isTransparent = false)
    (ht : PlainTidy d.fields) (hf : FlatDrain d.fields) :
    (∀ m, Tidy (d.dict.parse m)) ∧ ∀ n sp, Tidy (d.dict.named n sp) := by
  have k := fun mode => (c101_drains_struct hg hs ht hf mode [] (!d.acceptsAll)).tidy
  unfold StructDef.dict
  simp only [hnt, hs, Bool.false_eq_true, if_false, Dict.mk']
  have p := fun m => delimited_tidy (m := single (d.flatNamed.parse m [] (!d.acceptsAll))) (fun s hs a ha => k m s hs a ha) .brace
  exact ⟨p, fun n sp => named_tidy p k sp⟩

end

/-! ## Examples -/

section
variable [Env]

omit [Env] in
theorem boolDict_tidy : ∀ n sp, Tidy (boolDict.named n sp) := mk'_tidy fun _ => expectLit_tidy _ _

/-- `struct { a: Vec<bool>, #[deluxe(flatten)] i: Pair, #[deluxe(append)] xs: Vec<bool> }` with
`struct Pair { p: bool, q: bool }` -/
def threeKinds : StructDef (List Bool) :=
  ⟨.named, [plainField ['a'] (boolDict.map fun b => [b]),
    { plainField ['i'] (boolDict.map fun b => [b]) with
      flatten := some ⟨true, none⟩, flatNamed := (twoNamed "p" "q").flatNamed },
    { plainField ['x'] (boolDict.map fun b => [b]) with append := some true, appendP := seqAppend boolDict }], none, none,
    none, []⟩

theorem threeKinds_all {p : Field (List Bool) → Prop} : (∀ f ∈ threeKinds.fields, p f) ↔
    p (plainField ['a'] (boolDict.map fun b => [b])) ∧
    p { plainField ['i'] (boolDict.map fun b => [b]) with
      flatten := some ⟨true, none⟩, flatNamed := (twoNamed "p" "q").flatNamed } ∧
    p { plainField ['x'] (boolDict.map fun b => [b]) with append := some true, appendP := seqAppend boolDict } := by
  simp [threeKinds]

omit [Env] in
theorem twoNamed_fine : (twoNamed "p" "q").FieldsFine where
  item f hf := by
    simp only [twoNamed, List.mem_cons, List.not_mem_nil, or_false] at hf
    rcases hf with rfl | rfl <;> exact boolDict_good
  flat _ f hf h := by
    simp only [twoNamed, List.mem_cons, List.not_mem_nil, or_false] at hf
    rcases hf with rfl | rfl <;> cases h
  flatUnnamed h := by cases h

/-- C101, C102: the flat fields of the structure read everything. -/
theorem threeKinds_drain : FlatDrain threeKinds.fields := by
  refine threeKinds_all.2 ⟨fun h => (by cases h), fun _ pre span allowed => ?_, fun _ pre span allowed => ?_⟩
  · refine c101_drains_struct twoNamed_fine rfl ?_ ?_ _ _ _
    · intro f hf _ _
      simp only [twoNamed, List.mem_cons, List.not_mem_nil, or_false] at hf
      rcases hf with rfl | rfl <;> exact boolDict_tidy
    · intro f hf h
      simp only [twoNamed, List.mem_cons, List.not_mem_nil, or_false] at hf
      rcases hf with rfl | rfl <;> cases h
  · exact seqAppend_drains boolDict_tidy _

/-- C101: the structure meets the hypotheses, for the order `x`, `a`, `i`. -/
example : threeKinds.Accepted ∧ threeKinds.AttrAccepted ∧ threeKinds.FieldsFine ∧ threeKinds.shape = .named ∧
    threeKinds.isTransparent = false ∧ OneOwner threeKinds.fields ∧ NamesOnly threeKinds.fields ∧
    FlatDrain threeKinds.fields ∧ (∃ f ∈ threeKinds.fields, f.flatParsable = true) ∧ ThensMove [2, 0, 1] threeKinds [] ∧
    [2, 0, 1].Perm (List.range threeKinds.fields.length) ∧ Picks [2, 0, 1] threeKinds.fields ∧
    LeftPlain [2, 0, 1] threeKinds.fields := by
  have hacc : threeKinds.Accepted := by
    refine ⟨⟨threeKinds_all.2 ⟨fun h => ?_, fun h => ?_, fun h => ?_⟩, fun _ h => ?_⟩, fun h => ?_, fun h => ?_⟩ <;> cases h
  have hperm : [2, 0, 1].Perm (List.range threeKinds.fields.length) := by
    show [2, 0, 1].Perm (List.range 3)
    decide
  refine ⟨hacc, ⟨threeKinds_all.2 ⟨fun h => ?_, fun h => ?_, fun h => ?_⟩, fun _ h => ?_, hacc.transparent, hacc.tuple⟩,
    ⟨threeKinds_all.2 ⟨Dict.map_good _ boolDict_good, Dict.map_good _ boolDict_good, Dict.map_good _ boolDict_good⟩,
      fun _ => threeKinds_all.2 ⟨fun h => (by cases h), fun _ => ?_, fun _ _ _ _ => seqAppend_good boolDict_good.named _⟩,
      fun h => (by cases h)⟩, rfl, rfl, ?_,
    threeKinds_all.2 ⟨fun _ _ _ => rfl, fun _ _ _ => rfl, fun _ _ _ => rfl⟩, threeKinds_drain, ⟨_, List.mem_cons_of_mem _ List.mem_cons_self, rfl⟩,
    fun vs _ => .ok rfl, hperm, Picks.of_perm hperm, ?_⟩
  · cases h
  · cases h
  · cases h
  · cases h
  · refine fun pre span allowed => (twoNamed "p" "q").flatNamed_good ?_ rfl rfl twoNamed_fine _ _ _
    refine ⟨⟨fun f hf h => ?_, fun _ h => ?_⟩, fun h => ?_, fun h => ?_⟩
    · simp only [StructDef.data, twoNamed, List.mem_cons, List.not_mem_nil, or_false] at hf
      rcases hf with rfl | rfl <;> cases h
    · cases h
    · cases h
    · cases h
  · intro i j f g k hf hg hpf hpg hk hk'
    match i, j with
    | 0, 0 => rfl
    | 1, _ => cases hf; cases hpf.1
    | _, 1 => cases hg; cases hpg.1
    | 2, _ => cases hf; cases hpf.1
    | _, 2 => cases hg; cases hpg.1
    | n + 3, _ => cases hf
    | _, n + 3 => cases hg
  · intro i f hf hi
    exact absurd (all_picked hperm hf) hi

/-- The tokens `q, x, a, p` -/
def threeInput : List Stream :=
  [⟨[.ident ['q'] 1, .punct ',' false 2, .ident ['x'] 3, .punct ',' false 4, .ident ['a'] 5, .punct ',' false 6,
    .ident ['p'] 7], 0, none⟩]

/-- C101: they are read with the fields in either order. -/
example : letI : Env := ⟨fun a _ => some a, fun _ _ => 0, 1⟩
    ((threeKinds.dict.inline .unnamed threeInput).1 matches .ok [[true], [true, true], [true]]) ∧
    ((threeKinds.select [2, 0, 1] []).dict.inline .unnamed threeInput).1 matches .ok [[true], [true], [true, true]] := by
  decide +kernel

end

end Deluxe
