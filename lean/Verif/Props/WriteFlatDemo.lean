import Verif.Props.WriteFlatEnum
import Verif.Props.Writable
import Verif.Props.ReorderFlat
/-!
# C111: examples of structures with flattened, append and rest fields
-/
namespace Deluxe

variable {V : Type} [Env]

omit [Env] in
theorem flatCan_noFlat {fields : List (Field V)} (h : NoFlat fields) (allowed : List Str) (pre : Str)
    (K : Nat → Str → Prop) (P : Nat → V → Prop) : FlatCan fields allowed pre K P := by
  have hno : ∀ {i : Nat} {f : Field V}, fields[i]? = some f → f.flatParsable = true → False := fun hf hp => by
    rw [noFlat_flatParsable h (List.mem_of_getElem? hf)] at hp
    cases hp
  exact ⟨fun _ _ hf hp => (hno hf hp).elim, fun _ _ _ _ _ hf _ hp => (hno hf hp).elim, fun _ _ _ _ _ hf hp => (hno hf hp).elim⟩

omit [Env] in
theorem res_map_id {α : Type} (r : Res α) : r.map id = r := by cases r <;> rfl

/-- The keys of the structure `twoNamed "p" "q"`. -/
def pairKeys (k : Str) : Prop :=
  ∃ i, i < (twoNamed "p" "q").fields.length ∧ FieldClaims (twoNamed "p" "q").fields [] (fun _ _ => False) i k

omit [Env] in
theorem pairKeys_iff {k : Str} (h : pairKeys k) : k = ['p'] ∨ k = ['q'] := by
  obtain ⟨i, hi, f, hf, ho⟩ := h
  match i, hi, hf with
  | 0, _, hf =>
    cases hf
    obtain ⟨n, hn, _, _, hm, _⟩ := ho
    exact .inl (by simpa [plainField, hn] using hm)
  | 1, _, hf =>
    cases hf
    obtain ⟨n, hn, _, _, hm, _⟩ := ho
    exact .inr (by simpa [plainField, hn] using hm)

omit [Env] in
theorem twoNamed_accepted : (twoNamed "p" "q").Accepted := by
  refine ⟨⟨fun f hf h => ?_, fun _ h => ?_⟩, fun h => ?_, fun h => ?_⟩
  · simp only [StructDef.data, twoNamed, List.mem_cons, List.not_mem_nil, or_false] at hf
    rcases hf with rfl | rfl <;> cases h
  · cases h
  · cases h
  · cases h

omit [Env] in
theorem twoNamed_noFlat : NoFlat (twoNamed "p" "q").fields := by
  intro f hf
  simp only [twoNamed, List.mem_cons, List.not_mem_nil, or_false] at hf
  rcases hf with rfl | rfl <;> rfl

/-- The keys and values of the flat fields of `threeKinds`. -/
def threeKeys : Nat → Str → Prop
  | 1 => pairKeys
  | _ => (· ∈ [['x']])

def threeValues : Nat → List Bool → Prop
  | 1 => fun b => ∃ p q, b = [p, q]
  | _ => fun _ => True

theorem threeKinds_flatCan : FlatCan threeKinds.fields (Field.fieldNames threeKinds.fields) [] threeKeys threeValues := by
  have hpair : ∀ p q : Bool, (twoNamed "p" "q").WritableFlat [] (fun _ => .same fun _ => True) (fun _ _ => True) [p, q] := by
    refine fun p q => ⟨[p, q], rfl, rfl, fun i f w hf hw => ?_⟩
    match i, hf, hw with
    | 0, hf, hw =>
      cases hf; cases hw
      exact .inl ⟨⟨false, _, _, .plain (.one "p".toList 1), (owner_some _ _ _ _ _).1 rfl⟩, p, trivial, rfl⟩
    | 1, hf, hw =>
      cases hf; cases hw
      exact .inl ⟨⟨false, _, _, .plain (.one "q".toList 1), (owner_some _ _ _ _ _).1 rfl⟩, q, trivial, rfl⟩
  refine ⟨fun i f hf hp => ?_, fun i j f g k hf hg hfp hgp hne hk => ?_, fun i j f g k hf hfp hk ho => ?_⟩
  · match i, hf with
    | 0, hf => cases hf; cases hp
    | 1, hf =>
      cases hf
      rintro _ ⟨p, q, rfl⟩
      have h1 := c111_among (d := twoNamed "p" "q") (D := fun _ => .same fun _ => True) (P := fun _ _ => True)
        (K := fun _ _ => False) (pre := []) rfl rfl twoNamed_accepted twoNamed_fine (fun i f hf _ => by
          have := List.mem_of_getElem? hf
          simp only [twoNamed, List.mem_cons, List.not_mem_nil, or_false] at this
          rcases this with rfl | rfl <;> exact c111_bool) (flatCan_noFlat twoNamed_noFlat _ _ _ _)
      exact c111_flatten (p := none) ⟨rfl, rfl, rfl, rfl⟩ (q := (twoNamed "p" "q").flatNamed.parse) (g := id)
        (fun m pre c l => (res_map_id _).symm) h1 _ ⟨_, hpair p q, rfl⟩
    | 2, hf =>
      cases hf
      exact fun b _ => c111_append (D := .same fun _ => True) (g := id) rfl (fun names l => (res_map_id _).symm) boolDict_good c111_bool
        (.inl rfl) (.plain (.one ['x'] 1)) List.mem_cons_self _ b ⟨b, fun _ _ => trivial, rfl⟩
  · match i, j, hf, hg, hne with
    | 0, _, hf, _, _ => cases hf; cases hfp
    | _, 0, _, hg, _ => cases hg; cases hgp
    | 1, 2, _, _, _ => rcases pairKeys_iff hk with rfl | rfl <;> simp [threeKeys]
    | 2, 1, _, _, _ =>
      simp only [threeKeys, List.mem_singleton] at hk
      subst hk
      intro h
      rcases pairKeys_iff h with h | h <;> cases h
    | 1, 1, _, _, hne => exact absurd rfl hne
    | 2, 2, _, _, hne => exact absurd rfl hne
    | i + 3, _, hf, _, _ => cases hf
    | _, j + 3, _, hg, _ => cases hg
  · have hk' : k = ['p'] ∨ k = ['q'] ∨ k = ['x'] := by
      match i, hf with
      | 0, hf => cases hf; cases hfp
      | 1, _ => rcases pairKeys_iff hk with h | h <;> simp [h]
      | 2, _ =>
        simp only [threeKeys, List.mem_singleton] at hk
        simp [hk]
    have := (owner_some _ _ _ _ _).2 ho
    rcases hk' with rfl | rfl | rfl <;> cases this

/-- C111: all values of `struct { a: Vec<bool>, #[deluxe(flatten)] i: Pair, #[deluxe(append)] xs: Vec<bool> }`, if `a` has
one element. -/
example (a p q : Bool) (xs : List Bool) : ∃ v, Writes threeKinds.dict false [[a], [p, q], xs] v := by
  have hfine : threeKinds.FieldsFine :=
    ⟨threeKinds_all.2 ⟨Dict.map_good _ boolDict_good, Dict.map_good _ boolDict_good, Dict.map_good _ boolDict_good⟩,
      fun _ => threeKinds_all.2 ⟨fun h => (by cases h),
        fun _ _ _ _ => (twoNamed "p" "q").flatNamed_good twoNamed_accepted rfl rfl twoNamed_fine _ _ _,
        fun _ _ _ _ => seqAppend_good boolDict_good.named _⟩, fun h => (by cases h)⟩
  have hacc : threeKinds.Accepted := by
    refine ⟨⟨threeKinds_all.2 ⟨fun h => ?_, fun h => ?_, fun h => ?_⟩, fun _ h => ?_⟩, fun h => ?_, fun h => ?_⟩ <;> cases h
  have hends : FlatEnds threeKinds.fields := by
    refine threeKinds_all.2 ⟨fun h => (by cases h), fun _ pre sp allowed l v l' h => ?_, fun _ pre sp allowed l v l' h => ?_⟩
    · exact flatNamed_left (d := twoNamed "p" "q") rfl twoNamed_fine (fun f hf hp => by
        rw [noFlat_flatParsable twoNamed_noFlat hf] at hp; cases hp) h
    · exact seqAppend_left boolDict _ h
  refine ((c111_flat_struct (D := fun _ => (Domain.same fun _ => True).image fun b => [b]) rfl rfl hacc hfine hends (fun i f hf hp => ?_)
    threeKinds_flatCan (.inr fun i f k hf hp hk => ?_)).elem _ ⟨_, rfl, rfl, fun i f w hf hw => ?_⟩).1
  · match i, hf with
    | 0, hf =>
      cases hf
      exact c111_convert _ c111_bool
    | 1, hf => cases hf; cases hp
    | 2, hf => cases hf; cases hp
  · rw [show Field.fieldNames threeKinds.fields = [['a'], ['p'], ['q'], ['x']] from rfl]
    match i, hf with
    | 0, hf => cases hf; cases hp
    | 1, _ => rcases pairKeys_iff hk with rfl | rfl <;> simp
    | 2, _ =>
      simp only [threeKeys, List.mem_singleton] at hk
      simp [hk]
  · match i, hf, hw with
    | 0, hf, hw =>
      cases hf; cases hw
      exact .inl ⟨⟨false, _, _, .plain (.one ['a'] 1), (owner_some _ _ _ _ _).1 rfl⟩, [a], ⟨a, trivial, rfl⟩, rfl⟩
    | 1, hf, hw => cases hf; cases hw; exact ⟨_, ⟨p, q, rfl⟩, rfl⟩
    | 2, hf, hw => cases hf; cases hw; exact ⟨xs, trivial, rfl⟩

/-! ## A rest field -/

/-- `syn::Path` as a key reads every path. -/
theorem pathKeyDict_reads : ReadsPaths pathKeyDict keyString := by
  intro lead segs pt h
  refine ⟨segs, rfl, fun rest sc hr u => ⟨u, ?_⟩⟩
  obtain ⟨p, h1, _, h2⟩ := c07_path_roundtrip lead segs pt rest sc u h hr
  exact (M.map_ok Path.segs h1).trans (by rw [h2])

/-- C111: all values of `struct S { a: bool, #[deluxe(rest)] r: HashMap<Path, bool> }` whose keys are paths other than
`a` and `r`. -/
example (a : Bool) (l : List (List Str × Bool)) (hn : (l.map (·.1)).Nodup)
    (hl : ∀ x ∈ l, (∃ lead pt, PathToks lead x.1 pt) ∧ keyString x.1 ≠ ['a'] ∧ keyString x.1 ≠ ['r']) :
    ∃ v, Writes withRest.dict false [[([], a)], l] v := by
  have two : ∀ {p : Field RestVal → Prop}, p (plainField "a".toList oneBool) → p restMapField →
      ∀ f ∈ withRest.fields, p f := by
    intro p h1 h2 f hf
    simp only [withRest, List.mem_cons, List.not_mem_nil, or_false] at hf
    rcases hf with rfl | rfl <;> assumption
  have hone : oneBool.Good := Dict.map_good _ boolDict_good
  have hnames : Field.fieldNames withRest.fields = [['a'], ['r']] := rfl
  refine ((c111_flat_struct (d := withRest) (D := fun _ => (Domain.same fun _ => True).image fun b => [([], b)])
    (K := fun _ k => k ∉ [['a'], ['r']])
    (P := fun _ l => (l.map (·.1)).Nodup ∧ ∀ x ∈ l, WritesPath pathKeyDict keyString [['a'], ['r']] x.1 ∧ True) rfl rfl
    ⟨⟨two ?_ ?_, ?_⟩, ?_, ?_⟩ ⟨two hone hone, fun _ => two ?_ ?_, ?_⟩ (two ?_ ?_) (fun i f hf hp => ?_) ⟨?_, ?_, ?_⟩
    (.inl rfl)).elem _ ⟨_, rfl, rfl, fun i f w hf hw => ?_⟩).1
  · intro h; cases h
  · intro h; cases h
  · intro t h; cases h
  · intro h; cases h
  · intro h; cases h
  · intro h; cases h
  · exact fun _ pre sp allowed => mapRest_good keyString (fun _ => pathKeyDict_good) boolDict_good.named allowed
  · intro h; cases h
  · intro h; cases h
  · exact fun _ pre sp allowed l v l' h => mapRest_left pathKeyDict keyString boolDict allowed h
  · match i, hf with
    | 0, hf => cases hf; exact c111_convert _ c111_bool
    | 1, hf => cases hf; cases hp
  · intro i f hf hp
    match i, hf with
    | 0, hf => cases hf; cases hp
    | 1, hf =>
      cases hf
      rw [hnames]
      rintro b ⟨h1, h2⟩
      exact c111_rest (D := .same fun _ => True) (g := id) rfl rfl (fun l => (res_map_id _).symm) pathKeyDict_good
        pathKeyDict_reads boolDict_good c111_bool [] b ⟨b, h1, h2, rfl⟩
  · intro i j f g k hf hg hfp hgp hne
    match i, j, hf, hg, hne with
    | 0, _, hf, _, _ => cases hf; cases hfp
    | _, 0, _, hg, _ => cases hg; cases hgp
    | 1, 1, _, _, hne => exact absurd rfl hne
    | i + 2, _, hf, _, _ => cases hf
    | _, j + 2, _, hg, _ => cases hg
  · rintro i j f g k _ _ hk ⟨n, rfl, hg, hpl, hm, _⟩
    match j, hg with
    | 0, hg =>
      cases hg
      simp only [plainField, List.mem_singleton] at hm
      subst hm
      exact hk (by simp)
    | 1, hg => cases hg; cases hpl.1
  · match i, hf, hw with
    | 0, hf, hw =>
      cases hf; cases hw
      exact .inl ⟨⟨false, _, _, .plain (.one "a".toList 1), (owner_some _ _ _ _ _).1 rfl⟩, [([], a)], ⟨a, trivial, rfl⟩, rfl⟩
    | 1, hf, hw =>
      cases hf; cases hw
      refine ⟨l, ⟨hn, fun x hx => ⟨?_, trivial⟩⟩, rfl⟩
      obtain ⟨⟨lead, pt, hpt⟩, h1, h2⟩ := hl x hx
      obtain ⟨k, hk, hk2⟩ := pathKeyDict_reads lead x.1 pt hpt
      refine ⟨lead, x.1, pt, hpt, rfl, by simp [h1, h2], fun rest sc hr u => ⟨u, ?_⟩⟩
      obtain ⟨p, g1, _, g2⟩ := c07_path_roundtrip lead x.1 pt rest sc u hpt hr
      exact (M.map_ok Path.segs g1).trans (by rw [g2])

/-! ## Enums -/

/-- C111: `D { p, q }` of `demoEnum`, a flattened variant, for all `p` and `q`. -/
example (p q : Bool) : ∃ v, Writes demoEnum.dict false (2, [p, q]) v := by
  have hall : ∀ w ∈ demoEnum.variants, ∃ n ids fl fs, w = boolVariant n ids fl fs := by
    intro w hw
    simp only [demoEnum, List.mem_cons, List.not_mem_nil, or_false] at hw
    rcases hw with rfl | rfl | rfl | rfl <;> exact ⟨_, _, _, _, rfl⟩
  have hnf : ∀ w ∈ demoEnum.variants, NoFlat w.fields := by
    intro w hw f hf
    obtain ⟨n, ids, fl, fs, rfl⟩ := hall w hw
    simp only [boolVariant, List.mem_map] at hf
    obtain ⟨x, _, rfl⟩ := hf
    rfl
  have hkeys : ∀ (i : Nat) w k, demoEnum.variants[i]? = some w → w.FieldKeys (fun _ _ => False) k →
      ∃ f ∈ w.fields, k ∈ f.idents := by
    rintro i w k hw ⟨j, _, f, hf, ho⟩
    rw [noFlat_flatParsable (hnf w (List.mem_of_getElem? hw)) (List.mem_of_getElem? hf)] at ho
    obtain ⟨n, rfl, _, _, hm, _⟩ := ho
    exact ⟨f, List.mem_of_getElem? hf, hm⟩
  refine ((c111_flat_variant (e := demoEnum) (D := fun _ _ => .same fun _ => True) (P := fun _ _ _ => True)
    (K := fun _ _ _ => False) demoEnum_fine.1 demoEnum_fine.2.1 demoEnum_fine.2.2 demoEnum_distinct
    (fun i w j f hw _ hf _ => ?_) (fun i w hw _ => flatCan_noFlat (hnf w (List.mem_of_getElem? hw)) _ _ _ _)
    (fun i w hw _ => .inr fun k hk => ?_)).elem _ ⟨2, _, [p, q], rfl, rfl, ⟨⟨rfl, rfl⟩, fun key hk k u j => ?_,
      fun j u hu hne hb hk => ?_, fun h => by cases h⟩, ⟨rfl, fun i f w hf hw => ?_⟩, fun j f v hf hv hr _ => ?_⟩).1
  · obtain ⟨n, ids, fl, fs, rfl⟩ := hall w (List.mem_of_getElem? hw)
    have := List.mem_of_getElem? hf
    simp only [boolVariant, List.mem_map] at this
    obtain ⟨x, _, rfl⟩ := this
    exact c111_bool
  · obtain ⟨f, hf, hm⟩ := hkeys i w k hw hk
    obtain ⟨n, ids, fl, fs, rfl⟩ := hall w (List.mem_of_getElem? hw)
    refine List.mem_flatMap.2 ⟨f, List.mem_filter.2 ⟨hf, ?_⟩, ?_⟩ <;>
      (simp only [boolVariant, List.mem_map] at hf; obtain ⟨x, _, rfl⟩ := hf)
    · rfl
    · exact hm
  · obtain ⟨f, hf, hm⟩ := hkeys 2 _ key rfl hk
    have : key = ['p'] ∨ key = ['q'] := by
      simp only [boolVariant, List.map_cons, List.map_nil, List.mem_cons, List.not_mem_nil, or_false] at hf
      rcases hf with rfl | rfl <;> simp [plainField] at hm <;> simp [hm]
    rcases this with rfl | rfl <;> exact (selected_none _ _ _).1 rfl k u j
  · match j, hu with
    | 0, hu => cases hu; cases hb.1
    | 1, hu => cases hu; cases hb.1
    | 2, hu => exact absurd rfl hne
    | 3, hu =>
      cases hu
      refine absurd (fun f hf hr => ?_) hk
      simp only [boolVariant, List.map_cons, List.map_nil, List.mem_cons, List.not_mem_nil, or_false] at hf
      subst hf
      cases hr.2.2
  · match i, hf, hw with
    | 0, hf, hw =>
      cases hf; cases hw
      exact .inl ⟨⟨false, _, _, .plain (.one "p".toList 1), (owner_some _ _ _ _ _).1 rfl⟩, p, trivial, rfl⟩
    | 1, hf, hw =>
      cases hf; cases hw
      exact .inl ⟨⟨false, _, _, .plain (.one "q".toList 1), (owner_some _ _ _ _ _).1 rfl⟩, q, trivial, rfl⟩
  · match j, hf, hv with
    | 0, hf, hv =>
      cases hf; cases hv
      exact ⟨⟨false, _, _, .plain (.one "p".toList 1), (owner_some _ _ _ _ _).1 rfl⟩, p, trivial, rfl⟩
    | 1, hf, hv => cases hf; cases hr.2.2

/-- C111: `B {}` of `demoEnum` flattened into a structure with the prefix `x`: written among the items of the structure. -/
example : CanWriteAmong (fun span => demoEnum.flatNamed.parse (.named span) "x::".toList false) (demoEnum.Claims "x::".toList)
    (demoEnum.WritableUnder "x::".toList fun i vs => i = 1 ∧ vs = []) ∧
    demoEnum.WritableUnder "x::".toList (fun i vs => i = 1 ∧ vs = []) (1, []) := by
  refine ⟨c111_enum_among demoEnum_fine.1 demoEnum_fine.2.1 demoEnum_fine.2.2 ?_,
    1, _, [], rfl, ⟨rfl, rfl⟩, rfl, false, ["x".toList, "b".toList], _, "b".toList,
      .plain (.cons _ 1 2 3 false (.one _ 4)), (selected_some _ _ _ _ _ _).1 rfl⟩
  rintro i w vs hw _ ⟨rfl, rfl⟩
  cases hw
  refine ⟨[.group .paren [] 1 2], by simp [NoComma, Comma], by simp [StartsColon2], fun p sp rest sc _ u => ⟨_, rfl⟩⟩

end Deluxe
