import Verif.Props.UnknownKeys
import Verif.Props.Flatten
import Verif.Props.Maps
/-!
# C75: a `rest` field gets the items that no other field takes

macros/types/field.rs:315-388, 397-416; core/parse_meta.rs:774-815.
-/
namespace Deluxe

variable {V : Type}

/-- The key is a name of one of the fields: one of its own names, or, if the field is flattened, one that its type
announces, after the prefix. -/
def FieldKey (fields : List (Field V)) (key : Str) : Prop :=
  ∃ f ∈ fields, f.isParsable = true ∧
    ((∃ k ∈ f.flatNamed.fieldNames, f.flatten = some ⟨true, none⟩ ∧ key = k) ∨
     (∃ k ∈ f.flatNamed.fieldNames, ∃ p, f.flatten = some ⟨true, some p⟩ ∧ key = joinPath p k) ∨
     (f.isFlatten = false ∧ key ∈ f.idents))

/-- A field with `rest` whose type is a map with these keys and values, made into a value of the structure by `g`. -/
structure IsRestMap [Env] {κ ν : Type} [DecidableEq κ] (f : Field V) (kd : Dict κ) (keyStr : κ → Str) (vd : Dict ν)
    (g : List (κ × ν) → V) : Prop where
  rest : f.rest = some true
  append : f.append.getD false = false
  parsable : f.isParsable = true
  transforms : f.transforms = []
  parser : ∀ names l, (f.restP names l).1 = (mapRest kd keyStr vd names l).1.map g

section
variable [Env]

/-- C75, for a structure that is not flattened into another: if it is parsed, the map consists of exactly the items
whose key is not a name of any of the fields, all of them different.  The names include those of the `rest` field
itself, which is why this is only a part. -/
theorem c75_unclaimed_partial {κ ν : Type} [DecidableEq κ] {d : StructDef V} (hs : d.shape = .named) (ha : d.Accepted)
    (ht : d.isTransparent = false) (hg : FieldsGood d.fields) (hn : d.andThens = []) {kd : Dict κ} {keyStr : κ → Str}
    {vd : Dict ν} (hk : Good (kd.parse .unnamed)) (hv : ∀ n sp, Good (vd.named n sp)) {g : List (κ × ν) → V}
    {i : Nat} {f : Field V} (hi : d.fields[i]? = some f) (hf : IsRestMap f kd keyStr vd g) (mode : Mode)
    {l bs} (hl : ItemsAll (StructSeg d.fields []) l bs) {declared : List Str}
    (hd : ∀ k, k ∈ declared ↔ FieldKey d.fields k) {es}
    (he : ItemsAll (RestSeg (kd.parse .unnamed) keyStr vd.named declared) l es) {vs : List V}
    (h : (d.dict.inline mode l).1 = .ok vs) :
    (∀ x ∈ es.filterMap id, ∃ a, x.2.1 = .ok a) ∧ ((es.filterMap id).map (·.1)).Nodup ∧
      vs[i]? = some (g (okPairs (es.filterMap id))) := by
  have hmem : ∀ k, k ∈ declared ↔ k ∈ Field.fieldNames d.fields := fun k => by rw [hd, c39_names]; rfl
  have he' : ItemsAll (RestSeg (kd.parse .unnamed) keyStr vd.named (Field.fieldNames d.fields)) l es := by
    have := he.map (f := id) (seg' := RestSeg (kd.parse .unnamed) keyStr vd.named (Field.fieldNames d.fields)) (by
      intro v rest sc b hb
      cases hb with
      | entry h1 h2 => exact .entry h1 (fun h3 => h2 ((hmem _).2 h3))
      | excluded h1 h2 h3 h4 => exact .excluded h1 h2 ((hmem _).1 h3) h4)
    rwa [List.map_id] at this
  have hmemf : f ∈ d.fields := List.mem_of_getElem? hi
  have hany : TakesAnyKey d.flatNamed := .rest hmemf hf.rest
  obtain ⟨-, -, hall⟩ := (c74_parsed hany hs ha ht hg hn mode hl vs).1 h
  obtain ⟨v, hv1, hv2⟩ := hall i f hi
  have hflat : f.flatParsable = true := by simp [Field.flatParsable, Field.isFlat, hf.rest, hf.parsable]
  have hnp : ¬ f.Plain := fun hp => by
    have := hp.1
    simp [Field.isFlat, hf.rest] at this
  have hnc : f.isContainer = false := by
    have := hf.parsable
    simp only [Field.isParsable, Bool.and_eq_true, Bool.not_eq_true'] at this
    exact this.1
  have hng : ∀ gv, ¬ NotGiven d.data f gv := by
    rintro gv (⟨h1, -⟩ | ⟨h1, -⟩)
    · exact hnp h1
    · rw [hf.parsable] at h1; cases h1
  have hout : flatOut d.fields [] (mode.toFullSpan l) (Field.fieldNames d.fields) l f i = .ok v := by
    rcases hv2 with ⟨b, hb, hr⟩ | ⟨hb, -⟩
    · rw [hf.transforms] at hr
      cases hr
      cases hb with
      | item h1 => exact absurd h1 hnp
      | flat _ h1 => exact h1
      | container h1 => rw [hnc] at h1; cases h1
      | default h1 => exact absurd h1 (hng _)
      | missing h1 => exact absurd h1 hnp
    · cases hb with
      | target h1 => exact absurd h1 (hng _)
  obtain ⟨r, l', hm, h1, h2⟩ := c27_rest kd keyStr vd hk hv (Field.fieldNames d.fields) _ es
    (itemsAll_forkIf ((d.fields.drop (i + 1)).any (·.flatParsable)) he')
  have hr : r.map g = .ok v := by
    rw [← hout, flatOut]
    have : ∀ sp l, (f.flatCall [] sp (Field.fieldNames d.fields) l).1 =
        (mapRest kd keyStr vd (Field.fieldNames d.fields) l).1.map g := by
      intro sp l
      simp [Field.flatCall, hf.rest, hf.append, hf.parser]
    rw [this, hm]
  have hok : ∀ x ∈ es.filterMap id, ∃ a, x.2.1 = .ok a := by
    intro x hx
    cases hx1 : x.2.1 with
    | ok a => exact ⟨a, rfl⟩
    | error e =>
      obtain ⟨e', he'⟩ := h2 ⟨x, hx, e, hx1⟩
      rw [he'] at hr
      cases hr
  obtain ⟨-, hc⟩ := h1 hok
  have hnil : mapMsgs [] (es.filterMap id) = [] := by
    by_cases hm : mapMsgs [] (es.filterMap id) = []
    · exact hm
    · obtain ⟨e, h3, -⟩ := hc.2 hm
      rw [h3] at hr
      cases hr
  refine ⟨hok, ((mapMsgs_eq_nil _ _).1 hnil).2.1, ?_⟩
  have := hc.1 hnil
  rw [this] at hr
  cases hr
  exact hv1

/-! ## Where it is not so -/

/-- `syn::Path` as the key of a map, core/parse_meta.rs:1398-1403, for paths without generic arguments. -/
def pathKeyDict : Dict (List Str) := .mk' (parse := fun _ => M.map Path.segs parseAnyPath)

/-- The values of the examples below: those of a map, or one `bool`. -/
abbrev RestVal := List (List Str × Bool)

/-- `bool` as such a value. -/
def oneBool : Dict RestVal := boolDict.map fun b => [([], b)]

/-- `#[deluxe(rest)] r: HashMap<Path, bool>` -/
def restMapField : Field RestVal :=
  { plainField "r".toList oneBool with rest := some true, restP := mapRest pathKeyDict keyString boolDict }

/-- `struct R { #[deluxe(rest)] r: HashMap<Path, bool> }` -/
def onlyRest : StructDef RestVal where
  shape := .named
  fields := [restMapField]
  default := none
  transparent := none
  allowUnknown := none
  andThens := []

/-- `struct S { a: bool, #[deluxe(rest)] r: HashMap<Path, bool> }` -/
def withRest : StructDef RestVal := { onlyRest with fields := [plainField "a".toList oneBool, restMapField] }

/-- `k = true` -/
def given1 (k : String) (sp : Span) : List Tok :=
  [.ident k.toList sp, .punct '=' false (sp + 1), .ident "true".toList (sp + 2)]

/-- C75 does not hold for a key with the name of the `rest` field: in `r = true, x = true` the item `r` is
dropped without a message, although no field takes it. -/
theorem c75_own_name_violated :
    (onlyRest.dict.inline (.named 0) [⟨given1 "r" 1 ++ .punct ',' false 4 :: given1 "x" 5, 20, none⟩]).1 =
      .ok [[(["x".toList], true)]] ∧
    ∀ f i, ¬ Owns onlyRest.fields [] "r".toList f i := by
  refine ⟨rfl, ?_⟩
  rintro f i ⟨k, hk, hi, hp, hm, -⟩
  match i, hi with
  | 0, hi => cases hi; simp [Field.Plain, Field.isFlat, restMapField] at hp

/-- `struct P { b: bool, #[deluxe(flatten)] s: R }` -/
def aroundOnlyRest : StructDef (List RestVal) where
  shape := .named
  fields := [plainField "b".toList (oneBool.map fun v => [v]),
    { plainField "s".toList onlyRest.dict with
      idents := [], flatten := some ⟨true, none⟩, flatNamed := onlyRest.flatNamed }]
  default := none
  transparent := none
  allowUnknown := none
  andThens := []

/-- C75 does not hold for a flattened structure: in `b = true` the map of `R` gets the item `b`, which is the
field `b` of `P`. -/
theorem c75_flattened_violated :
    (aroundOnlyRest.dict.inline (.named 0) [⟨given1 "b" 5, 20, none⟩]).1 =
      .ok [[[([], true)]], [[(["b".toList], true)]]] ∧
    ∃ f, Owns aroundOnlyRest.fields [] "b".toList f 0 :=
  ⟨rfl, _, "b".toList, rfl, rfl, ⟨rfl, rfl⟩, List.mem_cons_self, fun j _ h => absurd h (Nat.not_lt_zero j)⟩

/-- `#[deluxe(flatten(prefix = x))] s: S` -/
def prefixedField : Field (List RestVal) :=
  { plainField "s".toList withRest.dict with
    idents := [], flatten := some ⟨true, some "x".toList⟩, flatNamed := withRest.flatNamed }

/-- C75 and C40 do not hold together with a prefix: when `S` is flattened with the prefix `x`, in `x::a, b` its map gets
the item `x::a`, although it is the field `a` of `S`, and also `b`, which does not have the prefix. -/
theorem c75_prefix_violated (allowed : List Str) :
    (prefixedField.flatCall [] 0 allowed
      [⟨[.ident "x".toList 1, .punct ':' true 2, .punct ':' false 3, .ident "a".toList 4,
        .punct ',' false 7, .ident "b".toList 8], 20, none⟩]).1 =
      .ok [[([], true)], [(["x".toList, "a".toList], true), (["b".toList], true)]] ∧
    ∃ f, Owns withRest.fields "x::".toList "x::a".toList f 0 :=
  ⟨rfl, _, "a".toList, rfl, rfl, ⟨rfl, rfl⟩, List.mem_cons_self, fun j _ h => absurd h (Nat.not_lt_zero j)⟩

/-! ## Examples -/

theorem pathKeyDict_good : Good (pathKeyDict.parse .unnamed) := Good.map _ parseAnyPath_good

/-- `withRest` with the tokens `a, x` meets the conditions of `c75_unclaimed_partial`: the map has the entry `x`. -/
example : withRest.Accepted ∧ FieldsGood withRest.fields ∧ IsRestMap restMapField pathKeyDict keyString boolDict id ∧
    withRest.fields[1]? = some restMapField ∧
    (∀ k, k ∈ ["a".toList, "r".toList] ↔ FieldKey withRest.fields k) ∧
    ItemsAll (StructSeg withRest.fields []) [⟨anyKeyInput.toks, 9, none⟩]
      [.field 0 "a".toList 1 (.ok [([], true)]), .other "x".toList 3] ∧
    ItemsAll (RestSeg (pathKeyDict.parse .unnamed) keyString boolDict.named ["a".toList, "r".toList])
      [⟨anyKeyInput.toks, 9, none⟩] [none, some (["x".toList], .ok true, (Env.join 9 3).getD 3)] ∧
    (withRest.dict.inline (.named 0) [⟨anyKeyInput.toks, 9, none⟩]).1 =
      .ok [[([], true)], [(["x".toList], true)]] := by
  have two : ∀ {p : Field RestVal → Prop}, p (plainField "a".toList oneBool) → p restMapField →
      ∀ f ∈ withRest.fields, p f := by
    intro p h1 h2 f hf
    simp only [withRest, List.mem_cons, List.not_mem_nil, or_false] at hf
    rcases hf with rfl | rfl <;> assumption
  have hone : ∀ n sp, Good (oneBool.named n sp) := (Dict.map_good _ boolDict_good).named
  refine ⟨⟨⟨two ?_ ?_, ?_⟩, ?_, ?_⟩, ⟨two ?_ ?_, two ?_ ?_, two ?_ ?_⟩, ⟨rfl, rfl, rfl, rfl, ?_⟩, rfl, ?_, ?_, ?_, rfl⟩
  · intro h; simp [Field.isParsable, Field.isContainer, plainField] at h
  · intro h; simp [Field.isParsable, Field.isContainer, plainField, restMapField] at h
  · intro t h; cases h
  · intro h; cases h
  · intro h; cases h
  · exact fun _ => hone
  · exact fun _ => hone
  · intro n sp h; cases h
  · intro n sp h; cases h
  · intro h; simp [Field.flatParsable, Field.isFlat, Field.isFlatten, plainField] at h
  · intro _ pre sp allowed
    exact mapRest_good keyString (fun _ => pathKeyDict_good) boolDict_good.named allowed
  · intro names l
    show (mapRest pathKeyDict keyString boolDict names l).1 = _
    cases (mapRest pathKeyDict keyString boolDict names l).1 <;> rfl
  · intro k
    rw [show FieldKey withRest.fields k ↔ k ∈ Field.fieldNames withRest.fields from (c39_names _ _).symm]
    rfl
  · refine .cons (bs := [_, _]) (.cons (v := [.ident "a".toList 1]) ⟨_, _, rfl⟩ ?_ (.last (by simp) ?_)) .nil
    · have hown : Owns withRest.fields [] (keyString ["a".toList]) (plainField "a".toList oneBool) 0 :=
        (owner_some _ _ _ _ _).1 rfl
      exact .field (segs := ["a".toList]) (vt := []) (.mk (pt := [.ident "a".toList 1]) (.plain (.one _ _))
        (by simp [StartsColon2])) hown (fun u => ⟨u, rfl⟩)
    · refine .other (segs := ["x".toList]) (vt := []) (.mk (pt := [.ident "x".toList 3]) (.plain (.one _ _))
        (by simp [StartsColon2])) ?_ (by simp [NoComma])
      intro f i h
      have := (owner_some _ _ _ _ _).2 h
      cases this
  · refine .cons (bs := [_, _]) (.cons (v := [.ident "a".toList 1]) ⟨_, _, rfl⟩ ?_ (.last (by simp) ?_)) .nil
    · exact .excluded (kt := [.ident "a".toList 1]) (vt := []) (key := ["a".toList]) rfl (fun u => ⟨u, rfl⟩)
        (by simp [keyString]) (by simp [NoComma])
    · exact .entry (.mk (kt := [.ident "x".toList 3]) (vt := []) (key := ["x".toList]) (x := .ok true) rfl
        (fun u => ⟨u, rfl⟩) (fun u => ⟨u, rfl⟩)) (by simp [keyString])

end
end Deluxe
