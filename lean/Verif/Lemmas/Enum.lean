import Verif.Lemmas.StructDef
import Verif.Spec.Enum
import Verif.Props.Paths
import Verif.Lemmas.Ordered
/-!
# Derived enums: the loop over the items
-/
namespace Deluxe

variable {V : Type}

theorem findVariant_some (vs : List (Variant V)) (k : Str) (v : Variant V) (i : Nat) :
    findVariant vs k = some (v, i) ↔ vs[i]? = some v ∧ v.ByName ∧ k ∈ v.idents ∧
      ∀ j w, j < i → vs[j]? = some w → w.ByName → k ∉ w.idents := by
  have iff1 : ∀ w : Variant V, (!w.isFlatten && !w.isSkipped && w.idents.contains k) = true ↔
      w.ByName ∧ k ∈ w.idents := by
    intro w; simp [Variant.ByName, and_assoc]
  have gen : ∀ (fs : List (Variant V)) (n : Nat),
      (fs.zipIdx n).find? (fun x => !x.1.isFlatten && !x.1.isSkipped && x.1.idents.contains k) =
          some (v, i) ↔
        ∃ m, i = n + m ∧ fs[m]? = some v ∧ v.ByName ∧ k ∈ v.idents ∧
          ∀ j w, j < m → fs[j]? = some w → w.ByName → k ∉ w.idents := by
    intro fs
    induction fs with
    | nil => intro n; simp
    | cons g fs ih =>
      intro n
      rw [List.zipIdx_cons, List.find?_cons]
      by_cases hg : (!g.isFlatten && !g.isSkipped && g.idents.contains k) = true
      · simp only [hg, Option.some.injEq, Prod.mk.injEq]
        have hg' := (iff1 g).1 hg
        constructor
        · rintro ⟨rfl, rfl⟩
          exact ⟨0, rfl, rfl, hg'.1, hg'.2, by omega⟩
        · rintro ⟨m, rfl, h1, _, _, h4⟩
          cases m with
          | zero => simp at h1; exact ⟨h1, rfl⟩
          | succ m => exact absurd hg'.2 (h4 0 g (by omega) rfl hg'.1)
      · simp only [hg]
        rw [ih]
        have hg' := fun h => hg ((iff1 g).2 h)
        constructor
        · rintro ⟨m, rfl, h1, h2, h3, h4⟩
          refine ⟨m + 1, by omega, by simpa using h1, h2, h3, ?_⟩
          intro j x hj hx hp hk
          cases j with
          | zero => simp at hx; subst hx; exact hg' ⟨hp, hk⟩
          | succ j => exact h4 j x (by omega) (by simpa using hx) hp hk
        · rintro ⟨m, rfl, h1, h2, h3, h4⟩
          cases m with
          | zero => simp at h1; subst h1; exact absurd ⟨h2, h3⟩ hg'
          | succ m =>
            exact ⟨m, by omega, by simpa using h1, h2, h3,
              fun j x hj hx => h4 (j + 1) x (by omega) (by simpa using hx)⟩
  simpa [findVariant] using gen vs 0

/-- The variant selected by a key, with the key without prefix. -/
def selected (vs : List (Variant V)) (pre key : Str) : Option (Str × (Variant V × Nat)) :=
  (stripPrefix pre key).bind fun k => (findVariant vs k).map fun x => (k, x)

theorem selected_some (vs : List (Variant V)) (pre key k : Str) (v : Variant V) (i : Nat) :
    selected vs pre key = some (k, (v, i)) ↔ Selects vs pre key k v i := by
  simp only [selected, Option.bind_eq_some_iff, Option.map_eq_some_iff, Prod.mk.injEq]
  constructor
  · rintro ⟨k', h1, ⟨v', i'⟩, h2, rfl, h3⟩
    obtain ⟨rfl, rfl⟩ := Prod.mk.inj h3
    exact ⟨(stripPrefix_iff _ _ _).1 h1, (findVariant_some _ _ _ _).1 h2⟩
  · rintro ⟨h1, h2⟩
    exact ⟨k, (stripPrefix_iff _ _ _).2 h1, (v, i), (findVariant_some _ _ _ _).2 h2, rfl, rfl⟩

theorem selected_none (vs : List (Variant V)) (pre key : Str) :
    selected vs pre key = none ↔ ∀ k v i, ¬ Selects vs pre key k v i := by
  constructor
  · intro h k v i ho
    rw [(selected_some _ _ _ _ _ _).2 ho] at h
    cases h
  · intro h
    cases hx : selected vs pre key with
    | none => rfl
    | some x => exact absurd ((selected_some _ _ _ _ _ _).1 hx) (h x.1 x.2.1 x.2.2)

theorem Selects.mem {vs : List (Variant V)} {pre key k v i} (h : Selects vs pre key k v i) :
    v ∈ vs ∧ v.ByName ∧ i < vs.length :=
  ⟨List.mem_of_getElem? h.2.1, h.2.2.1, (List.getElem?_eq_some_iff.1 h.2.1).1⟩

section
variable [Env]

/-- The item reader of an enum after the key. -/
def enumValue (e : EnumDef V) (site : Site V) (pre key : Str) (sp : Span) : M Stream (EItem V) :=
  match selected e.variants pre key with
  | some (k, (v, i)) => (recover (v.item site pre key sp)).map (.variant i k sp)
  | none => fun s => (.ok (.other key sp), skipMetaItem s)

/-- The item reader of an enum. -/
def enumItem (e : EnumDef V) (site : Site V) (pre : Str) : M Stream (EItem V) :=
  keyed (enumValue e site pre)

/-- The value of the enum after an item. -/
def nextValue (e : EnumDef V) (value : FieldStatus (EnumVal V)) (i : Nat) :
    Except SynErr (List V) → FieldStatus (EnumVal V)
  | .ok x => if (e.variants[i]?).any (·.isTransparent) && value.isSome then value else .some (i, x)
  | .error _ => if value.isNone then .parseError else value

/-- The keys seen so far after an item with this key. -/
def nextPaths (e : EnumDef V) (pre : Str) (paths : PathMap) (key : Str) (sp : Span) : PathMap :=
  match stripPrefix pre key with
  | some k => if e.anyFlat then paths.insert k sp else paths
  | none => paths

/-- Adds an item. -/
def enumAdd (e : EnumDef V) (pre : Str) (acc : Acc (EnumSt V)) : EItem V → Acc (EnumSt V)
  | .variant i k sp x =>
    let errs := match acc.val.key with
      | some key => onlyOneVariant sp pre key k acc.errs
      | none => acc.errs
    { val := ⟨some (acc.val.key.getD k), nextValue e acc.val.value i x,
        nextPaths e pre acc.val.paths (pre ++ k) sp⟩
      errs := match x with
        | .ok _ => errs
        | .error e => errs.pushSyn e }
  | .other key sp => { acc with val.paths := nextPaths e pre acc.val.paths key sp }

/-- The variants selected by name read their values without panic. -/
def ByNameGood (e : EnumDef V) (site : Site V) : Prop :=
  ∀ v ∈ e.variants, v.ByName → ∀ pre p sp, Good (v.item site pre p sp)

theorem enumItem_good {e : EnumDef V} {site : Site V} (hg : ByNameGood e site) (pre : Str) :
    Good (enumItem e site pre) := by
  refine keyed_good fun key sp => ?_
  unfold enumValue
  split
  · rename_i k v i h
    have ho := ((selected_some _ _ _ _ _ _).1 h).mem
    exact (recover_good (hg v ho.1 ho.2.1 _ _ _)).map _
  · exact fun s => ⟨by simp, skipMetaItem_adv s⟩

theorem enumItem_seg (e : EnumDef V) (site : Site V) (pre : Str) :
    SegSound (enumItem e site pre) (EnumSeg e site pre) := by
  intro v rest sc b hr hne hseg u
  cases hseg with
  | @variant segs sp vt w k i x hk ho _ hx =>
    rw [enumItem, keyed_key _ hk hr]
    simp only [enumValue, (selected_some _ _ _ _ _ _).2 ho]
    by_cases hv : vt ++ rest = []
    · have h1 : vt = [] := (List.append_eq_nil_iff.1 hv).1
      have h2 : rest = [] := (List.append_eq_nil_iff.1 hv).2
      subst h1 h2
      cases x with
      | ok a =>
        obtain ⟨u', h⟩ := hx u
        exact ⟨u', by simp only [M.map, recover, h, Res.map]⟩
      | error e =>
        obtain ⟨v', u', hv', h⟩ := hx u
        exact ⟨u', by
          simp only [M.map, recover, h, Res.map, skipMetaItem, skipToks_boundary hv' hr]⟩
    · obtain ⟨u', h⟩ := recover_segSound _ vt rest sc x hr hv hx u
      exact ⟨u', by simp only [M.map, h, Res.map]⟩
  | @other segs sp vt hk ho hc =>
    rw [enumItem, keyed_key _ hk hr]
    simp only [enumValue, (selected_none _ _ _).2 ho]
    exact ⟨u, by simp only [skipMetaItem, skipToks_boundary hc hr]⟩

theorem enumStep_eq (e : EnumDef V) (site : Site V) (hg : ByNameGood e site) (pre : Str) :
    keyStep (enumStep e site pre) =
      foldStep (enumItem e site pre) (fun k b _ _ => enumAdd e pre k b) := by
  funext st
  obtain ⟨acc, s⟩ := st
  rw [keyStep_eq]
  simp only [foldStep, enumItem, keyed]
  cases hp : parseAnyPath s with
  | mk r s1 =>
    cases r with
    | err e => rfl
    | panic => rfl
    | ok p =>
      simp only [enumStep, enumValue]
      cases hx : selected e.variants pre (keyString p.segs) with
      | none =>
        have hx' := hx
        simp only [selected] at hx'
        simp only [hx']
        rfl
      | some x =>
        obtain ⟨k, v, i⟩ := x
        have hx' := hx
        simp only [selected] at hx'
        have ho := (selected_some _ _ _ _ _ _).1 hx
        simp only [hx', M.map, recover]
        cases hq : v.item site pre (keyString p.segs) p.span s1 with
        | mk r s2 =>
          cases r with
          | ok y =>
            simp only [Res.map, enumAdd, nextValue, ho.2.1, Option.any_some, ← ho.1]
            cases acc.val.key <;> rfl
          | err y =>
            simp only [Res.map, enumAdd, nextValue, ← ho.1]
            cases acc.val.key <;> rfl
          | panic =>
            have := (hg v ho.mem.1 ho.mem.2.1 pre (keyString p.segs) p.span s1).1
            rw [hq] at this
            exact absurd rfl this

/-! ## What the items leave behind -/

omit [Env] in
theorem named_mem {bs : List (EItem V)} {y} : y ∈ named bs ↔ .variant y.1 y.2.1 y.2.2.1 y.2.2.2 ∈ bs := by
  induction bs with
  | nil => simp [named]
  | cons b bs ih =>
    cases b with
    | variant i k sp x =>
      obtain ⟨i', k', sp', x'⟩ := y
      simp [named, ih]
    | other key sp => simp [named, ih]

/-- The state after the items. -/
def afterItems (e : EnumDef V) (pre : Str) (bs : List (EItem V)) : Acc (EnumSt V) :=
  bs.foldl (enumAdd e pre) ⟨⟨none, .none, []⟩, Errors.new⟩

omit [Env] in
theorem enumAdd_msgs (e : EnumDef V) (pre : Str) (bs : List (EItem V)) :
    ∀ acc : Acc (EnumSt V), (bs.foldl (enumAdd e pre) acc).errs.toList =
      acc.errs.toList ++ variantMsgs pre acc.val.key bs := by
  induction bs with
  | nil => intro acc; simp [variantMsgs]
  | cons b bs ih =>
    intro acc
    rw [List.foldl_cons, ih]
    cases b with
    | variant i k sp x =>
      cases hk : acc.val.key <;> cases x <;>
        simp [enumAdd, variantMsgs, hk, onlyOneVariant, SynErr.toList]
    | other key sp => simp [enumAdd, variantMsgs]

omit [Env] in
theorem enumAdd_key (e : EnumDef V) (pre : Str) (bs : List (EItem V)) :
    ∀ acc : Acc (EnumSt V), (bs.foldl (enumAdd e pre) acc).val.key =
      (acc.val.key <|> ((named bs).head?.map (·.2.1))) := by
  induction bs with
  | nil => intro acc; simp [named]
  | cons b bs ih =>
    intro acc
    rw [List.foldl_cons, ih]
    cases b with
    | variant i k sp x => cases hk : acc.val.key <;> simp [enumAdd, named, hk]
    | other key sp => simp [enumAdd, named]

omit [Env] in
theorem nextValue_ne_none (e : EnumDef V) (value : FieldStatus (EnumVal V)) (i : Nat) (x) :
    (nextValue e value i x).isNone = false := by
  cases x with
  | ok y => simp only [nextValue]; split <;> cases value <;> simp_all [FieldStatus.isNone, FieldStatus.isSome]
  | error y => cases value <;> simp [nextValue, FieldStatus.isNone]

omit [Env] in
theorem enumAdd_value_none (e : EnumDef V) (pre : Str) (bs : List (EItem V)) :
    ∀ acc : Acc (EnumSt V), named bs = [] → (bs.foldl (enumAdd e pre) acc).val.value = acc.val.value := by
  induction bs with
  | nil => intro acc _; rfl
  | cons b bs ih =>
    intro acc h
    rw [List.foldl_cons]
    cases b with
    | variant i k sp x => simp [named] at h
    | other key sp => rw [ih _ (by simpa [named] using h)]; rfl

omit [Env] in
theorem enumAdd_value_some (e : EnumDef V) (pre : Str) (bs : List (EItem V)) :
    ∀ acc : Acc (EnumSt V), (named bs ≠ [] ∨ acc.val.value.isNone = false) →
      (bs.foldl (enumAdd e pre) acc).val.value.isNone = false := by
  induction bs with
  | nil => intro acc h; simpa [named] using h
  | cons b bs ih =>
    intro acc h
    rw [List.foldl_cons]
    cases b with
    | variant i k sp x => exact ih _ (.inr (nextValue_ne_none _ _ _ _))
    | other key sp =>
      refine ih _ ?_
      rcases h with h | h
      · exact .inl (by simpa [named] using h)
      · exact .inr h

omit [Env] in
/-- One variant. -/
theorem enumAdd_value_one (e : EnumDef V) (pre : Str) (bs : List (EItem V)) {i k sp x} :
    ∀ acc : Acc (EnumSt V), named bs = [(i, k, sp, x)] → acc.val.value = .none →
      (bs.foldl (enumAdd e pre) acc).val.value =
        (match x with | .ok y => .some (i, y) | .error _ => .parseError) := by
  induction bs with
  | nil => intro acc h; simp [named] at h
  | cons b bs ih =>
    intro acc h hv
    rw [List.foldl_cons]
    cases b with
    | variant i' k' sp' x' =>
      simp only [named, List.cons.injEq, Prod.mk.injEq] at h
      obtain ⟨⟨rfl, rfl, rfl, rfl⟩, h2⟩ := h
      rw [enumAdd_value_none _ _ _ _ h2]
      cases x' <;> simp [enumAdd, nextValue, hv, FieldStatus.isSome, FieldStatus.isNone]
    | other key sp => exact ih _ (by simpa [named] using h) hv

omit [Env] in
theorem PathMap.get_insert (m : PathMap) (k k' : Str) (sp : Span) :
    (m.insert k sp).get k' = if k' = k then some sp else m.get k' := by
  simp only [PathMap.insert, PathMap.get, PathMap.get_remove]
  by_cases h : k' = k
  · subst h; simp
  · simp [h, Ne.symm h]

omit [Env] in
theorem nextPaths_get (e : EnumDef V) (hf : e.anyFlat = true) (pre : Str) (m : PathMap) (key : Str)
    (sp : Span) (k : Str) : (nextPaths e pre m key sp).get k =
      if key = pre ++ k then some sp else m.get k := by
  simp only [nextPaths]
  cases h : stripPrefix pre key with
  | none =>
    have : key ≠ pre ++ k := fun h' => by
      rw [(stripPrefix_iff _ _ _).2 h'] at h; cases h
    simp [this]
  | some k' =>
    have h' := (stripPrefix_iff _ _ _).1 h
    subst h'
    simp [hf, PathMap.get_insert, eq_comm]

omit [Env] in
theorem seenKeys_get (e : EnumDef V) (hf : e.anyFlat = true) (pre : Str) (bs : List (EItem V)) :
    ∀ (acc : Acc (EnumSt V)) (k : Str), (bs.foldl (enumAdd e pre) acc).val.paths.get k =
      (lastSpan (seenKeys pre bs) k <|> acc.val.paths.get k) := by
  have snoc : ∀ (x : Str × Span) (l : List (Str × Span)) k,
      lastSpan (x :: l) k = (lastSpan l k <|> if x.1 = k then some x.2 else none) := by
    intro x l k
    simp only [lastSpan, List.filter_cons]
    by_cases h : x.1 = k
    · simp only [h, decide_true, if_true]
      rw [List.getLast?_cons]
      cases (l.filter fun x => decide (x.1 = k)).getLast? <;> simp
    · simp [h]
  have key : ∀ (b : EItem V) bs k, lastSpan (seenKeys pre (b :: bs)) k =
      (lastSpan (seenKeys pre bs) k <|>
        match b with
        | .variant _ k' sp _ => if pre ++ k' = pre ++ k then some sp else none
        | .other key sp => if key = pre ++ k then some sp else none) := by
    intro b bs k
    cases b with
    | variant i k' sp x => simp [seenKeys, snoc]
    | other key sp =>
      simp only [seenKeys]
      by_cases hp : pre <+: key
      · obtain ⟨t, rfl⟩ := hp
        simp [snoc]
      · have : key ≠ pre ++ k := fun h => hp ⟨k, h.symm⟩
        simp [hp, this]
  induction bs with
  | nil => intro acc k; simp [seenKeys, lastSpan]
  | cons b bs ih =>
    intro acc k
    rw [List.foldl_cons, ih, key]
    cases b with
    | variant i k' sp x =>
      simp only [enumAdd, nextPaths_get e hf]
      cases lastSpan (seenKeys pre bs) k <;> split <;> simp
    | other key sp =>
      simp only [enumAdd, nextPaths_get e hf]
      cases lastSpan (seenKeys pre bs) k <;> split <;> simp

theorem enumLoop_reads (e : EnumDef V) (site : Site V) (hg : ByNameGood e site) (pre : Str)
    {l rs fatal l'} (h : ReadsAll (enumItem e site pre) l rs fatal l') :
    parseStruct (enumStep e site pre) (⟨⟨none, .none, []⟩, Errors.new⟩, l) =
      (stopped fatal, (afterItems e pre (rs.map (·.1)), l')) := by
  rw [parseStruct_eq, enumStep_eq e site hg]
  rw [(fold_iff (enumItem_good hg pre) (fun k b _ _ => enumAdd e pre k b)
    ⟨⟨none, .none, []⟩, Errors.new⟩ _ l l' _).2 ⟨rs, fatal, h, rfl, rfl⟩]
  simp [foldReads, afterItems, List.foldl_map]

/-! ## No panic -/

/-- What the derive ensures of the variants it accepts (macros/types/variant.rs:505-695,
macros/types/enum.rs:226-305): as for structures, a field that is not parsed has a default or is the
container; fields of tuple variants are not `append` or `rest`; a transparent variant has exactly one
field that is parsed, which is plain, and is not flattened (its code would not compile otherwise); a
flattened one has named fields. -/
structure Variant.Accepted (v : Variant V) (site : Site V) : Prop where
  filled : ∀ f ∈ v.fields, f.isParsable = false →
    f.default.isSome = true ∨ (f.isContainer = true ∧ site.obj.isSome = true)
  tuple : v.shape = .unnamed → NoAppendRest v.fields
  transparent : v.isTransparent = true → v.isFlatten = false ∧ v.fields.countP (·.isParsable) = 1 ∧
    ∀ f ∈ v.fields, f.isParsable = true → f.isFlat = false
  flatten : v.isFlatten = true → v.shape = .named

/-- The parsers of the fields that the derived code calls end without panic. -/
structure Variant.FieldsFine (v : Variant V) : Prop where
  item : ∀ f ∈ v.fields, f.item.Good
  flat : v.shape = .named → ∀ f ∈ v.fields, f.flatParsable = true → ∀ pre sp allowed,
    Good (f.flatCall pre sp allowed)
  flatUnnamed : v.shape = .unnamed → ∀ f ∈ v.fields, f.flatParsable = true → ∀ i,
    Good (f.flatUnnamed.parse .unnamed i)

/-- The transforms of the fields never fail. -/
def Variant.Infallible (v : Variant V) : Prop :=
  ∀ f ∈ v.fields, ∀ x, ∃ y, runTransforms f.transforms x = .ok y

omit [Env] in
theorem Variant.Accepted.data {v : Variant V} {site : Site V} (h : v.Accepted site) (sp : Span) :
    Deluxe.Accepted (v.data site sp) :=
  ⟨fun f hf hp => by
    rcases h.filled f hf hp with h | h
    · exact .inl h
    · exact .inr (.inr h), fun t ht => by simp [Variant.data] at ht⟩

theorem Variant.namedFlat_good {v : Variant V} {site : Site V} (ha : v.Accepted site)
    (hg : v.FieldsFine) (ht : v.isTransparent = false) (hs : v.shape = .named) (sp : Span)
    (allowed : List Str) (mode : Mode) (pre : Str) (validate : Bool) :
    Good (namedFlat (v.data site sp) allowed mode pre validate) :=
  Deluxe.namedFlat_good _ (ha.data sp) ht
    ⟨fun f hf _ n sp => (hg.item f hf).named n sp, fun f hf n sp => (hg.item f hf).missing n sp,
      hg.flat hs⟩ allowed mode pre validate

theorem Variant.inline_good {v : Variant V} {site : Site V} (ha : v.Accepted site)
    (hg : v.FieldsFine) (ht : v.isTransparent = false) (pre : Str) (sp : Span) (mode : Mode) :
    Good (v.inline site pre sp mode) := by
  unfold Variant.inline
  split
  · rename_i hs
    exact v.namedFlat_good ha hg ht hs sp _ mode pre _
  · rename_i hs
    exact unnamedFlat_good _ (ha.data sp) ht
      ⟨ha.tuple hs, fun f hf _ => (hg.item f hf).parse _, hg.flatUnnamed hs,
        fun f hf n sp => (hg.item f hf).missing n sp⟩ mode 0
  · exact fun l => ⟨by simp, AdvL.refl l⟩

theorem Variant.flag_ne_panic {v : Variant V} {site : Site V} (ha : v.Accepted site)
    (hg : v.FieldsFine) (ht : v.isTransparent = false) (pre : Str) (sp : Span) :
    v.flag site pre sp ≠ .panic := by
  unfold Variant.flag
  split
  · exact parseEmpty_ne_panic (single_good (v.inline_good ha hg ht pre sp _)) _
  · split
    · exact parseEmpty_ne_panic (single_good (v.inline_good ha hg ht pre sp _)) _
    · simp
  · simp

omit [Env] in
theorem parseNamedWith_good {α} {parse : Mode → M Stream α} {inline : Mode → M (List Stream) α}
    {flag : Span → Res α} (hp : ∀ m, Good (parse m)) (hi : ∀ m, Good (inline m))
    (hf : ∀ sp, flag sp ≠ .panic) (sp : Span) : Good (parseNamedWith parse inline flag sp) := by
  intro s
  unfold parseNamedWith
  split
  · have h := hp (.named sp) { s with toks := s.toks.tail }
    exact ⟨h.1, Adv.trans h.2 (.toks_of s (List.tail_suffix _))⟩
  · split
    · exact parseDelimitedWith_good _ (single_good (hi _)) s
    · exact ⟨hf sp, .refl s⟩

omit [Env] in
theorem Variant.transparentPost_ne_panic {v : Variant V} {site : Site V} (ha : v.Accepted site)
    (hn : v.Infallible) (ht : v.isTransparent = true) (sp : Span) {f : Field V} {k : Nat}
    (hf : v.fields[k]? = some f) (hp : f.isParsable = true) {r : Res V} (hr : r ≠ .panic) :
    v.transparentPost site sp k r ≠ .panic := by
  cases r with
  | panic => exact absurd rfl hr
  | err e => simp [Variant.transparentPost]
  | ok x =>
    simp only [Variant.transparentPost]
    obtain ⟨errs', h1, _⟩ := setPass_eq v.fields
      (List.zipWith (containerSet (v.data site sp)) v.fields ((v.data site sp).init.set k (.some x)))
      Errors.new
    rw [h1]
    simp only
    obtain ⟨vs, hvs⟩ := slots_all (sts := List.zipWith (fun f st => (setOut f st).1) v.fields
        (List.zipWith (containerSet (v.data site sp)) v.fields
          ((v.data site sp).init.set k (.some x))))
      (fun i st3 hs => by
        rw [List.getElem?_zipWith, List.getElem?_zipWith] at hs
        cases hg : v.fields[i]? with
        | none => simp [hg] at hs
        | some g =>
          cases hst : ((v.data site sp).init.set k (.some x))[i]? with
          | none => simp [hg, hst] at hs
          | some st =>
            simp only [hg, hst, Option.some.injEq] at hs
            rw [← hs]
            have hw : ∃ b, withDefault g (containerSet (v.data site sp) g st) = .some b := by
              have some_ok : ∀ b, ∃ c, withDefault g (.some b) = .some c := fun b => by
                rw [withDefault]; cases g.default <;> exact ⟨b, rfl⟩
              by_cases hik : i = k
              · subst hik
                have hlt := (List.getElem?_eq_some_iff.1 hst).1
                rw [List.getElem?_set_self (by simpa using hlt)] at hst
                rw [hf] at hg
                cases hg
                have hc := plain_not_container hp
                have : containerSet (v.data site sp) f st = .some x := by
                  simp only [Option.some.injEq] at hst
                  simp only [containerSet, hc, ← hst]
                  split <;> simp
                rw [this]
                exact some_ok x
              · rw [List.getElem?_set_ne (Ne.symm hik)] at hst
                have hno : g.isParsable = false := by
                  cases hq : g.isParsable with
                  | false => rfl
                  | true => exact absurd (countP_one_unique (ha.transparent ht).2.1 hg hq hf hp) hik
                have hst' : st = .none := by
                  simp only [Fields.init, List.getElem?_map, Variant.data, hg] at hst
                  simpa using hst.symm
                subst hst'
                rcases ha.filled g (List.mem_of_getElem? hg) hno with h | ⟨h, h'⟩
                · simp only [containerSet]
                  split
                  · split
                    · exact some_ok _
                    · obtain ⟨b, hb⟩ := Option.isSome_iff_exists.1 h
                      exact ⟨b, by rw [withDefault, hb]; rfl⟩
                  · obtain ⟨b, hb⟩ := Option.isSome_iff_exists.1 h
                    exact ⟨b, by rw [withDefault, hb]; rfl⟩
                · obtain ⟨o, ho⟩ := Option.isSome_iff_exists.1 h'
                  have : containerSet (v.data site sp) g .none = .some o := by
                    simp [containerSet, Variant.data, ho, h]
                  rw [this]
                  exact some_ok o
            obtain ⟨b, hb⟩ := hw
            obtain ⟨y, hy⟩ := hn g (List.mem_of_getElem? hg) b
            exact ⟨y, by rw [setOut, hb, transOut, hy]⟩)
    rw [hvs, unwrapAll_some]
    simp

theorem Variant.item_good {v : Variant V} {site : Site V} (ha : v.Accepted site) (hg : v.FieldsFine)
    (hn : v.isTransparent = true → v.Infallible) (pre p : Str) (sp : Span) :
    Good (v.item site pre p sp) := by
  unfold Variant.item
  split
  · rename_i ht
    split
    · rename_i f k hfind
      obtain ⟨hp, hmem⟩ := And.intro (List.find?_some hfind) (List.mem_of_find?_eq_some hfind)
      have hf : v.fields[k]? = some f := by
        have := List.mem_zipIdx_iff_getElem?.1 hmem
        simpa using this
      have hp' : f.isParsable = true := by simp at hp; exact hp.1
      exact mapRes_good ((hg.item f (List.mem_of_getElem? hf)).named p sp)
        fun r hr => v.transparentPost_ne_panic ha (hn ht) ht sp hf hp' hr
    · rename_i hfind
      exfalso
      rw [List.find?_eq_none] at hfind
      obtain ⟨_, h1, h2⟩ := ha.transparent ht
      have : 0 < v.fields.countP (·.isParsable) := by omega
      obtain ⟨f, hf, hp⟩ := List.countP_pos_iff.1 this
      obtain ⟨k, hk⟩ := List.mem_iff_getElem?.1 hf
      refine hfind (f, k) (List.mem_zipIdx_iff_getElem?.2 hk) ?_
      simp [hp, h2 f hf hp]
  · rename_i ht
    have ht' : v.isTransparent = false := by simpa using ht
    exact parseNamedWith_good
      (fun m => parseDelimitedWith_good _ (single_good (v.inline_good ha hg ht' pre sp m)))
      (v.inline_good ha hg ht' pre sp) (fun _ => v.flag_ne_panic ha hg ht' pre sp) sp

/-- The item reader of the pass that only checks keys. -/
def keyItem : M Stream (Str × Span) := keyed fun key sp s => (.ok (key, sp), skipMetaItem s)

theorem keyItem_good : Good keyItem :=
  keyed_good fun _ _ s => ⟨by simp, skipMetaItem_adv s⟩

theorem checkStep_eq (allowed : List Str) :
    keyStep (checkStep allowed) = foldStep keyItem (fun k b _ _ =>
      ⟨(), (checkUnknownAttribute b.1 b.2 allowed k.errs).1⟩) := by
  funext st
  obtain ⟨acc, s⟩ := st
  rw [keyStep_eq]
  simp only [foldStep, keyItem, keyed]
  cases hp : parseAnyPath s with
  | mk r s1 => cases r <;> rfl

theorem checkKeys_reads (allowed : List Str) (errs : Errors) {l rs fatal l'}
    (h : ReadsAll keyItem l rs fatal l') :
    ∃ errs', checkKeys allowed errs l = (.ok errs', l') ∧
      errs'.toList = errs.toList ++ checkMsgs true allowed (rs.map (·.1)) := by
  have hp := (fold_iff keyItem_good (fun (k : Acc Unit) b _ _ =>
      ⟨(), (checkUnknownAttribute b.1 b.2 allowed k.errs).1⟩) ⟨(), errs⟩ _ l l' _).2
    ⟨rs, fatal, h, rfl, rfl⟩
  rw [← checkStep_eq, ← parseStruct_eq] at hp
  refine ⟨(foldReads (fun (k : Acc Unit) b _ _ =>
      ⟨(), (checkUnknownAttribute b.1 b.2 allowed k.errs).1⟩) ⟨(), errs⟩ rs).errs, ?_, ?_⟩
  · simp only [checkKeys]
    rw [hp]
    cases fatal <;> simp [stopped]
  · clear hp h
    induction rs generalizing errs with
    | nil => simp [foldReads, checkMsgs]
    | cons r rs ih =>
      simp only [foldReads, List.foldl_cons] at ih ⊢
      rw [ih]
      have : (checkUnknownAttribute r.1.1 r.1.2 allowed errs).1.toList =
          errs.toList ++ unknownMsgs true allowed r.1.1 r.1.2 := by
        simp only [checkUnknownAttribute, unknownMsgs]
        split <;> simp_all
      simp [this, checkMsgs]

theorem checkKeys_good (allowed : List Str) (errs : Errors) (l : List Stream) :
    ∃ errs' l', checkKeys allowed errs l = (.ok errs', l') ∧ AdvL l' l ∧
      (errs.toList ≠ [] → errs'.toList ≠ []) := by
  obtain ⟨rs, fatal, l', h⟩ := ReadsAll.exists keyItem_good l
  obtain ⟨errs', h1, h2⟩ := checkKeys_reads allowed errs h
  exact ⟨errs', l', h1, h.adv keyItem_good, fun he => by rw [h2]; simp [he]⟩

theorem validatePass_good (e : EnumDef V) (validate : Bool) (errs : Errors) (l : List Stream) :
    ∃ errs' l', validatePass e validate errs l = (.ok errs', l') ∧ AdvL l' l ∧
      (errs.toList ≠ [] → errs'.toList ≠ []) := by
  unfold validatePass
  split
  · exact checkKeys_good _ _ _
  · exact ⟨errs, l, rfl, AdvL.refl l, id⟩

omit [Env] in
/-- A failed value comes with a message. -/
theorem enumAdd_reported (e : EnumDef V) (pre : Str) (bs : List (EItem V)) :
    ∀ acc : Acc (EnumSt V), (acc.val.value = .parseError → acc.errs.toList ≠ []) →
      (bs.foldl (enumAdd e pre) acc).val.value = .parseError →
        (bs.foldl (enumAdd e pre) acc).errs.toList ≠ [] := by
  induction bs with
  | nil => intro acc h; exact h
  | cons b bs ih =>
    intro acc h
    rw [List.foldl_cons]
    refine ih _ ?_
    cases b with
    | variant i k sp x =>
      cases x with
      | error y => intro _; simp [enumAdd, SynErr.toList]
      | ok y =>
        intro hv
        simp only [enumAdd, nextValue] at hv
        split at hv
        · have := h hv
          cases hk : acc.val.key <;> simp [enumAdd, hk, this, onlyOneVariant]
        · cases hv
    | other key sp => exact h

omit [Env] in
theorem afterItems_some {e : EnumDef V} {pre : Str} {bs : List (EItem V)}
    (h : (afterItems e pre bs).val.value.isNone = false) : (afterItems e pre bs).val.key.isSome = true := by
  have hn : named bs ≠ [] := fun hn => by
    rw [afterItems, enumAdd_value_none _ _ _ _ hn] at h
    simp [FieldStatus.isNone] at h
  rw [afterItems, enumAdd_key]
  cases hb : named bs with
  | nil => exact absurd hb hn
  | cons y ys => simp

/-- What the derive ensures of the enums it accepts, for the variants that are not skipped. -/
def EnumDef.Accepted (e : EnumDef V) (site : Site V) : Prop :=
  ∀ v ∈ e.variants, v.isSkipped = false → v.Accepted site

/-- The parsers that the derived code calls end without panic. -/
def EnumDef.FieldsFine (e : EnumDef V) : Prop :=
  ∀ v ∈ e.variants, v.isSkipped = false → v.FieldsFine

/-- The transforms of the fields of transparent variants never fail. -/
def EnumDef.Infallible (e : EnumDef V) : Prop :=
  ∀ v ∈ e.variants, v.isSkipped = false → v.isTransparent = true → v.Infallible

theorem EnumDef.byNameGood {e : EnumDef V} {site : Site V} (ha : e.Accepted site) (hg : e.FieldsFine)
    (hn : e.Infallible) : ByNameGood e site := fun v hv hb pre p sp =>
  v.item_good (ha v hv hb.2) (hg v hv hb.2) (hn v hv hb.2) pre p sp

/-- Nothing is picked without a message. -/
def PickedFine (x : Picked V × List Stream) (l : List Stream) : Prop :=
  x.1 ≠ .panic ∧ AdvL x.2 l ∧
    ∀ value errs, x.1 = .ok (value, errs) → value.intoOption = none → errs.toList ≠ []

omit [Env] in
theorem disallow_msgs (paths : PathMap) (keys : List (Str × List Str)) (cur : Str) (errs : Errors) :
    ∃ ms, (disallowPaths paths keys cur errs).toList = errs.toList ++ ms :=
  ⟨_, c59_disallow_paths paths keys cur errs⟩

theorem emptyCheck_ne_panic (e : EnumDef V) (v : Variant V) (pre : Str) (span : Span) (errs : Errors)
    (l : List Stream) : emptyCheck e v pre span errs l ≠ .panic := by
  have bail : ∀ (errs : Errors), errs.toList ≠ [] → ∀ {α}, (errs.bail : Res α) ≠ .panic := by
    intro errs h α
    rcases errs with ⟨_ | e⟩
    · simp [Errors.toList] at h
    · simp [Errors.bail, Errors.unwrapErr]
  unfold emptyCheck
  split
  · rename_i h
    refine bail _ ?_
    intro h'
    rcases errs with ⟨_ | e⟩
    · simp [Errors.isEmpty] at h
    · simp [Errors.toList, SynErr.toList] at h'
  · obtain ⟨errs', l', h1, _, _⟩ := checkKeys_good (Field.fieldNames v.fields) errs (forkInputs l)
    rw [h1]
    simp only
    split
    · simp
    · exact bail _ (by simp [variantRequired])

theorem flatBlock_good {e : EnumDef V} {site : Site V} {v : Variant V} (ha : v.Accepted site)
    (hg : v.FieldsFine) (hf : v.isFlatten = true) (pre : Str) (span : Span) (paths : PathMap) (i : Nat)
    (empty : Bool) (errs : Errors) (l : List Stream) :
    PickedFine (flatBlock e site pre span paths v i empty errs l) l := by
  have ht : v.isTransparent = false := by
    cases h : v.isTransparent with
    | false => rfl
    | true => rw [(ha.transparent h).1] at hf; cases hf
  have hs := ha.flatten hf
  simp only [flatBlock]
  split
  · rename_i errs' _
    have h := v.namedFlat_good ha hg ht hs span (Field.fieldNames v.fields) (.named span) pre
      (!v.acceptsAll && !(empty && !v.allowUnknown.getD false)) l
    split
    · rename_i x hx
      refine ⟨by simp, h.2, fun value errs h1 h2 => ?_⟩
      simp only [Res.ok.injEq, Prod.mk.injEq] at h1
      rw [← h1.1] at h2
      simp [FieldStatus.intoOption] at h2
    · rename_i x hx
      refine ⟨by simp, h.2, fun value errs h1 h2 => ?_⟩
      simp only [Res.ok.injEq, Prod.mk.injEq] at h1
      rw [← h1.2]
      split
      · simp [SynErr.toList]
      · obtain ⟨ms, hms⟩ := disallow_msgs (removePaths paths v.flatNames) (otherFlatNames e (some i)) v.ident (errs'.pushSyn x)
        rw [hms]; simp [SynErr.toList]
    · rename_i hx
      exact absurd hx h.1
  · refine ⟨by simp, AdvL.refl l, by simp⟩
  · rename_i h
    split at h
    · exact absurd h (emptyCheck_ne_panic _ _ _ _ _ _)
    · cases h

theorem pickFlat_good {e : EnumDef V} {site : Site V} (ha : e.Accepted site) (hg : e.FieldsFine)
    (pre : Str) (span : Span) (validate : Bool) (paths : PathMap) (errs : Errors) (l : List Stream) :
    PickedFine (pickFlat e site pre span validate paths errs l) l := by
  unfold pickFlat
  split
  · rename_i h
    obtain ⟨_, h2, h3⟩ := find_flatMatches (p := fun k => !k.isEmpty && hasPaths paths k) h
    have hm := List.mem_of_getElem? h2
    exact flatBlock_good (ha _ hm h3.2) (hg _ hm h3.2) h3.1 _ _ _ _ _ _ _
  · split
    · rename_i h
      obtain ⟨_, h2, h3⟩ := find_flatMatches (p := fun k => k.isEmpty) h
      have hm := List.mem_of_getElem? h2
      exact flatBlock_good (ha _ hm h3.2) (hg _ hm h3.2) h3.1 _ _ _ _ _ _ _
    · split
      · refine ⟨by simp, AdvL.refl l, fun value errs h1 h2 => ?_⟩
        simp only [Res.ok.injEq, Prod.mk.injEq] at h1
        rw [← h1.1] at h2
        simp [FieldStatus.intoOption] at h2
      · obtain ⟨errs', l', h1, h2, _⟩ := validatePass_good e validate errs l
        rw [h1]
        refine ⟨by simp, h2, fun value errs h3 _ => ?_⟩
        simp only [Res.ok.injEq, Prod.mk.injEq] at h3
        rw [← h3.2]
        simp [variantRequired]

theorem pick_good {e : EnumDef V} {site : Site V} (ha : e.Accepted site) (hg : e.FieldsFine)
    (pre : Str) (span : Span) (validate : Bool) (st : EnumSt V) (errs : Errors) (l : List Stream)
    (h1 : st.value.isNone = false → st.key.isSome = true)
    (h2 : st.value = .parseError → errs.toList ≠ []) :
    PickedFine (pick e site pre span validate st errs l) l := by
  unfold pick
  split
  · rename_i x hx
    split
    · rename_i hk
      have := h1 (by rw [hx]; rfl)
      simp [hk] at this
    · simp only
      obtain ⟨errs', l', h3, h4, _⟩ := validatePass_good e validate
        (if e.anyFlat && !e.unknownOk && !validate then
          disallowPaths (st.paths.remove ‹Str›) (otherFlatNames e none) ‹Str› errs
        else errs) l
      rw [h3]
      refine ⟨by simp, h4, fun value errs h5 h6 => ?_⟩
      simp only [Res.ok.injEq, Prod.mk.injEq] at h5
      rw [← h5.1] at h6
      simp [FieldStatus.intoOption] at h6
  · rename_i hx
    refine ⟨by simp, AdvL.refl l, fun value errs h5 _ => ?_⟩
    simp only [Res.ok.injEq, Prod.mk.injEq] at h5
    rw [← h5.2]
    exact h2 hx
  · exact pickFlat_good ha hg _ _ _ _ _ _

omit [Env] in
theorem enumAndThens_none (fs : List (EnumVal V → Except SynErr (EnumVal V))) (x : Option (EnumVal V))
    (errs : Errors) (h : x = none → errs.toList ≠ []) :
    (enumAndThens fs x errs).1 = none → (enumAndThens fs x errs).2.toList ≠ [] := by
  unfold enumAndThens
  induction fs generalizing x errs with
  | nil => exact h
  | cons f fs ih =>
    rw [List.foldl_cons]
    cases x with
    | none => exact ih none errs h
    | some v =>
      simp only
      cases f v with
      | ok v' => exact ih _ _ (by simp)
      | error err => exact ih _ _ (by simp [SynErr.toList])

theorem enumFlat_good {e : EnumDef V} {site : Site V} (ha : e.Accepted site) (hg : e.FieldsFine)
    (hn : e.Infallible) (mode : Mode) (pre : Str) (validate : Bool) :
    Good (enumFlat e site mode pre validate) := by
  intro l
  have hb := e.byNameGood ha hg hn
  obtain ⟨rs, fatal, l1, h⟩ := ReadsAll.exists (enumItem_good hb pre)
    (if e.anyFlat || !e.unknownOk then forkInputs l else l)
  have hl : AdvL (if e.anyFlat || !e.unknownOk then l else l1) l := by
    split
    · exact AdvL.refl l
    · rename_i hf
      have := h.adv (enumItem_good hb pre)
      simpa [hf] using this
  simp only [enumFlat]
  rw [enumLoop_reads e site hb pre h]
  generalize hbs : rs.map (·.1) = bs
  have hk : (afterItems e pre bs).val.value.isNone = false → (afterItems e pre bs).val.key.isSome = true :=
    afterItems_some
  have hr : (afterItems e pre bs).val.value = .parseError → (afterItems e pre bs).errs.toList ≠ [] :=
    enumAdd_reported e pre bs _ (by simp)
  have fin : ∀ errs : Errors, ((afterItems e pre bs).errs.toList ≠ [] → errs.toList ≠ []) →
      let x := (match pick e site pre (mode.toFullSpan l) validate (afterItems e pre bs).val errs
          (if e.anyFlat || !e.unknownOk then l else l1) with
        | (.ok (value, errs), l2) =>
          let (value, errs) := enumAndThens e.andThens value.intoOption errs
          (match errs.check with
            | .ok () =>
              match value with
              | some x => .ok x
              | none => .panic
            | .err x => .err x
            | .panic => .panic, skipAll l2)
        | (.err x, l2) => (.err x, l2)
        | (.panic, l2) => (.panic, l2) : Res (EnumVal V) × List Stream)
      x.1 ≠ .panic ∧ AdvL x.2 l := by
    intro errs he
    obtain ⟨p1, p2, p3⟩ := pick_good ha hg pre (mode.toFullSpan l) validate (afterItems e pre bs).val
      errs (if e.anyFlat || !e.unknownOk then l else l1) hk (fun hv => he (hr hv))
    generalize pick e site pre (mode.toFullSpan l) validate (afterItems e pre bs).val errs
          (if e.anyFlat || !e.unknownOk then l else l1) = x at p1 p2 p3 ⊢
    obtain ⟨r, l2⟩ := x
    cases r with
    | panic => exact absurd rfl p1
    | err y => exact ⟨by simp, p2.trans hl⟩
    | ok y =>
      obtain ⟨value, errs⟩ := y
      have h3 := enumAndThens_none e.andThens value.intoOption errs (p3 value errs rfl)
      simp only
      generalize enumAndThens e.andThens value.intoOption errs = z at h3
      obtain ⟨value', errs'⟩ := z
      refine ⟨?_, (skipAll_adv l2).trans (p2.trans hl)⟩
      simp only
      cases value' with
      | some v => cases hc : errs'.check <;> simp; rcases errs' with ⟨_ | e⟩ <;> simp [Errors.check, Errors.intoResult] at hc
      | none =>
        have := h3 rfl
        rcases errs' with ⟨_ | e⟩
        · simp [Errors.toList] at this
        · simp [Errors.check, Errors.intoResult]
  cases fatal with
  | none => exact fin _ id
  | some x => exact fin ((afterItems e pre bs).errs.pushSyn x) (fun _ => by simp [SynErr.toList])

theorem EnumDef.flatNamed_good {e : EnumDef V} (ha : e.Accepted .meta) (hg : e.FieldsFine)
    (hn : e.Infallible) : e.flatNamed.Good := fun mode pre validate =>
  enumFlat_good ha hg hn mode pre validate

theorem EnumDef.flatUnnamed_good {e : EnumDef V} (ha : e.Accepted .meta) (hg : e.FieldsFine)
    (hn : e.Infallible) : e.flatUnnamed.Good := fun mode _ =>
  enumFlat_good ha hg hn mode [] true

theorem EnumDef.dict_good {e : EnumDef V} (ha : e.Accepted .meta) (hg : e.FieldsFine)
    (hn : e.Infallible) : e.dict.Good := by
  have hi := fun mode => enumFlat_good ha hg hn mode [] (!e.flatNamed.acceptsAll)
  refine Dict.mk'_good (fun m s => ?_) hi
    (fun sp => parseEmpty_ne_panic (single_good (hi _)) _) (fun n sp => ?_)
  · exact parseDelimitedWith_good .brace (single_good (hi (m.toNamed s))) s
  · split <;> simp

end

end Deluxe
