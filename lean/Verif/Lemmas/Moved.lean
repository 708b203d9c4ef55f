import Verif.Spec.Listed
import Verif.Props.Reorder
import Verif.Props.SkipVariants
/-!
# The variants of an enum in another order
-/
namespace Deluxe

/-! ## Messages up to their order -/

section
variable {α : Type} {R : α → α → Prop}

theorem PermBy.refl (h : ∀ a, R a a) : ∀ l : List α, PermBy R l l
  | [] => .nil
  | a :: l => .cons (h a) (PermBy.refl h l)

theorem PermBy.append_right {l l' : List α} (hr : ∀ a, R a a) (h : PermBy R l l') (m : List α) :
    PermBy R (l ++ m) (l' ++ m) := by
  induction h with
  | nil => exact .refl hr m
  | cons hab _ ih => exact .cons hab ih
  | swap a b l => exact .swap a b (l ++ m)
  | trans _ _ ih1 ih2 => exact ih1.trans ih2

theorem PermBy.append_left {m m' : List α} (hr : ∀ a, R a a) (h : PermBy R m m') :
    ∀ l : List α, PermBy R (l ++ m) (l ++ m')
  | [] => h
  | a :: l => .cons (hr a) (PermBy.append_left hr h l)

theorem PermBy.append {l l' m m' : List α} (hr : ∀ a, R a a) (h1 : PermBy R l l') (h2 : PermBy R m m') :
    PermBy R (l ++ m) (l' ++ m') :=
  (h1.append_right hr m).trans (h2.append_left hr l')

theorem PermBy.of_perm {l l' : List α} (hr : ∀ a, R a a) (h : l.Perm l') : PermBy R l l' := by
  induction h with
  | nil => exact .nil
  | cons a _ ih => exact .cons (hr a) ih
  | swap a b l => exact .swap b a l
  | trans _ _ ih1 ih2 => exact ih1.trans ih2

theorem PermBy.length {l l' : List α} (h : PermBy R l l') : l.length = l'.length := by
  induction h with
  | nil => rfl
  | cons _ _ ih => simp [ih]
  | swap => rfl
  | trans _ _ ih1 ih2 => exact ih1.trans ih2

end

theorem Msg.SameUpToLists.refl (m : Msg) : m.SameUpToLists m := ⟨rfl, .same _⟩

/-- The same messages so far, in some order. -/
def Errors.SameMsgs (e e' : Errors) : Prop := PermBy Msg.SameUpToLists e.toList e'.toList

theorem Errors.SameMsgs.refl (e : Errors) : e.SameMsgs e := PermBy.refl .refl _

theorem Errors.SameMsgs.pushSyn {e e' : Errors} {x x' : SynErr} (h : e.SameMsgs e') (hx : x.SameMsgs x') :
    (e.pushSyn x).SameMsgs (e'.pushSyn x') := by
  unfold Errors.SameMsgs
  rw [Errors.toList_pushSyn, Errors.toList_pushSyn]
  exact PermBy.append .refl h hx

theorem SynErr.SameMsgs.new (sp : Span) {t t' : Text} (h : t.SameUpToLists t') :
    (SynErr.new sp t).SameMsgs (SynErr.new sp t') := .cons ⟨rfl, h⟩ .nil

theorem SynErr.SameMsgs.refl (e : SynErr) : e.SameMsgs e := PermBy.refl .refl _

theorem Errors.SameMsgs.isEmpty {e e' : Errors} (h : e.SameMsgs e') : e.isEmpty = e'.isEmpty := by
  have hl := PermBy.length h
  unfold Errors.toList at hl
  unfold Errors.isEmpty
  cases h1 : e.inner <;> cases h2 : e'.inner <;> simp [h1, h2, SynErr.toList] at hl ⊢

theorem Errors.SameMsgs.inner {e e' : Errors} (h : e.SameMsgs e') :
    (e.inner = none ∧ e'.inner = none) ∨ ∃ x x', e.inner = some x ∧ e'.inner = some x' ∧ x.SameMsgs x' := by
  have hi := h.isEmpty
  unfold Errors.isEmpty at hi
  unfold Errors.SameMsgs Errors.toList at h
  cases h1 : e.inner with
  | none =>
    cases h2 : e'.inner with
    | none => exact .inl ⟨rfl, rfl⟩
    | some x => rw [h1, h2] at hi; cases hi
  | some x =>
    cases h2 : e'.inner with
    | none => rw [h1, h2] at hi; cases hi
    | some x' =>
      rw [h1, h2] at h
      exact .inr ⟨x, x', rfl, rfl, h⟩

theorem Errors.SameMsgs.bail {α β : Type} {R : α → β → Prop} {e e' : Errors} (h : e.SameMsgs e') :
    Res.RelMsgs R (e.bail : Res α) (e'.bail : Res β) := by
  unfold Errors.bail Errors.unwrapErr
  rcases h.inner with ⟨h1, h2⟩ | ⟨x, x', h1, h2, h3⟩
  · rw [h1, h2]; exact .panic
  · rw [h1, h2]; exact .err h3

theorem Errors.SameMsgs.check {e e' : Errors} (h : e.SameMsgs e') : Res.RelMsgs Eq e.check e'.check := by
  unfold Errors.check Errors.intoResult
  rcases h.inner with ⟨h1, h2⟩ | ⟨x, x', h1, h2, h3⟩
  · rw [h1, h2]; exact .ok rfl
  · rw [h1, h2]; exact .err h3

theorem Res.RelMsgs.rel {α β : Type} {R : α → β → Prop} {r : Res α} {r' : Res β} (h : Res.RelMsgs R r r') :
    Res.Rel R r r' := by
  cases h with
  | ok h => exact .ok h
  | err _ => exact .err
  | panic => exact .panic

/-- The messages of `disallowPaths`. -/
def disallowMsgs (paths : PathMap) (cur : Str) (pk : Str × List Str) : List Msg :=
  pk.2.flatMap fun path =>
    match paths.get (joinPath pk.1 path) with
    | some span => [⟨span, .notAllowedWith (joinPath pk.1 path) cur⟩]
    | none => []

theorem disallowPaths_toList (paths : PathMap) (keys : List (Str × List Str)) (cur : Str) (e : Errors) :
    (disallowPaths paths keys cur e).toList = e.toList ++ keys.flatMap (disallowMsgs paths cur) := by
  have inner : ∀ (pre : Str) (ks : List Str) (e : Errors),
      (ks.foldl (fun errs path =>
        match paths.get (joinPath pre path) with
        | some span => errs.push span (.notAllowedWith (joinPath pre path) cur)
        | none => errs) e).toList = e.toList ++ disallowMsgs paths cur (pre, ks) := by
    intro pre ks
    induction ks with
    | nil => intro e; simp [disallowMsgs]
    | cons k ks ih =>
      intro e
      rw [List.foldl_cons, ih]
      simp only [disallowMsgs, List.flatMap_cons]
      cases paths.get (joinPath pre k) with
      | none => simp
      | some sp => simp
  unfold disallowPaths
  induction keys generalizing e with
  | nil => simp
  | cons k ks ih =>
    rw [List.foldl_cons, ih, List.flatMap_cons, ← List.append_assoc]
    exact congrArg (· ++ _) (inner k.1 k.2 e)

theorem disallowPaths_same (paths : PathMap) {keys keys' : List (Str × List Str)} (hk : keys.Perm keys') (cur : Str)
    {e e' : Errors} (h : e.SameMsgs e') : (disallowPaths paths keys cur e).SameMsgs (disallowPaths paths keys' cur e') := by
  unfold Errors.SameMsgs
  rw [disallowPaths_toList, disallowPaths_toList]
  exact PermBy.append .refl h (.of_perm .refl (hk.flatMap_right _))

section
variable [Env]

theorem checkKeys_same {allowed allowed' : List Str} (ha : ∀ n, n ∈ allowed ↔ n ∈ allowed') {e e' : Errors}
    (h : e.SameMsgs e') (l : List Stream) :
    Res.RelMsgs Errors.SameMsgs (checkKeys allowed e l).1 (checkKeys allowed' e' l).1 ∧
      (checkKeys allowed e l).2 = (checkKeys allowed' e' l).2 := by
  have := parseStruct_rel (R := fun (x y : Acc Unit) => x.errs.SameMsgs y.errs) (func := checkStep allowed)
    (func' := checkStep allowed')
    (fun p sp k k' s hk => ⟨.ok rfl, by
      have hc : allowed.contains p = allowed'.contains p := by
        rw [Bool.eq_iff_iff, List.contains_iff_mem, List.contains_iff_mem]
        exact ha p
      simp only [checkStep, checkUnknownAttribute, hc]
      split
      · exact hk
      · exact hk.pushSyn (.new sp (.unknown _ _ _)), rfl⟩) l ⟨(), e⟩ ⟨(), e'⟩ h
  unfold checkKeys
  generalize parseStruct (checkStep allowed) (⟨(), e⟩, l) = a at this ⊢
  generalize parseStruct (checkStep allowed') (⟨(), e'⟩, l) = b at this ⊢
  obtain ⟨a, ka, sa⟩ := a
  obtain ⟨b, kb, sb⟩ := b
  obtain ⟨hab, hr, hl⟩ := this
  simp only at hab hl hr
  subst hl
  cases hab with
  | err => exact ⟨.ok hr, rfl⟩
  | panic => exact ⟨.panic, rfl⟩
  | ok => exact ⟨.ok hr, rfl⟩

end

/-! ## Sorted lists -/

theorem sorted_unique {α κ : Type} {cmp : κ → κ → Ordering} (hc : LawfulCmp cmp) (key : α → κ) :
    ∀ {l l' : List α}, (l.Pairwise fun x y => cmp (key x) (key y) = .lt) →
      (l'.Pairwise fun x y => cmp (key x) (key y) = .lt) → (∀ x, x ∈ l ↔ x ∈ l') → l = l' := by
  intro l
  induction l with
  | nil =>
    intro l' _ _ h
    cases l' with
    | nil => rfl
    | cons b l' => exact absurd ((h b).2 (by simp)) (by simp)
  | cons a l ih =>
    intro l' h1 h2 h
    cases l' with
    | nil => exact absurd ((h a).1 (by simp)) (by simp)
    | cons b l' =>
      rw [List.pairwise_cons] at h1 h2
      have irr : ∀ k, cmp k k ≠ .lt := fun k hk => by
        have := (hc.swap k k).2 hk
        rw [hk] at this
        cases this
      have hab : a = b := by
        rcases List.mem_cons.1 ((h a).1 (by simp)) with h3 | h3
        · exact h3
        · rcases List.mem_cons.1 ((h b).2 (by simp)) with h4 | h4
          · exact h4.symm
          · have h5 := h2.1 a h3
            have h6 := h1.1 b h4
            rw [← hc.swap, h6] at h5
            cases h5
      subst hab
      congr 1
      refine ih h1.2 h2.2 fun x => ⟨fun hx => ?_, fun hx => ?_⟩
      · rcases List.mem_cons.1 ((h x).1 (by simp [hx])) with h3 | h3
        · subst h3; exact absurd (h1.1 x hx) (irr _)
        · exact h3
      · rcases List.mem_cons.1 ((h x).2 (by simp [hx])) with h3 | h3
        · subst h3; exact absurd (h2.1 x hx) (irr _)
        · exact h3

/-! ## The variants -/

section
variable {V : Type}

namespace VariantsMoved
variable {e e' : EnumDef V} {idx : List Nat} {up : EnumVal V → EnumVal V}

theorem lt (h : VariantsMoved e e' idx up) : ∀ i ∈ idx, i < e.variants.length := fun i hi => by
  simpa using h.perm.mem_iff.1 hi

theorem get (h : VariantsMoved e e' idx up) (j : Nat) : e'.variants[j]? = idx[j]?.bind (e.variants[·]?) := by
  rw [h.variants, select_get h.lt]

theorem vperm (h : VariantsMoved e e' idx up) : e'.variants.Perm e.variants := by
  rw [h.variants]; exact select_perm h.perm

/-- The position of a variant of `e'` in `e`. -/
def at_ (_ : VariantsMoved e e' idx up) (j : Nat) : Nat := idx.getD j 0

theorem at_eq (h : VariantsMoved e e' idx up) {j : Nat} {v : Variant V} (hj : e'.variants[j]? = some v) :
    idx[j]? = some (h.at_ j) ∧ e.variants[h.at_ j]? = some v := by
  rw [h.get] at hj
  obtain ⟨i, hi, hv⟩ := Option.bind_eq_some_iff.1 hj
  have : h.at_ j = i := getD_of_some hi
  rw [this]
  exact ⟨hi, hv⟩

theorem up_eq (h : VariantsMoved e e' idx up) {j : Nat} {v : Variant V} (hj : e'.variants[j]? = some v) (xs : List V) :
    up (j, xs) = (h.at_ j, xs) := h.pos _ _ _ (h.at_eq hj).1

theorem nodup (h : VariantsMoved e e' idx up) : idx.Nodup := h.perm.nodup_iff.2 List.nodup_range

theorem at_inj (h : VariantsMoved e e' idx up) {j k : Nat} {v w : Variant V} (hj : e'.variants[j]? = some v)
    (hk : e'.variants[k]? = some w) (hjk : h.at_ j = h.at_ k) : j = k := by
  have h1 := (h.at_eq hj).1
  have h2 := (h.at_eq hk).1
  rw [← hjk] at h2
  exact nodup_get h.nodup h1 h2

theorem onto (h : VariantsMoved e e' idx up) {i : Nat} {v : Variant V} (hi : e.variants[i]? = some v) :
    ∃ j, e'.variants[j]? = some v ∧ h.at_ j = i := by
  have : i ∈ idx := h.perm.mem_iff.2 (by simpa using (List.getElem?_eq_some_iff.1 hi).1)
  obtain ⟨j, hj⟩ := List.mem_iff_getElem?.1 this
  exact ⟨j, by rw [h.get, hj]; exact hi, getD_of_some hj⟩

theorem unknownOk (h : VariantsMoved e e' idx up) : e'.unknownOk = e.unknownOk := by
  simp only [EnumDef.unknownOk, h.allowUnknown]

theorem anyFlat (h : VariantsMoved e e' idx up) : e'.anyFlat = e.anyFlat := any_perm h.vperm _

theorem acceptsAll (h : VariantsMoved e e' idx up) : e'.acceptsAll = e.acceptsAll := by
  simp only [EnumDef.acceptsAll, h.unknownOk, any_perm h.vperm]

theorem fieldNames (h : VariantsMoved e e' idx up) : e'.fieldNames.Perm e.fieldNames := h.vperm.flatMap_right _

theorem keyMsgs (h : VariantsMoved e e' idx up) : e.keyMsgs.Perm e'.keyMsgs :=
  ((h.vperm.filter _).map _).symm

theorem names' (h : VariantsMoved e e' idx up) : ∀ (i j : Nat) v w k, e'.variants[i]? = some v →
    e'.variants[j]? = some w → v.ByName → w.ByName → k ∈ v.idents → k ∈ w.idents → i = j :=
  fun _ _ _ _ k hi hj hv hw hkv hkw =>
    h.at_inj hi hj (h.names _ _ _ _ k (h.at_eq hi).2 (h.at_eq hj).2 hv hw hkv hkw)

theorem keys' (h : VariantsMoved e e' idx up) : e'.DistinctKeys :=
  fun _ _ _ _ hi hj hv hw hs => h.at_inj hi hj (h.keys _ _ _ _ (h.at_eq hi).2 (h.at_eq hj).2 hv hw hs)

theorem findVariant (h : VariantsMoved e e' idx up) (k : Str) :
    Deluxe.findVariant e.variants k = (Deluxe.findVariant e'.variants k).map fun x => (x.1, h.at_ x.2) := by
  cases hc : Deluxe.findVariant e'.variants k with
  | some x =>
    obtain ⟨v, j⟩ := x
    obtain ⟨h1, h2, h3, -⟩ := (findVariant_some _ _ _ _).1 hc
    refine (findVariant_some _ _ _ _).2 ⟨(h.at_eq h1).2, h2, h3, fun i w hi hw hbn hk => ?_⟩
    have := h.names _ _ _ _ k hw (h.at_eq h1).2 hbn h2 hk h3
    dsimp only at hi
    omega
  | none =>
    cases hd : Deluxe.findVariant e.variants k with
    | none => rfl
    | some x =>
      obtain ⟨v, i⟩ := x
      obtain ⟨h1, h2, h3, -⟩ := (findVariant_some _ _ _ _).1 hd
      obtain ⟨j, hj, -⟩ := h.onto h1
      have : Deluxe.findVariant e'.variants k = some (v, j) :=
        (findVariant_some _ _ _ _).2 ⟨hj, h2, h3, fun i w hi hw hbn hk => by
          have := h.names' _ _ _ _ k hw hj hbn h2 hk h3
          omega⟩
      rw [hc] at this
      cases this

theorem flatMatches (h : VariantsMoved e e' idx up) :
    e.flatMatches = e'.flatMatches.map fun x => (x.1, (x.2.1, h.at_ x.2.2)) := by
  refine sorted_unique (cmp := cmpKey) cmpKey_lawful (fun x => x.1) (btMap_sorted cmpKey_lawful _) ?_ fun x => ⟨fun hx => ?_, fun hx => ?_⟩
  · rw [List.pairwise_map]
    exact btMap_sorted cmpKey_lawful _
  · obtain ⟨k, v, i⟩ := x
    obtain ⟨h1, h2, h3⟩ := mem_flatMatches hx
    dsimp only at h1 h2 h3
    obtain ⟨j, hj, rfl⟩ := h.onto h2
    subst h1
    exact List.mem_map.2 ⟨_, flatMatches_mem h.keys' hj h3, rfl⟩
  · obtain ⟨⟨k, v, j⟩, hy, rfl⟩ := List.mem_map.1 hx
    obtain ⟨h1, h2, h3⟩ := mem_flatMatches hy
    dsimp only at h1 h2 h3
    subst h1
    exact flatMatches_mem h.keys (h.at_eq h2).2 h3

theorem zip (h : VariantsMoved e e' idx up) :
    (e'.variants.zipIdx.map fun x => (x.1, h.at_ x.2)).Perm e.variants.zipIdx := by
  have hl : idx.Perm (List.range e.variants.zipIdx.length) := by rw [List.length_zipIdx]; exact h.perm
  refine (List.Perm.of_eq ?_).trans (select_perm hl)
  apply List.ext_getElem?
  intro j
  rw [select_get (fun i hi => by rw [List.length_zipIdx]; exact h.lt i hi), List.getElem?_map, List.getElem?_zipIdx]
  cases hj : idx[j]? with
  | none =>
    have : e'.variants[j]? = none := by rw [h.get, hj]; rfl
    rw [this]; rfl
  | some i =>
    have hi : e'.variants[j]? = e.variants[i]? := by rw [h.get, hj]; rfl
    have ha : h.at_ j = i := getD_of_some hj
    rw [hi]
    simp only [Option.bind_some, List.getElem?_zipIdx]
    cases e.variants[i]? with
    | none => rfl
    | some v => simp [ha]

theorem other (h : VariantsMoved e e' idx up) {j : Nat} {v : Variant V} (hj : e'.variants[j]? = some v) :
    (otherFlatNames e (some (h.at_ j))).Perm (otherFlatNames e' (some j)) := by
  unfold otherFlatNames
  refine (h.zip.symm.flatMap_right _).trans (.of_eq ?_)
  rw [List.flatMap_map]
  have : ∀ x ∈ e'.variants.zipIdx, (if some (h.at_ x.2) = some (h.at_ j) then [] else x.1.flatNames) =
      if some x.2 = some j then [] else x.1.flatNames := by
    intro x hx
    have hx := List.mem_zipIdx_iff_getElem?.1 hx
    by_cases he : x.2 = j
    · simp [he]
    · have : h.at_ x.2 ≠ h.at_ j := fun h2 => he (h.at_inj hx hj h2)
      simp [he, this]
  generalize e'.variants.zipIdx = l at this
  induction l with
  | nil => rfl
  | cons x l ih =>
    rw [List.flatMap_cons, List.flatMap_cons, this x (by simp), ih fun y hy => this y (by simp [hy])]

theorem otherNone (h : VariantsMoved e e' idx up) : (otherFlatNames e none).Perm (otherFlatNames e' none) := by
  unfold otherFlatNames
  refine (h.zip.symm.flatMap_right _).trans (.of_eq ?_)
  rw [List.flatMap_map]
  rfl

/-! ## The parsers -/

variable [Env]

theorem step (h : VariantsMoved e e' idx up) (site : Site V) (pre p : Str) (sp : Span) (acc : Acc (EnumSt V))
    (s : Stream) : enumStep e site pre p sp (SkippedRemoved.upState up acc, s) =
      onState (SkippedRemoved.upState up) (enumStep e' site pre p sp (acc, s)) := by
  have hsel : ((stripPrefix pre p).bind fun k => (Deluxe.findVariant e.variants k).map fun x => (k, x)) =
      ((stripPrefix pre p).bind fun k => (Deluxe.findVariant e'.variants k).map fun x => (k, x)).map
        fun x => (x.1, (x.2.1, h.at_ x.2.2)) := by
    cases stripPrefix pre p with
    | none => rfl
    | some k =>
      simp only [Option.bind_some, h.findVariant, Option.map_map]
      rfl
  simp only [enumStep, hsel, h.anyFlat]
  cases hc : ((stripPrefix pre p).bind fun k => (Deluxe.findVariant e'.variants k).map fun x => (k, x)) with
  | none => rfl
  | some x =>
    obtain ⟨k, v, i⟩ := x
    have hi : e'.variants[i]? = some v := by
      obtain ⟨k', _, hk⟩ := Option.bind_eq_some_iff.1 hc
      obtain ⟨z, hz, hz'⟩ := Option.map_eq_some_iff.1 hk
      have := List.mem_of_find?_eq_some hz
      rw [(Prod.mk.inj hz').2] at this
      exact List.mem_zipIdx_iff_getElem?.1 this
    simp only [Option.map_some]
    generalize v.item site pre p sp s = r
    obtain ⟨r, s'⟩ := r
    cases r with
    | panic => rfl
    | err x =>
      simp only [onState, SkippedRemoved.upState, SkippedRemoved.map_isNone]
      cases acc.val.value.isNone <;> rfl
    | ok x =>
      simp only [onState, SkippedRemoved.upState, SkippedRemoved.map_isSome]
      cases v.isTransparent && acc.val.value.isSome with
      | true => rfl
      | false => simp only [Bool.false_eq_true, if_false, FieldStatus.map, h.up_eq hi x]

/-- The outcomes of picking a variant are related. -/
def PickedSame (up : EnumVal V → EnumVal V) (r r' : Picked V × List Stream) : Prop :=
  Res.RelMsgs (fun x y => x.1 = y.1.map up ∧ x.2.SameMsgs y.2) r.1 r'.1 ∧ r.2 = r'.2

theorem validate (h : VariantsMoved e e' idx up) (b : Bool) {x x' : Errors} (hx : x.SameMsgs x') (l : List Stream) :
    Res.RelMsgs Errors.SameMsgs (validatePass e b x l).1 (validatePass e' b x' l).1 ∧
      (validatePass e b x l).2 = (validatePass e' b x' l).2 := by
  simp only [validatePass, h.unknownOk]
  split
  · exact checkKeys_same (fun n => h.fieldNames.mem_iff.symm) hx l
  · exact ⟨.ok hx, rfl⟩

omit [Env] in
theorem required (h : VariantsMoved e e' idx up) (sp : Span) (pre : Str) {x x' : Errors} (hx : x.SameMsgs x') :
    (variantRequired sp pre e.keyMsgs x).SameMsgs (variantRequired sp pre e'.keyMsgs x') :=
  hx.pushSyn (.new sp (.listed (h.keyMsgs.map _)))

theorem empty (h : VariantsMoved e e' idx up) (v : Variant V) (pre : Str) (sp : Span) (x : Errors) (l : List Stream) :
    Res.RelMsgs Errors.SameMsgs (emptyCheck e v pre sp x l) (emptyCheck e' v pre sp x l) := by
  unfold emptyCheck
  split
  · exact (Errors.SameMsgs.refl x).bail
  · cases (checkKeys (Field.fieldNames v.fields) x (forkInputs l)).1 with
    | err y => exact .err (.refl y)
    | panic => exact .panic
    | ok y =>
      dsimp only
      split
      · exact .ok (.refl y)
      · exact (h.required sp pre (.refl y)).bail

theorem block (h : VariantsMoved e e' idx up) (site : Site V) (pre : Str) (sp : Span) (paths : PathMap)
    {v : Variant V} {j : Nat} (hj : e'.variants[j]? = some v) (empty : Bool) (errs : Errors) (l : List Stream) :
    PickedSame up (flatBlock e site pre sp paths v (h.at_ j) empty errs l)
      (flatBlock e' site pre sp paths v j empty errs l) := by
  simp only [flatBlock, h.unknownOk]
  have hc : Res.RelMsgs Errors.SameMsgs
      (if (empty && !v.allowUnknown.getD false && !v.acceptsAll) = true then emptyCheck e v pre sp errs l else Res.ok errs)
      (if (empty && !v.allowUnknown.getD false && !v.acceptsAll) = true then emptyCheck e' v pre sp errs l else Res.ok errs) := by
    split
    · exact h.empty v pre sp errs l
    · exact .ok (.refl errs)
  generalize (if (empty && !v.allowUnknown.getD false && !v.acceptsAll) = true then emptyCheck e v pre sp errs l
    else Res.ok errs) = a at hc ⊢
  generalize (if (empty && !v.allowUnknown.getD false && !v.acceptsAll) = true then emptyCheck e' v pre sp errs l
    else Res.ok errs) = b at hc ⊢
  cases hc with
  | err hab => exact ⟨.err hab, rfl⟩
  | panic => exact ⟨.panic, rfl⟩
  | @ok a b hab =>
    dsimp only
    have fin : ∀ {x x' : Errors}, x.SameMsgs x' → Errors.SameMsgs
        (if (e.unknownOk || v.allowUnknown.getD false || !v.acceptsAll) = true then x
          else disallowPaths (removePaths paths v.flatNames) (otherFlatNames e (some (h.at_ j))) v.ident x)
        (if (e.unknownOk || v.allowUnknown.getD false || !v.acceptsAll) = true then x'
          else disallowPaths (removePaths paths v.flatNames) (otherFlatNames e' (some j)) v.ident x') := by
      intro x x' hx
      split
      · exact hx
      · exact disallowPaths_same _ (h.other hj) _ hx
    generalize namedFlat _ _ _ _ _ l = r
    obtain ⟨r, l1⟩ := r
    cases r with
    | ok x => exact ⟨.ok ⟨by simp only [FieldStatus.map, h.up_eq hj x], fin hab⟩, rfl⟩
    | err y => exact ⟨.ok ⟨rfl, fin (hab.pushSyn (.refl y))⟩, rfl⟩
    | panic => exact ⟨.panic, rfl⟩

theorem pickFlat (h : VariantsMoved e e' idx up) (site : Site V) (pre : Str) (sp : Span) (b : Bool)
    (paths : PathMap) (errs : Errors) (l : List Stream) :
    PickedSame up (Deluxe.pickFlat e site pre sp b paths errs l) (Deluxe.pickFlat e' site pre sp b paths errs l) := by
  unfold Deluxe.pickFlat
  rw [h.flatMatches, List.find?_map, List.find?_map]
  have e1 : ((fun x : VKey × Variant V × Nat => !x.1.isEmpty && hasPaths paths x.1) ∘
      fun x : VKey × Variant V × Nat => (x.1, (x.2.1, h.at_ x.2.2))) = fun x => !x.1.isEmpty && hasPaths paths x.1 := rfl
  have e2 : ((fun x : VKey × Variant V × Nat => x.1.isEmpty) ∘
      fun x : VKey × Variant V × Nat => (x.1, (x.2.1, h.at_ x.2.2))) = fun x => x.1.isEmpty := rfl
  rw [e1, e2]
  cases hf : e'.flatMatches.find? fun x => !x.1.isEmpty && hasPaths paths x.1 with
  | some x =>
    obtain ⟨k, v, i⟩ := x
    exact h.block site pre sp paths (mem_flatMatches (List.mem_of_find?_eq_some hf)).2.1 false errs l
  | none =>
    simp only [Option.map_none]
    cases hf : e'.flatMatches.find? fun x => x.1.isEmpty with
    | some x =>
      obtain ⟨k, v, i⟩ := x
      exact h.block site pre sp paths (mem_flatMatches (List.mem_of_find?_eq_some hf)).2.1 true errs l
    | none =>
      simp only [Option.map_none, h.default]
      cases e'.default with
      | some x => exact ⟨.ok ⟨rfl, .refl errs⟩, rfl⟩
      | none =>
        simp only [Option.map_none]
        have := h.validate b (.refl errs) l
        generalize validatePass e b errs l = r at this ⊢
        generalize validatePass e' b errs l = r' at this ⊢
        obtain ⟨r, l1⟩ := r
        obtain ⟨r', l1'⟩ := r'
        obtain ⟨h1, h2⟩ := this
        dsimp only at h1 h2
        subst h2
        cases h1 with
        | ok hx => exact ⟨.ok ⟨rfl, h.required sp pre hx⟩, rfl⟩
        | err hx => exact ⟨.err hx, rfl⟩
        | panic => exact ⟨.panic, rfl⟩

theorem pick (h : VariantsMoved e e' idx up) (site : Site V) (pre : Str) (sp : Span) (b : Bool)
    (key : Option Str) (value : FieldStatus (EnumVal V)) (paths : PathMap) (errs : Errors) (l : List Stream) :
    PickedSame up (Deluxe.pick e site pre sp b ⟨key, value.map up, paths⟩ errs l)
      (Deluxe.pick e' site pre sp b ⟨key, value, paths⟩ errs l) := by
  cases value with
  | parseError => exact ⟨.ok ⟨rfl, .refl errs⟩, rfl⟩
  | none => exact h.pickFlat site pre sp b paths errs l
  | some x =>
    cases key with
    | none => exact ⟨.panic, rfl⟩
    | some key =>
      simp only [Deluxe.pick, FieldStatus.map, h.anyFlat, h.unknownOk]
      have hc : Errors.SameMsgs
          (if (e.anyFlat && !e.unknownOk && !b) = true then
            disallowPaths (paths.remove key) (otherFlatNames e none) key errs else errs)
          (if (e.anyFlat && !e.unknownOk && !b) = true then
            disallowPaths (paths.remove key) (otherFlatNames e' none) key errs else errs) := by
        split
        · exact disallowPaths_same _ h.otherNone _ (.refl errs)
        · exact .refl errs
      have := h.validate b hc l
      generalize validatePass e b _ l = r at this ⊢
      generalize validatePass e' b _ l = r' at this ⊢
      obtain ⟨r, l1⟩ := r
      obtain ⟨r', l1'⟩ := r'
      obtain ⟨h1, h2⟩ := this
      dsimp only at h1 h2
      subst h2
      cases h1 with
      | ok hx => exact ⟨.ok ⟨rfl, hx⟩, rfl⟩
      | err hx => exact ⟨.err hx, rfl⟩
      | panic => exact ⟨.panic, rfl⟩

omit [Env] in
theorem thens (h : VariantsMoved e e' idx up) (x : Option (EnumVal V)) {errs errs' : Errors}
    (he : errs.SameMsgs errs') :
    (enumAndThens e.andThens (x.map up) errs).1 = (enumAndThens e'.andThens x errs').1.map up ∧
      (enumAndThens e.andThens (x.map up) errs).2.SameMsgs (enumAndThens e'.andThens x errs').2 := by
  have hl := h.andLength
  have ha := h.andThens
  unfold enumAndThens
  generalize e.andThens = fs' at hl ha
  generalize e'.andThens = fs at hl ha
  clear h
  induction fs generalizing fs' x errs errs' with
  | nil =>
    cases fs' with
    | nil => exact ⟨rfl, he⟩
    | cons => cases hl
  | cons f fs ih =>
    cases fs' with
    | nil => cases hl
    | cons f' fs' =>
      have ih := fun x {errs errs'} he => ih (errs := errs) (errs' := errs') x he fs' (Nat.succ.inj hl) fun i => ha (i + 1)
      simp only [List.foldl_cons]
      cases x with
      | none => exact ih none he
      | some x =>
        have := ha 0 f f' rfl rfl x
        simp only [Option.map_some, this]
        cases f x with
        | ok v => exact ih (some v) he
        | error y => exact ih none (he.pushSyn (.refl y))

theorem tail (h : VariantsMoved e e' idx up) (site : Site V) (pre : Str) (sp : Span) (b : Bool)
    (key : Option Str) (value : FieldStatus (EnumVal V)) (paths : PathMap) (errs : Errors) (l : List Stream) :
    Res.RelMsgs (fun x y => x = up y) (enumTail e site pre sp b ⟨key, value.map up, paths⟩ errs l).1
      (enumTail e' site pre sp b ⟨key, value, paths⟩ errs l).1 ∧
    (enumTail e site pre sp b ⟨key, value.map up, paths⟩ errs l).2 =
      (enumTail e' site pre sp b ⟨key, value, paths⟩ errs l).2 := by
  unfold enumTail
  have := h.pick site pre sp b key value paths errs l
  generalize Deluxe.pick e site pre sp b _ errs l = r at this ⊢
  generalize Deluxe.pick e' site pre sp b _ errs l = r' at this ⊢
  obtain ⟨r, l1⟩ := r
  obtain ⟨r', l1'⟩ := r'
  obtain ⟨h1, h2⟩ := this
  dsimp only at h1 h2
  subst h2
  cases h1 with
  | err hx => exact ⟨.err hx, rfl⟩
  | panic => exact ⟨.panic, rfl⟩
  | @ok x y hxy =>
    obtain ⟨x, ex⟩ := x
    obtain ⟨y, ey⟩ := y
    obtain ⟨h3, h4⟩ := hxy
    dsimp only at h3 h4
    subst h3
    have hy : (y.map up).intoOption = y.intoOption.map up := by cases y <;> rfl
    dsimp only
    rw [hy]
    obtain ⟨h5, h6⟩ := h.thens y.intoOption h4
    rw [h5]
    have hc := h6.check
    generalize (enumAndThens e.andThens (y.intoOption.map up) ex).2.check = c at hc ⊢
    generalize (enumAndThens e'.andThens y.intoOption ey).2.check = c' at hc ⊢
    cases hc with
    | err hx => exact ⟨.err hx, rfl⟩
    | panic => exact ⟨.panic, rfl⟩
    | ok _ =>
      cases (enumAndThens e'.andThens y.intoOption ey).1 with
      | none => exact ⟨.panic, rfl⟩
      | some z => exact ⟨.ok rfl, rfl⟩

theorem flat (h : VariantsMoved e e' idx up) (site : Site V) (mode : Mode) (pre : Str) (b : Bool) (l : List Stream) :
    Res.RelMsgs (fun x y => x = up y) (enumFlat e site mode pre b l).1 (enumFlat e' site mode pre b l).1 ∧
      (enumFlat e site mode pre b l).2 = (enumFlat e' site mode pre b l).2 := by
  have hrun := fun l' => parseStruct_state (g := SkippedRemoved.upState up) (h.step site pre) l'
    ⟨⟨none, .none, []⟩, Errors.new⟩
  have h0 : SkippedRemoved.upState up ⟨⟨none, .none, []⟩, Errors.new⟩ = ⟨⟨none, .none, []⟩, Errors.new⟩ := rfl
  rw [h0] at hrun
  rw [enumFlat_tail, enumFlat_tail]
  simp only [hrun, h.anyFlat, h.unknownOk]
  generalize parseStruct (enumStep e' site pre) _ = a
  obtain ⟨r, acc, l1⟩ := a
  obtain ⟨⟨key, value, paths⟩, errs⟩ := acc
  cases r with
  | panic => exact ⟨.panic, rfl⟩
  | err x => exact h.tail site pre _ b key value paths (errs.pushSyn x) _
  | ok x => exact h.tail site pre _ b key value paths errs _

end VariantsMoved
end

end Deluxe
