import Verif.Model.Enum
import Verif.Spec.Enum
/-!
# Ordered sets: what they contain
-/
namespace Deluxe

theorem cmpList_eq {α : Type} {cmp : α → α → Ordering} (h : ∀ a b, cmp a b = .eq ↔ a = b) :
    ∀ as bs, cmpList cmp as bs = .eq ↔ as = bs
  | [], [] => by simp [cmpList]
  | [], _ :: _ => by simp [cmpList]
  | _ :: _, [] => by simp [cmpList]
  | a :: as, b :: bs => by
    have ih := cmpList_eq h as bs
    have hab := h a b
    rw [cmpList, List.cons.injEq, ← hab, ← ih]
    cases hc : cmp a b <;> simp

theorem cmpStr_eq (a b : Str) : cmpStr a b = .eq ↔ a = b := by
  refine cmpList_eq (fun a b => ?_) a b
  rw [Nat.compare_eq_eq]
  exact ⟨fun h => Char.ext (UInt32.toNat_inj.1 h), fun h => by rw [h]⟩

theorem cmpKey_eq (a b : VKey) : cmpKey a b = .eq ↔ a = b :=
  cmpList_eq (cmpList_eq cmpStr_eq) a b

section
variable {κ α : Type} {cmp : κ → κ → Ordering} (h : ∀ a b, cmp a b = .eq ↔ a = b)
include h

theorem mem_of_btInsert {k : κ} {a : α} {l : List (κ × α)} {y} (hy : y ∈ btInsert cmp k a l) :
    y = (k, a) ∨ y ∈ l := by
  induction l with
  | nil => simpa [btInsert] using hy
  | cons x l ih =>
    obtain ⟨k', a'⟩ := x
    have hk := h k k'
    simp only [btInsert] at hy
    cases hc : cmp k k' with
    | lt => simpa [hc] using hy
    | eq =>
      rw [hc] at hy
      have : k = k' := hk.1 hc
      subst this
      simp only [List.mem_cons] at hy ⊢
      rcases hy with hy | hy
      · exact .inl hy
      · exact .inr (.inr hy)
    | gt =>
      rw [hc] at hy
      simp only [List.mem_cons] at hy ⊢
      rcases hy with hy | hy
      · exact .inr (.inl hy)
      · rcases ih hy with hy | hy
        · exact .inl hy
        · exact .inr (.inr hy)

theorem btInsert_self (k : κ) (a : α) (l : List (κ × α)) : (k, a) ∈ btInsert cmp k a l := by
  induction l with
  | nil => simp [btInsert]
  | cons x l ih =>
    obtain ⟨k', a'⟩ := x
    simp only [btInsert]
    cases hc : cmp k k' with
    | lt => simp
    | eq => simp [(h k k').1 hc]
    | gt => simp [ih]

theorem btInsert_keep {k : κ} (a : α) {l : List (κ × α)} {y} (hy : y ∈ l) (hk : y.1 ≠ k) :
    y ∈ btInsert cmp k a l := by
  induction l with
  | nil => simp at hy
  | cons x l ih =>
    obtain ⟨k', a'⟩ := x
    simp only [btInsert]
    cases hc : cmp k k' with
    | lt => exact List.mem_cons_of_mem _ hy
    | eq =>
      have hk' := (h k k').1 hc
      simp only [List.mem_cons] at hy ⊢
      rcases hy with rfl | hy
      · exact absurd hk'.symm hk
      · exact .inr hy
    | gt =>
      simp only [List.mem_cons] at hy ⊢
      rcases hy with rfl | hy
      · exact .inl rfl
      · exact .inr (ih hy)

theorem mem_of_btMap {l : List (κ × α)} {y} (hy : y ∈ btMap cmp l) : y ∈ l := by
  have gen : ∀ (l m : List (κ × α)), y ∈ l.foldl (fun m x => btInsert cmp x.1 x.2 m) m →
      y ∈ m ∨ y ∈ l := by
    intro l
    induction l with
    | nil => intro m h; exact .inl h
    | cons x l ih =>
      intro m hm
      rw [List.foldl_cons] at hm
      rcases ih _ hm with h1 | h1
      · rcases mem_of_btInsert h h1 with h2 | h2
        · exact .inr (by rw [h2]; exact List.mem_cons_self)
        · exact .inl h2
      · exact .inr (List.mem_cons_of_mem _ h1)
  simpa using gen l [] hy

theorem btMap_key {l : List (κ × α)} {k} (hk : k ∈ l.map (·.1)) : k ∈ (btMap cmp l).map (·.1) := by
  have gen : ∀ (l m : List (κ × α)), (k ∈ m.map (·.1) ∨ k ∈ l.map (·.1)) →
      k ∈ (l.foldl (fun m x => btInsert cmp x.1 x.2 m) m).map (·.1) := by
    intro l
    induction l with
    | nil => intro m h; simpa using h
    | cons x l ih =>
      intro m hm
      rw [List.foldl_cons]
      refine ih _ ?_
      by_cases hkx : k = x.1
      · exact .inl (List.mem_map.2 ⟨_, btInsert_self h x.1 x.2 m, hkx.symm⟩)
      · rcases hm with h1 | h1
        · obtain ⟨y, hy, rfl⟩ := List.mem_map.1 h1
          exact .inl (List.mem_map.2 ⟨y, btInsert_keep h x.2 hy hkx, rfl⟩)
        · refine .inr ?_
          simpa [hkx] using h1
  exact gen l [] (.inr hk)

/-- A key that occurs once keeps its value. -/
theorem btMap_mem {l : List (κ × α)} {y} (hy : y ∈ l) (hu : ∀ z ∈ l, z.1 = y.1 → z = y) :
    y ∈ btMap cmp l := by
  obtain ⟨z, hz, hzy⟩ := List.mem_map.1 (btMap_key h (List.mem_map.2 ⟨y, hy, rfl⟩))
  rw [← hu z (mem_of_btMap h hz) hzy]
  exact hz

theorem mem_btSet {l : List κ} {k : κ} : k ∈ btSet cmp l ↔ k ∈ l := by
  unfold btSet
  constructor
  · intro hk
    obtain ⟨y, hy, rfl⟩ := List.mem_map.1 hk
    obtain ⟨x, hx, rfl⟩ := List.mem_map.1 (mem_of_btMap h hy)
    exact hx
  · intro hk
    refine btMap_key h ?_
    simpa using hk

end

/-! ## Order -/

/-- A total order. -/
structure LawfulCmp {κ : Type} (cmp : κ → κ → Ordering) : Prop where
  eq : ∀ a b, cmp a b = .eq ↔ a = b
  swap : ∀ a b, cmp a b = .gt ↔ cmp b a = .lt
  trans : ∀ a b c, cmp a b = .lt → cmp b c = .lt → cmp a c = .lt

theorem cmpList_lawful {α : Type} {cmp : α → α → Ordering} (h : LawfulCmp cmp) :
    LawfulCmp (cmpList cmp) := by
  refine ⟨cmpList_eq h.eq, ?_, ?_⟩
  · intro as
    induction as with
    | nil => intro bs; cases bs <;> simp [cmpList]
    | cons a as ih =>
      intro bs
      cases bs with
      | nil => simp [cmpList]
      | cons b bs =>
        simp only [cmpList]
        cases hab : cmp a b with
        | eq =>
          have : a = b := (h.eq a b).1 hab
          subst this
          simpa [hab] using ih bs
        | lt =>
          have : cmp b a = .gt := (h.swap b a).2 hab
          simp [this]
        | gt =>
          have : cmp b a = .lt := (h.swap a b).1 hab
          simp [this]
  · intro as
    induction as with
    | nil =>
      intro bs cs h1 h2
      cases cs with
      | nil => cases bs <;> simp [cmpList] at h1 h2
      | cons c cs => rfl
    | cons a as ih =>
      intro bs cs h1 h2
      cases bs with
      | nil => simp [cmpList] at h1
      | cons b bs =>
        cases cs with
        | nil => simp [cmpList] at h2
        | cons c cs =>
          simp only [cmpList] at h1 h2 ⊢
          cases hab : cmp a b with
          | gt => simp [hab] at h1
          | eq =>
            have : a = b := (h.eq a b).1 hab
            subst this
            simp only [hab] at h1
            cases hac : cmp a c with
            | gt => simp [hac] at h2
            | lt => rfl
            | eq => simp only [hac] at h2; exact ih bs cs h1 h2
          | lt =>
            cases hbc : cmp b c with
            | gt => simp [hbc] at h2
            | lt => simp [h.trans a b c hab hbc]
            | eq =>
              have : b = c := (h.eq b c).1 hbc
              subst this
              simp [hab]

theorem cmpStr_lawful : LawfulCmp cmpStr := by
  refine cmpList_lawful ⟨fun a b => ?_, fun a b => ?_, fun a b c => ?_⟩
  · rw [Nat.compare_eq_eq]
    exact ⟨fun h => Char.ext (UInt32.toNat_inj.1 h), fun h => by rw [h]⟩
  · rw [Nat.compare_eq_gt, Nat.compare_eq_lt]
  · rw [Nat.compare_eq_lt, Nat.compare_eq_lt, Nat.compare_eq_lt]; omega

theorem cmpKey_lawful : LawfulCmp cmpKey := cmpList_lawful (cmpList_lawful cmpStr_lawful)

section
variable {κ α : Type} {cmp : κ → κ → Ordering} (h : LawfulCmp cmp)
include h

theorem btInsert_sorted (k : κ) (a : α) {l : List (κ × α)}
    (hl : l.Pairwise fun x y => cmp x.1 y.1 = .lt) :
    (btInsert cmp k a l).Pairwise fun x y => cmp x.1 y.1 = .lt := by
  induction l with
  | nil => simp [btInsert]
  | cons x l ih =>
    obtain ⟨k', a'⟩ := x
    rw [List.pairwise_cons] at hl
    simp only [btInsert]
    cases hc : cmp k k' with
    | lt =>
      simp only [List.pairwise_cons]
      refine ⟨?_, hl⟩
      intro y hy
      rcases List.mem_cons.1 hy with rfl | hy
      · exact hc
      · exact h.trans _ _ _ hc (hl.1 y hy)
    | eq => exact List.pairwise_cons.2 hl
    | gt =>
      refine List.pairwise_cons.2 ⟨?_, ih hl.2⟩
      intro y hy
      rcases mem_of_btInsert h.eq hy with rfl | hy
      · exact (h.swap _ _).1 hc
      · exact hl.1 y hy

theorem btMap_sorted (l : List (κ × α)) :
    (btMap cmp l).Pairwise fun x y => cmp x.1 y.1 = .lt := by
  have gen : ∀ (l m : List (κ × α)), (m.Pairwise fun x y => cmp x.1 y.1 = .lt) →
      (l.foldl (fun m x => btInsert cmp x.1 x.2 m) m).Pairwise fun x y => cmp x.1 y.1 = .lt := by
    intro l
    induction l with
    | nil => intro m hm; exact hm
    | cons x l ih => intro m hm; exact ih _ (btInsert_sorted h x.1 x.2 hm)
  exact gen l [] .nil

theorem btSet_sorted (l : List κ) : (btSet cmp l).Pairwise fun x y => cmp x y = .lt := by
  unfold btSet
  rw [List.pairwise_map]
  exact btMap_sorted h _

end

/-- The first match in a sorted list is the least one. -/
theorem find_least {β : Type} {r : β → β → Prop} {p : β → Bool} {l : List β} {x : β}
    (hl : l.Pairwise r) (h : l.find? p = some x) :
    ∀ y ∈ l, p y = true → y = x ∨ r x y := by
  induction l with
  | nil => simp at h
  | cons z l ih =>
    rw [List.pairwise_cons] at hl
    intro y hy hp
    rw [List.find?_cons] at h
    cases hz : p z with
    | true =>
      simp only [hz, Option.some.injEq] at h
      subst h
      rcases List.mem_cons.1 hy with rfl | hy
      · exact .inl rfl
      · exact .inr (hl.1 y hy)
    | false =>
      simp only [hz] at h
      rcases List.mem_cons.1 hy with rfl | hy
      · simp [hz] at hp
      · exact ih hl.2 h y hy hp

section
variable {V : Type}

theorem isEmpty_btSet {l : List Str} : (btSet cmpStr l).isEmpty = l.isEmpty := by
  cases l with
  | nil => rfl
  | cons a l =>
    have : a ∈ btSet cmpStr (a :: l) := (mem_btSet cmpStr_eq).2 List.mem_cons_self
    cases hb : btSet cmpStr (a :: l) with
    | nil => rw [hb] at this; simp at this
    | cons _ _ => rfl

theorem Variant.mem_fieldKey (v : Variant V) (ks : List Str) :
    ks ∈ v.fieldKey ↔ ∃ f ∈ v.fields, f.Required ∧ f.idents ≠ [] ∧ ks = btSet cmpStr f.idents := by
  unfold Variant.fieldKey
  rw [mem_btSet (cmpList_eq cmpStr_eq)]
  simp only [List.mem_filterMap]
  constructor
  · rintro ⟨f, hf, h⟩
    by_cases hr : (f.default.isSome || f.isFlat || !f.isParsable) = true
    · simp [hr, btSet, btMap] at h
    · have hr' : f.Required := by
        simp only [Bool.or_eq_true, Bool.not_eq_true', not_or] at hr
        exact ⟨by simpa using hr.1.2, by simpa using hr.2, by simpa using hr.1.1⟩
      simp only [hr, Bool.false_eq_true, if_false, isEmpty_btSet] at h
      by_cases he : f.idents = []
      · simp [he] at h
      · simp only [List.isEmpty_iff, he, if_false, Option.some.injEq] at h
        exact ⟨f, hf, hr', he, h.symm⟩
  · rintro ⟨f, hf, hr, he, rfl⟩
    refine ⟨f, hf, ?_⟩
    simp [hr.1, hr.2.1, hr.2.2, isEmpty_btSet, he]

/-- Whether the keys of a flattened variant are there. -/
theorem Variant.hasPaths_iff (v : Variant V) (paths : PathMap) :
    hasPaths paths v.fieldKey = true ↔ v.Present (paths.map (·.1)) := by
  have hc : ∀ k, paths.contains k = true ↔ k ∈ paths.map (·.1) := by
    intro k
    unfold PathMap.contains
    induction paths with
    | nil => simp [PathMap.get]
    | cons e m ih =>
      obtain ⟨a, sp⟩ := e
      simp only [PathMap.get, List.map_cons, List.mem_cons]
      split
      · rename_i h; simp [h]
      · rename_i h; rw [ih]; simp [Ne.symm h]
  simp only [hasPaths, List.all_eq_true, List.any_eq_true, hc, Variant.Present]
  constructor
  · intro h f hf hr he
    obtain ⟨k, hk, hp⟩ := h _ ((v.mem_fieldKey _).2 ⟨f, hf, hr, he, rfl⟩)
    exact ⟨k, (mem_btSet cmpStr_eq).1 hk, hp⟩
  · intro h ks hks
    obtain ⟨f, hf, hr, he, rfl⟩ := (v.mem_fieldKey _).1 hks
    obtain ⟨k, hk, hp⟩ := h f hf hr he
    exact ⟨k, (mem_btSet cmpStr_eq).2 hk, hp⟩

theorem Variant.fieldKey_isEmpty (v : Variant V) : v.fieldKey.isEmpty = true ↔ v.Keyless := by
  rw [List.isEmpty_iff]
  constructor
  · intro h f hf hr
    by_cases he : f.idents = []
    · exact he
    · have := (v.mem_fieldKey (btSet cmpStr f.idents)).2 ⟨f, hf, hr, he, rfl⟩
      rw [h] at this
      simp at this
  · intro h
    cases hk : v.fieldKey with
    | nil => rfl
    | cons ks l =>
      obtain ⟨f, hf, hr, he, _⟩ := (v.mem_fieldKey ks).1 (by rw [hk]; exact List.mem_cons_self)
      exact absurd (h f hf hr) he

theorem sorted_ext {κ : Type} {cmp : κ → κ → Ordering} (h : LawfulCmp cmp) :
    ∀ {l m : List κ}, (l.Pairwise fun x y => cmp x y = .lt) → (m.Pairwise fun x y => cmp x y = .lt) →
      (∀ k, k ∈ l ↔ k ∈ m) → l = m
  | [], [], _, _, _ => rfl
  | [], b :: m, _, _, he => by have := (he b).2 List.mem_cons_self; simp at this
  | a :: l, [], _, _, he => by have := (he a).1 List.mem_cons_self; simp at this
  | a :: l, b :: m, hl, hm, he => by
    rw [List.pairwise_cons] at hl hm
    have irr : ∀ x, cmp x x ≠ .lt := fun x hx => by
      rw [(h.eq x x).2 rfl] at hx; cases hx
    have hab : a = b := by
      rcases List.mem_cons.1 ((he a).1 List.mem_cons_self) with h1 | h1
      · exact h1
      · rcases List.mem_cons.1 ((he b).2 List.mem_cons_self) with h2 | h2
        · exact h2.symm
        · exact absurd (h.trans _ _ _ (hm.1 a h1) (hl.1 b h2)) (irr b)
    subst hab
    rw [sorted_ext h hl.2 hm.2 fun k => ?_]
    constructor
    · intro hk
      rcases List.mem_cons.1 ((he k).1 (List.mem_cons_of_mem _ hk)) with h1 | h1
      · subst h1; exact absurd (hl.1 k hk) (irr k)
      · exact h1
    · intro hk
      rcases List.mem_cons.1 ((he k).2 (List.mem_cons_of_mem _ hk)) with h1 | h1
      · subst h1; exact absurd (hm.1 k hk) (irr k)
      · exact h1

theorem btSet_ext {l m : List Str} : btSet cmpStr l = btSet cmpStr m ↔ ∀ n, n ∈ l ↔ n ∈ m := by
  constructor
  · intro h n
    rw [← mem_btSet cmpStr_eq, h, mem_btSet cmpStr_eq]
  · intro h
    refine sorted_ext cmpStr_lawful (btSet_sorted cmpStr_lawful l) (btSet_sorted cmpStr_lawful m) fun k => ?_
    rw [mem_btSet cmpStr_eq, mem_btSet cmpStr_eq, h]

/-- Keys are compared as sets. -/
theorem Variant.sameKey_iff (v w : Variant V) : v.SameKey w ↔ v.fieldKey = w.fieldKey := by
  constructor
  · intro h
    refine sorted_ext (cmpList_lawful cmpStr_lawful) (btSet_sorted (cmpList_lawful cmpStr_lawful) _)
      (btSet_sorted (cmpList_lawful cmpStr_lawful) _) fun ks => ?_
    have one : ∀ v w : Variant V, v.SameKey w → ks ∈ v.fieldKey → ks ∈ w.fieldKey := by
      intro v w h hk
      obtain ⟨f, hf, hr, he, rfl⟩ := (v.mem_fieldKey ks).1 hk
      obtain ⟨g, hg, hr', he', hn⟩ := (h (· ∈ f.idents)).1 ⟨f, hf, hr, he, fun _ => Iff.rfl⟩
      exact (w.mem_fieldKey _).2 ⟨g, hg, hr', he', btSet_ext.2 hn⟩
    exact ⟨one v w h, one w v fun names => (h names).symm⟩
  · intro h names
    have one : ∀ v w : Variant V, v.fieldKey = w.fieldKey →
        (∃ f ∈ v.fields, f.Required ∧ f.idents ≠ [] ∧ ∀ n, names n ↔ n ∈ f.idents) →
        (∃ f ∈ w.fields, f.Required ∧ f.idents ≠ [] ∧ ∀ n, names n ↔ n ∈ f.idents) := by
      rintro v w h ⟨f, hf, hr, he, hn⟩
      obtain ⟨g, hg, hr', he', hk⟩ := (w.mem_fieldKey _).1 (h ▸ (v.mem_fieldKey _).2 ⟨f, hf, hr, he, rfl⟩)
      exact ⟨g, hg, hr', he', fun n => (hn n).trans (btSet_ext.1 hk n)⟩
    exact ⟨one v w h, one w v h.symm⟩

theorem mem_flatMatches {e : EnumDef V} {y} (hy : y ∈ e.flatMatches) :
    y.1 = y.2.1.fieldKey ∧ e.variants[y.2.2]? = some y.2.1 ∧ y.2.1.ByFields := by
  obtain ⟨x, hx, rfl⟩ := List.mem_map.1 (mem_of_btMap cmpKey_eq hy)
  obtain ⟨h1, h2⟩ := List.mem_filter.1 hx
  refine ⟨rfl, ?_, ?_⟩
  · have := List.mem_zipIdx_iff_getElem?.1 h1
    simpa using this
  · simp only [Bool.and_eq_true, Bool.not_eq_true'] at h2
    exact ⟨h2.2, h2.1⟩

theorem flatMatches_mem {e : EnumDef V} (hd : e.DistinctKeys) {i : Nat} {v : Variant V}
    (hv : e.variants[i]? = some v) (hf : v.ByFields) : (v.fieldKey, (v, i)) ∈ e.flatMatches := by
  have mem : ∀ {j : Nat} {w : Variant V},
      (w, j) ∈ e.variants.zipIdx.filter (fun x => !x.1.isSkipped && x.1.isFlatten) ↔
        e.variants[j]? = some w ∧ w.ByFields := by
    intro j w
    rw [List.mem_filter, List.mem_zipIdx_iff_getElem?]
    simp [Variant.ByFields, and_comm]
  refine btMap_mem cmpKey_eq (List.mem_map.2 ⟨(v, i), mem.2 ⟨hv, hf⟩, rfl⟩) fun z hz hzy => ?_
  obtain ⟨x, hx, rfl⟩ := List.mem_map.1 hz
  obtain ⟨w, j⟩ := x
  obtain ⟨h1, h2⟩ := mem.1 hx
  have := hd j i w v h1 hv h2 hf ((w.sameKey_iff v).2 hzy)
  subst this
  rw [hv] at h1
  cases h1
  rfl

theorem find_flatMatches {e : EnumDef V} {p : VKey → Bool} {k v i}
    (h : e.flatMatches.find? (fun x => p x.1) = some (k, v, i)) :
    p v.fieldKey = true ∧ e.variants[i]? = some v ∧ v.ByFields := by
  obtain ⟨h1, h2, h3⟩ := mem_flatMatches (List.mem_of_find?_eq_some h)
  have h4 := List.find?_some h
  simp only at h1 h2 h3 h4
  rw [h1] at h4
  exact ⟨h4, h2, h3⟩

end

end Deluxe
