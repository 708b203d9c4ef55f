import Verif.Props.SwitchOffEnum
/-!
# C99: a skipped variant is as if it was not written

A variant with `skip` cannot be written in an attribute (macros/lib.rs, `skip`).  The theorems compare an enum with the
one from which the skipped variants are removed: both parse every input in the same way, with the same messages.  This
needs that no skipped variant is flattened; the names of the fields of such a variant are still accepted.
-/
namespace Deluxe

/-! ## Positions after the removal -/

section
variable {α β : Type}

/-- The position in `l` of the element at position `j` of `l.filter q`. -/
def keptPos (l : List α) (q : α → Bool) (j : Nat) : Nat :=
  (((l.zipIdx.filter fun x => q x.1)[j]?).map (·.2)).getD j

theorem zipIdx_filter_fst (l : List α) (q : α → Bool) (n : Nat) :
    ((l.zipIdx n).filter fun x => q x.1).map (·.1) = l.filter q := by
  induction l generalizing n with
  | nil => rfl
  | cons a l ih =>
    simp only [List.zipIdx_cons, List.filter_cons]
    split
    · simp [ih]
    · exact ih _

theorem zipIdx_filter (l : List α) (q : α → Bool) :
    l.zipIdx.filter (fun x => q x.1) = (l.filter q).zipIdx.map fun x => (x.1, keptPos l q x.2) := by
  have h := zipIdx_filter_fst l q 0
  apply List.ext_getElem?
  intro j
  rw [List.getElem?_map, ← h, List.getElem?_zipIdx, List.getElem?_map]
  cases hx : (l.zipIdx.filter fun x => q x.1)[j]? with
  | none => simp
  | some x => simp [keptPos, hx]

theorem zipIdx_filter_get {l : List α} {q : α → Bool} {i : Nat} {x : α × Nat}
    (hi : (l.zipIdx.filter fun x => q x.1)[i]? = some x) : l[x.2]? = some x.1 :=
  List.mem_zipIdx_iff_getElem?.1 ((List.mem_filter.1 (List.mem_of_getElem? hi)).1)

theorem keptPos_get {l : List α} {q : α → Bool} {j : Nat} {a : α} (h : (l.filter q)[j]? = some a) :
    l[keptPos l q j]? = some a := by
  rw [← zipIdx_filter_fst l q 0, List.getElem?_map] at h
  obtain ⟨x, hx, rfl⟩ := Option.map_eq_some_iff.1 h
  have := zipIdx_filter_get hx
  simpa [keptPos, hx] using this

theorem keptPos_lt {l : List α} {q : α → Bool} {i j : Nat} (hij : i < j) (hj : j < (l.filter q).length) :
    keptPos l q i < keptPos l q j := by
  have hl : (l.zipIdx.filter fun x => q x.1).length = (l.filter q).length := by
    rw [← zipIdx_filter_fst l q 0, List.length_map]
  have hp : (l.zipIdx.filter fun x => q x.1).Pairwise fun x y => x.2 < y.2 := by
    refine List.Pairwise.filter _ ?_
    rw [← List.pairwise_map (f := Prod.snd) (R := (· < ·))]
    rw [List.zipIdx_map_snd]
    exact List.pairwise_lt_range'
  rw [List.pairwise_iff_getElem] at hp
  have := hp i j (by omega) (by omega) hij
  simpa [keptPos, List.getElem?_eq_getElem (show i < (l.zipIdx.filter fun x => q x.1).length by omega),
    List.getElem?_eq_getElem (show j < (l.zipIdx.filter fun x => q x.1).length by omega)] using this

theorem keptPos_inj {l : List α} {q : α → Bool} {i j : Nat} (hi : i < (l.filter q).length)
    (hj : j < (l.filter q).length) (h : keptPos l q i = keptPos l q j) : i = j := by
  rcases Nat.lt_trichotomy i j with hl | rfl | hl
  · have := keptPos_lt hl hj; omega
  · rfl
  · have := keptPos_lt hl hi; omega

end

/-! ## Loops with a state seen through a function -/

section
variable [Env] {κ κ' : Type}

/-- The outcome with the state replaced. -/
def onState {σ α : Type} (g : κ → κ') (x : Res α × (κ × σ)) : Res α × (κ' × σ) := (x.1, (g x.2.1, x.2.2))

theorem structLoop_state {g : κ → κ'} {func : Str → Span → M (κ × Stream) Unit}
    {func' : Str → Span → M (κ' × Stream) Unit}
    (h : ∀ p sp k s, func' p sp (g k, s) = onState g (func p sp (k, s))) (n : Nat) :
    ∀ k s, structLoop func' n (g k, s) = onState g (structLoop func n (k, s)) := by
  induction n with
  | zero => intro k s; rfl
  | succ n ih =>
    intro k s
    simp only [structLoop]
    by_cases he : s.isEmpty = true
    · simp only [he, if_true]; rfl
    · rw [if_neg he, if_neg he]
      simp only [Bind.bind, M.bind, M.onSnd]
      cases hp : parseAnyPath s with
      | mk r s1 =>
        cases r with
        | err e => rfl
        | panic => rfl
        | ok path =>
          have := h (keyString path.segs) path.span k s1
          simp only [this]
          generalize func (keyString path.segs) path.span (k, s1) = a
          obtain ⟨a, ka, sa⟩ := a
          cases a with
          | err => rfl
          | panic => rfl
          | ok =>
            simp only [M.get, onState]
            by_cases he : sa.isEmpty = true
            · simp only [he, if_true]
              exact ih ka sa
            · rw [if_neg he, if_neg he]
              simp only [M.bind, M.onSnd]
              cases hc : parseComma sa with
              | mk r s2 =>
                cases r with
                | err e => rfl
                | panic => rfl
                | ok _ => exact ih ka s2

theorem parseStruct_state {g : κ → κ'} {func : Str → Span → M (κ × Stream) Unit}
    {func' : Str → Span → M (κ' × Stream) Unit}
    (h : ∀ p sp k s, func' p sp (g k, s) = onState g (func p sp (k, s))) :
    ∀ (l : List Stream) (k : κ), parseStruct func' (g k, l) = onState g (parseStruct func (k, l)) := by
  intro l
  induction l with
  | nil => intro k; rfl
  | cons s rest ih =>
    intro k
    simp only [parseStruct, forStreams, forStreams.go]
    rw [structLoop_state h]
    generalize structLoop func (s.toks.length + 1) (k, s) = a
    obtain ⟨a, ka, sa⟩ := a
    cases a with
    | err => rfl
    | panic => rfl
    | ok =>
      have := ih ka
      simp only [parseStruct, forStreams] at this
      simp only [onState, this]

end

/-! ## The removal -/

section
variable {V : Type}

/-- `small` is `big` without its skipped variants, none of which is flattened.  `up` gives back the positions. -/
structure SkippedRemoved (big small : EnumDef V) (up : EnumVal V → EnumVal V) : Prop where
  variants : small.variants = big.variants.filter fun v => !v.isSkipped
  pos : ∀ (j : Nat) v xs, small.variants[j]? = some v →
    up (j, xs) = (keptPos big.variants (fun v => !v.isSkipped) j, xs)
  allowUnknown : small.allowUnknown = big.allowUnknown
  default : big.default = small.default.map up
  andLength : big.andThens.length = small.andThens.length
  andThens : ∀ (i : Nat) f f', small.andThens[i]? = some f → big.andThens[i]? = some f' →
    ∀ x, f' (up x) = (f x).map up
  notFlat : ∀ v ∈ big.variants, v.isSkipped = true → v.isFlatten = false

namespace SkippedRemoved
variable {big small : EnumDef V} {up : EnumVal V → EnumVal V}

theorem mem (h : SkippedRemoved big small up) {v : Variant V} (hv : v ∈ small.variants) :
    v ∈ big.variants ∧ v.isSkipped = false := by
  rw [h.variants, List.mem_filter] at hv
  simpa using hv

theorem kept (h : SkippedRemoved big small up) {v : Variant V} (hv : v ∈ big.variants)
    (hs : v.isSkipped = false) : v ∈ small.variants := by
  rw [h.variants, List.mem_filter]
  simpa using ⟨hv, hs⟩

theorem unknownOk (h : SkippedRemoved big small up) : small.unknownOk = big.unknownOk := by
  simp only [EnumDef.unknownOk, h.allowUnknown]

theorem any (h : SkippedRemoved big small up) (p : Variant V → Bool)
    (hp : ∀ v ∈ big.variants, v.isSkipped = true → p v = false) : small.variants.any p = big.variants.any p := by
  rw [Bool.eq_iff_iff, List.any_eq_true, List.any_eq_true]
  constructor
  · rintro ⟨v, hv, hpv⟩; exact ⟨v, (h.mem hv).1, hpv⟩
  · rintro ⟨v, hv, hpv⟩
    refine ⟨v, h.kept hv ?_, hpv⟩
    cases hs : v.isSkipped with
    | false => rfl
    | true => rw [hp v hv hs] at hpv; cases hpv

theorem anyFlat (h : SkippedRemoved big small up) : small.anyFlat = big.anyFlat :=
  h.any _ fun v _ hs => by simp [hs]

theorem acceptsAll (h : SkippedRemoved big small up) : small.acceptsAll = big.acceptsAll := by
  simp only [EnumDef.acceptsAll, h.unknownOk]
  rw [h.any _ fun v _ hs => by simp [hs], h.any _ fun v hv hs => by simp [h.notFlat v hv hs]]

theorem flatMap {α : Type} (h : SkippedRemoved big small up) (f : Variant V → List α)
    (hf : ∀ v ∈ big.variants, v.isSkipped = true → f v = []) : small.variants.flatMap f = big.variants.flatMap f := by
  rw [h.variants]
  generalize big.variants = vs at hf
  induction vs with
  | nil => rfl
  | cons v vs ih =>
    have ih := ih fun w hw => hf w (by simp [hw])
    rw [List.filter_cons, List.flatMap_cons]
    cases hs : v.isSkipped with
    | true => rw [hf v (by simp) hs]; simpa using ih
    | false => simp [ih]

theorem fieldNames (h : SkippedRemoved big small up) : small.fieldNames = big.fieldNames :=
  h.flatMap _ fun v hv hs => by simp [Variant.names, h.notFlat v hv hs, hs]

theorem keyMsgs (h : SkippedRemoved big small up) : small.keyMsgs = big.keyMsgs := by
  simp only [EnumDef.keyMsgs, h.variants, List.filter_filter, Bool.and_self]

/-- The position in the enum with all variants. -/
abbrev at_ (_ : SkippedRemoved big small up) (j : Nat) : Nat := keptPos big.variants (fun v => !v.isSkipped) j

theorem zip (h : SkippedRemoved big small up) :
    big.variants.zipIdx.filter (fun x => !x.1.isSkipped) = small.variants.zipIdx.map fun x => (x.1, h.at_ x.2) := by
  rw [h.variants]
  exact zipIdx_filter big.variants fun v => !v.isSkipped

theorem findVariant (h : SkippedRemoved big small up) (k : Str) :
    Deluxe.findVariant big.variants k = (Deluxe.findVariant small.variants k).map fun x => (x.1, h.at_ x.2) := by
  have h1 : Deluxe.findVariant big.variants k =
      (big.variants.zipIdx.filter fun x => !x.1.isSkipped).find? fun x =>
        !x.1.isFlatten && !x.1.isSkipped && x.1.idents.contains k := by
    rw [List.find?_filter]
    unfold Deluxe.findVariant
    congr 1
    funext x
    cases x.1.isSkipped <;> simp
  rw [h1, h.zip, List.find?_map]
  rfl

theorem flatMatches (h : SkippedRemoved big small up) :
    big.flatMatches = small.flatMatches.map fun x => (x.1, (x.2.1, h.at_ x.2.2)) := by
  have h1 : (big.variants.zipIdx.filter fun x => !x.1.isSkipped && x.1.isFlatten) =
      (small.variants.zipIdx.filter fun x => !x.1.isSkipped && x.1.isFlatten).map fun x => (x.1, h.at_ x.2) := by
    have : (big.variants.zipIdx.filter fun x => !x.1.isSkipped && x.1.isFlatten) =
        (big.variants.zipIdx.filter fun x => !x.1.isSkipped).filter fun x => !x.1.isSkipped && x.1.isFlatten := by
      rw [List.filter_filter]
      congr 1
      funext x
      cases x.1.isSkipped <;> simp
    rw [this, h.zip, List.filter_map]
    rfl
  simp only [EnumDef.flatMatches, h1, List.map_map]
  rw [← btMap_map cmpKey (fun x : Variant V × Nat => (x.1, h.at_ x.2)), List.map_map]
  rfl

theorem otherNone (h : SkippedRemoved big small up) : otherFlatNames small none = otherFlatNames big none := by
  have : ∀ e : EnumDef V, otherFlatNames e none = e.variants.flatMap (·.flatNames) := by
    intro e
    simp only [otherFlatNames, reduceCtorEq, if_false]
    rw [← List.flatMap_map (f := Prod.fst) (g := Variant.flatNames), List.zipIdx_map_fst]
  rw [this, this]
  exact h.flatMap _ fun v hv hs => by simp [Variant.flatNames, h.notFlat v hv hs]

theorem otherSome (h : SkippedRemoved big small up) {i : Nat} (hi : i < small.variants.length) :
    otherFlatNames big (some (h.at_ i)) = otherFlatNames small (some i) := by
  have h1 : otherFlatNames big (some (h.at_ i)) = (big.variants.zipIdx.filter fun x => !x.1.isSkipped).flatMap
      fun x => if some x.2 = some (h.at_ i) then [] else x.1.flatNames := by
    unfold otherFlatNames
    have hm : ∀ x ∈ big.variants.zipIdx, x.1.isSkipped = true → x.1.isFlatten = false := fun x hx =>
      h.notFlat _ (List.fst_mem_of_mem_zipIdx hx)
    generalize big.variants.zipIdx = l at hm
    induction l with
    | nil => rfl
    | cons x l ih =>
      have ih := ih fun y hy => hm y (by simp [hy])
      rw [List.filter_cons, List.flatMap_cons, ih]
      cases hs : x.1.isSkipped with
      | true =>
        have : x.1.flatNames = [] := by simp [Variant.flatNames, hm x (by simp) hs]
        simp [this]
      | false => simp
  rw [h1, h.zip, List.flatMap_map]
  unfold otherFlatNames
  have hl : small.variants.length = (big.variants.filter fun v => !v.isSkipped).length := by rw [h.variants]
  have : ∀ x ∈ small.variants.zipIdx, (if some (h.at_ x.2) = some (h.at_ i) then [] else x.1.flatNames) =
      if some x.2 = some i then [] else x.1.flatNames := by
    intro x hx
    have hx := List.mem_zipIdx_iff_getElem?.1 hx
    have hlt : x.2 < small.variants.length := (List.getElem?_eq_some_iff.1 hx).1
    by_cases he : x.2 = i
    · simp [he]
    · have : h.at_ x.2 ≠ h.at_ i := fun h2 => he (keptPos_inj (hl ▸ hlt) (hl ▸ hi) h2)
      simp [he, this]
  generalize small.variants.zipIdx = l at this
  induction l with
  | nil => rfl
  | cons x l ih =>
    rw [List.flatMap_cons, List.flatMap_cons, this x (by simp), ih fun y hy => this y (by simp [hy])]

/-! ## The parsers -/

variable [Env]

/-- The state of the enum with all variants. -/
def upState (up : EnumVal V → EnumVal V) (acc : Acc (EnumSt V)) : Acc (EnumSt V) :=
  ⟨⟨acc.val.key, acc.val.value.map up, acc.val.paths⟩, acc.errs⟩

omit [Env] in
theorem map_isSome (x : FieldStatus (EnumVal V)) : (x.map up).isSome = x.isSome := by cases x <;> rfl

omit [Env] in
theorem map_isNone (x : FieldStatus (EnumVal V)) : (x.map up).isNone = x.isNone := by cases x <;> rfl

theorem step (h : SkippedRemoved big small up) (site : Site V) (pre p : Str) (sp : Span) (acc : Acc (EnumSt V))
    (s : Stream) :
    enumStep big site pre p sp (upState up acc, s) = onState (upState up) (enumStep small site pre p sp (acc, s)) := by
  have hsel : ((stripPrefix pre p).bind fun k => (Deluxe.findVariant big.variants k).map fun x => (k, x)) =
      ((stripPrefix pre p).bind fun k => (Deluxe.findVariant small.variants k).map fun x => (k, x)).map
        fun x => (x.1, (x.2.1, h.at_ x.2.2)) := by
    cases stripPrefix pre p with
    | none => rfl
    | some k =>
      simp only [Option.bind_some, h.findVariant, Option.map_map]
      rfl
  simp only [enumStep, hsel, h.anyFlat]
  cases hc : ((stripPrefix pre p).bind fun k => (Deluxe.findVariant small.variants k).map fun x => (k, x)) with
  | none => rfl
  | some x =>
    obtain ⟨k, v, i⟩ := x
    have hi : small.variants[i]? = some v := by
      obtain ⟨k', _, hk⟩ := Option.bind_eq_some_iff.1 hc
      obtain ⟨z, hz, hz'⟩ := Option.map_eq_some_iff.1 hk
      have := List.mem_of_find?_eq_some hz
      rw [(Prod.mk.inj hz').2] at this
      exact List.mem_zipIdx_iff_getElem?.1 this
    simp only [Option.map_some]
    generalize v.item site pre p sp s = r
    obtain ⟨r, s'⟩ := r
    cases r with
    | panic => rfl
    | err x =>
      simp only [onState, upState, map_isNone]
      cases acc.val.value.isNone <;> rfl
    | ok x =>
      simp only [onState, upState, map_isSome]
      cases v.isTransparent && acc.val.value.isSome with
      | true => rfl
      | false => simp only [Bool.false_eq_true, if_false, FieldStatus.map, h.pos i v x hi]

/-- The outcome of picking a variant in the enum with all variants. -/
def upPicked (up : EnumVal V → EnumVal V) (r : Picked V × List Stream) : Picked V × List Stream :=
  (r.1.map fun x => (x.1.map up, x.2), r.2)

theorem validate (h : SkippedRemoved big small up) (b : Bool) (errs : Errors) (l : List Stream) :
    validatePass big b errs l = validatePass small b errs l := by
  simp only [validatePass, h.unknownOk, h.fieldNames]

theorem block (h : SkippedRemoved big small up) (site : Site V) (pre : Str) (sp : Span) (paths : PathMap)
    {v : Variant V} {i : Nat} (hi : small.variants[i]? = some v) (empty : Bool) (errs : Errors) (l : List Stream) :
    flatBlock big site pre sp paths v (h.at_ i) empty errs l =
      upPicked up (flatBlock small site pre sp paths v i empty errs l) := by
  simp only [flatBlock, emptyCheck, h.keyMsgs, h.unknownOk, h.otherSome (List.getElem?_eq_some_iff.1 hi).1]
  generalize (if (empty && !v.allowUnknown.getD false && !v.acceptsAll) = true then _ else Res.ok errs) = c
  cases c with
  | err => rfl
  | panic => rfl
  | ok errs =>
    simp only
    generalize namedFlat _ _ _ _ _ l = r
    obtain ⟨r, l1⟩ := r
    cases r with
    | ok x => simp only [upPicked, Res.map, FieldStatus.map, h.pos i v x hi]
    | err => rfl
    | panic => rfl

theorem pickFlat (h : SkippedRemoved big small up) (site : Site V) (pre : Str) (sp : Span) (b : Bool)
    (paths : PathMap) (errs : Errors) (l : List Stream) :
    Deluxe.pickFlat big site pre sp b paths errs l = upPicked up (Deluxe.pickFlat small site pre sp b paths errs l) := by
  unfold Deluxe.pickFlat
  rw [h.flatMatches, List.find?_map, List.find?_map]
  have e1 : ((fun x : VKey × Variant V × Nat => !x.1.isEmpty && hasPaths paths x.1) ∘
      fun x : VKey × Variant V × Nat => (x.1, (x.2.1, h.at_ x.2.2))) = fun x => !x.1.isEmpty && hasPaths paths x.1 := rfl
  have e2 : ((fun x : VKey × Variant V × Nat => x.1.isEmpty) ∘
      fun x : VKey × Variant V × Nat => (x.1, (x.2.1, h.at_ x.2.2))) = fun x => x.1.isEmpty := rfl
  rw [e1, e2]
  cases hf : small.flatMatches.find? fun x => !x.1.isEmpty && hasPaths paths x.1 with
  | some x =>
    obtain ⟨k, v, i⟩ := x
    exact h.block site pre sp paths (mem_flatMatches (List.mem_of_find?_eq_some hf)).2.1 false errs l
  | none =>
    simp only [Option.map_none]
    cases hf : small.flatMatches.find? fun x => x.1.isEmpty with
    | some x =>
      obtain ⟨k, v, i⟩ := x
      exact h.block site pre sp paths (mem_flatMatches (List.mem_of_find?_eq_some hf)).2.1 true errs l
    | none =>
      simp only [Option.map_none, h.default, h.validate, h.keyMsgs]
      cases small.default with
      | some x => rfl
      | none =>
        simp only [Option.map_none]
        generalize validatePass small b errs l = r
        obtain ⟨r, l1⟩ := r
        cases r <;> rfl

theorem pick (h : SkippedRemoved big small up) (site : Site V) (pre : Str) (sp : Span) (b : Bool)
    (key : Option Str) (value : FieldStatus (EnumVal V)) (paths : PathMap) (errs : Errors) (l : List Stream) :
    Deluxe.pick big site pre sp b ⟨key, value.map up, paths⟩ errs l =
      upPicked up (Deluxe.pick small site pre sp b ⟨key, value, paths⟩ errs l) := by
  cases value with
  | parseError => rfl
  | none => exact h.pickFlat site pre sp b paths errs l
  | some x =>
    cases key with
    | none => rfl
    | some key =>
      simp only [Deluxe.pick, FieldStatus.map, h.anyFlat, h.unknownOk, h.otherNone, h.validate]
      generalize validatePass small b _ l = r
      obtain ⟨r, l1⟩ := r
      cases r <;> rfl

omit [Env] in
theorem thens (h : SkippedRemoved big small up) (x : Option (EnumVal V)) (errs : Errors) :
    enumAndThens big.andThens (x.map up) errs =
      ((enumAndThens small.andThens x errs).1.map up, (enumAndThens small.andThens x errs).2) := by
  have hl := h.andLength
  have ha := h.andThens
  unfold enumAndThens
  generalize big.andThens = fs' at hl ha
  generalize small.andThens = fs at hl ha
  clear h
  induction fs generalizing fs' x errs with
  | nil =>
    cases fs' with
    | nil => rfl
    | cons => cases hl
  | cons f fs ih =>
    cases fs' with
    | nil => cases hl
    | cons f' fs' =>
      have ih := fun x errs => ih x errs fs' (Nat.succ.inj hl) fun i => ha (i + 1)
      simp only [List.foldl_cons]
      cases x with
      | none => exact ih none errs
      | some x =>
        have := ha 0 f f' rfl rfl x
        simp only [Option.map_some, this]
        cases f x with
        | ok v => exact ih (some v) errs
        | error e => exact ih none _

theorem flat (h : SkippedRemoved big small up) (site : Site V) (mode : Mode) (pre : Str) (b : Bool) :
    enumFlat big site mode pre b = (enumFlat small site mode pre b).map up := by
  funext l
  have hrun := fun l' => parseStruct_state (g := upState up) (h.step site pre) l' ⟨⟨none, .none, []⟩, Errors.new⟩
  have h0 : upState up ⟨⟨none, .none, []⟩, Errors.new⟩ = ⟨⟨none, .none, []⟩, Errors.new⟩ := rfl
  rw [h0] at hrun
  simp only [enumFlat, M.map, hrun, h.anyFlat, h.unknownOk]
  generalize parseStruct (enumStep small site pre) _ = a
  obtain ⟨r, acc, l1⟩ := a
  obtain ⟨⟨key, value, paths⟩, errs⟩ := acc
  cases r with
  | panic => rfl
  | err x =>
    simp only [onState, upState, h.pick]
    generalize Deluxe.pick small _ _ _ _ _ _ _ = c
    obtain ⟨c, l2⟩ := c
    cases c with
    | err => rfl
    | panic => rfl
    | ok y =>
      obtain ⟨y, errs⟩ := y
      have hy : (y.map up).intoOption = y.intoOption.map up := by cases y <;> rfl
      simp only [upPicked, Res.map, hy, h.thens]
      generalize enumAndThens small.andThens y.intoOption errs = d
      obtain ⟨d, errs⟩ := d
      simp only
      cases errs.check with
      | ok => cases d <;> rfl
      | err => rfl
      | panic => rfl
  | ok x =>
    simp only [onState, upState, h.pick]
    generalize Deluxe.pick small _ _ _ _ _ _ _ = c
    obtain ⟨c, l2⟩ := c
    cases c with
    | err => rfl
    | panic => rfl
    | ok y =>
      obtain ⟨y, errs⟩ := y
      have hy : (y.map up).intoOption = y.intoOption.map up := by cases y <;> rfl
      simp only [upPicked, Res.map, hy, h.thens]
      generalize enumAndThens small.andThens y.intoOption errs = d
      obtain ⟨d, errs⟩ := d
      simp only
      cases errs.check with
      | ok => cases d <;> rfl
      | err => rfl
      | panic => rfl

end SkippedRemoved

/-! ## Values renamed in the helpers -/

section
variable {α β : Type}

theorem single_map (f : α → β) (m : M (List Stream) α) : single (m.map f) = (single m).map f := rfl

theorem delimited_map (f : α → β) (dl : Delim) (m : M Stream α) :
    parseDelimitedWith dl (m.map f) = (parseDelimitedWith dl m).map f := by
  funext s
  simp only [parseDelimitedWith, withContent, M.map]
  cases enter dl s with
  | error e => rfl
  | ok x =>
    obtain ⟨c, s'⟩ := x
    simp only [Bind.bind, M.bind]
    have hm : m.map f c = ((m c).1.map f, (m c).2) := rfl
    rw [hm]
    generalize m c = a
    obtain ⟨a, c1⟩ := a
    cases a with
    | err => rfl
    | panic => rfl
    | ok a =>
      simp only [Res.map]
      generalize parseEof c1 = b
      obtain ⟨b, c2⟩ := b
      cases b <;> rfl

theorem empty_map (f : α → β) (sp : Span) (m : M Stream α) :
    parseEmpty sp (m.map f) = (parseEmpty sp m).map f := by
  simp only [parseEmpty, parse2, M.map]
  generalize m _ = a
  obtain ⟨a, s⟩ := a
  cases a with
  | err => rfl
  | panic => rfl
  | ok a =>
    simp only [Res.map]
    obtain ⟨ts, sc, u⟩ := s
    cases u with
    | some => rfl
    | none => cases ts <;> rfl

theorem namedMeta_map (f : α → β) (parse : Mode → M Stream α) (inline : Mode → M (List Stream) α) (flag : Span → Res α)
    (sp : Span) :
    parseNamedMetaItem (fun m => (parse m).map f) (fun m => (inline m).map f) (fun x => (flag x).map f) sp =
      (parseNamedMetaItem parse inline flag sp).map f := by
  funext s
  simp only [parseNamedMetaItem, M.map]
  split
  · simp only [Bind.bind, M.bind]
    generalize parsePunct '=' s = a
    obtain ⟨a, s1⟩ := a
    cases a with
    | err => rfl
    | panic => rfl
    | ok =>
      simp only [M.map]
  · split
    · simp only [parseDelimitedMetaItem, single_map, delimited_map, M.map]
    · rfl

theorem dict_map (f : α → β) (parse : Mode → M Stream α) (inline : Mode → M (List Stream) α) (flag : Span → Res α)
    (missing : Str → Span → Res α) :
    Dict.mk' (fun m => (parse m).map f) (fun m => (inline m).map f) (fun x => (flag x).map f)
      (fun n x => (missing n x).map f) = (Dict.mk' parse inline flag missing).map f := by
  simp only [Dict.mk', Dict.map, namedMeta_map]

end

/-! ## The theorems -/

variable [Env] {big small : EnumDef V} {up : EnumVal V → EnumVal V}

/-- C99: an enum with skipped variants, none of them flattened, is parsed as the one without them, with the same
values, the same messages, and the same tokens left: as the value of a field.  The full claim would be for all skipped
variants; it is violated by flattened ones, see `c99_flatten_violated`. -/
theorem c99_item_partial (h : SkippedRemoved big small up) : big.dict = small.dict.map up := by
  have hi : ∀ mode b, big.flatNamed.parse mode [] b = (small.flatNamed.parse mode [] b).map up :=
    fun mode b => h.flat .meta mode [] b
  unfold EnumDef.dict
  dsimp only
  refine Eq.trans ?_ (dict_map up _ _ _ _)
  simp only [show big.flatNamed.acceptsAll = small.flatNamed.acceptsAll from rfl, hi]
  congr 1
  · funext mode s
    simp only [parseDelimitedMetaItem, hi, single_map, delimited_map]
    rfl
  · funext sp
    simp only [parseEmptyMetaItem, single_map, empty_map]
  · funext n sp
    rw [h.default]
    cases small.default <;> rfl

/-- C99: the same for an enum flattened into a structure: it accepts the same names. -/
theorem c99_flat_partial (h : SkippedRemoved big small up) (mode : Mode) (pre : Str) (validate : Bool) (index : Nat) :
    big.flatNamed.fieldNames = small.flatNamed.fieldNames ∧ big.flatNamed.acceptsAll = small.flatNamed.acceptsAll ∧
    big.flatNamed.parse mode pre validate = (small.flatNamed.parse mode pre validate).map up ∧
    big.flatUnnamed.fieldCount = small.flatUnnamed.fieldCount ∧
    big.flatUnnamed.parse mode index = (small.flatUnnamed.parse mode index).map up :=
  ⟨h.fieldNames.symm, rfl, h.flat .meta mode pre validate, rfl, h.flat .meta mode [] true⟩

/-- C99: the same for an enum with an attribute derive. -/
theorem c99_attr_partial (h : SkippedRemoved big small up) (site : Site V) (mode : Mode) :
    big.attrBody site mode = (small.attrBody site mode).map up := by
  unfold EnumDef.attrBody
  rw [h.acceptsAll]
  exact h.flat site mode [] _

/-! ## Definitions -/

/-- The second enum is written as the first one, but without the variants that have `skip`. -/
structure WithoutSkipped (lib : SynLib) (d e : EnumIn) : Prop where
  attrs : e.attrs = d.attrs
  variants : e.variants = d.variants.filter fun v => !(match v.read lib with | .ok x => x.isSkipped | _ => false)

omit [Env] in
theorem enumChecked_sub {vs ws : List VariantDecl} {b : Bool} (hs : ws.Sublist vs) (h : EnumChecked vs b) :
    EnumChecked ws b := by
  refine ⟨h.names.sublist ?_, h.container.sublist hs, fun v hv => h.flatNamed v (hs.subset hv), h.flatKeys.sublist hs,
    fun v hv a w hw => h.flatNames v (hs.subset hv) a w (hs.subset hw), fun hb v hv => h.default hb v (hs.subset hv)⟩
  unfold byNameNames
  clear h
  induction hs with
  | slnil => exact List.Sublist.refl _
  | cons v _ ih => rw [List.flatMap_cons]; exact ih.trans (List.sublist_append_right _ _)
  | cons_cons v _ ih => rw [List.flatMap_cons, List.flatMap_cons]; exact (List.Sublist.refl _).append ih

theorem readVariants_filter {lib : SynLib} {vs : List VariantIn} {ds : List VariantDecl}
    (h : vs.map (VariantIn.read lib) = ds.map .ok) :
    (vs.filter fun v => !(match v.read lib with | .ok x => x.isSkipped | _ => false)).map (VariantIn.read lib) =
      (ds.filter fun v => !v.isSkipped).map .ok := by
  induction vs generalizing ds with
  | nil =>
    cases ds with
    | nil => rfl
    | cons => cases h
  | cons v vs ih =>
    cases ds with
    | nil => cases h
    | cons d ds =>
      simp only [List.map_cons, List.cons.injEq] at h
      rw [List.filter_cons, List.filter_cons, h.1]
      simp only
      split
      · rw [List.map_cons, List.map_cons, h.1, ih h.2]
      · exact ih h.2

theorem enumBody_sub {lib : SynLib} {d e : EnumIn} {r : EnumDecl} {ws : List VariantDecl} {l l' : List Stream}
    (hw : e.variants.map (VariantIn.read lib) = ws.map .ok) (hs : ws.Sublist r.variants)
    (h : enumBody lib d l = (.ok r, l')) : enumBody lib e l = (.ok { r with variants := ws }, l') := by
  have key : ∀ (acc : Acc EnumDefSt) (l : List Stream),
      (match readVariants lib d.variants acc.errs with
      | .ok (errs, vs) => ((enumDone vs acc.val errs).1.intoResult (enumDone vs acc.val errs).2, l)
      | .err e => (.err e, l)
      | .panic => (.panic, l) : Res EnumDecl × List Stream) = (.ok r, l') →
      (match readVariants lib e.variants acc.errs with
      | .ok (errs, vs) => ((enumDone vs acc.val errs).1.intoResult (enumDone vs acc.val errs).2, l)
      | .err e => (.err e, l)
      | .panic => (.panic, l) : Res EnumDecl × List Stream) = (.ok { r with variants := ws }, l') := by
    intro acc l h
    split at h
    · rename_i errs vs hr
      rw [Prod.mk.injEq, Errors.intoResult_ok_iff, enumDone_nil] at h
      obtain ⟨⟨⟨h1, h2⟩, rfl⟩, rfl⟩ := h
      have h0 := (readVariants_ok hr h1).1
      rw [readVariants_ok_of _ hw]
      simp only
      rw [Prod.mk.injEq, Errors.intoResult_ok_iff, enumDone_nil]
      exact ⟨⟨⟨h0, enumChecked_sub hs h2⟩, rfl⟩, rfl⟩
    · simp at h
    · simp at h
  unfold enumBody at h ⊢
  dsimp only at h ⊢
  split at h
  · simp at h
  · exact key _ _ h
  · rename_i e acc l _
    exact key ⟨acc.val, acc.errs.pushSyn e⟩ _ h

/-- C99: if an enum is accepted, it is also accepted without its skipped variants, and read in the same way.  The full
claim would be an equivalence; it is violated, see `c99_names_violated`. -/
theorem c99_accepted_partial {lib : SynLib} {d e : EnumIn} (h : WithoutSkipped lib d e) {r : EnumDecl}
    (hr : d.read lib = .ok r) :
    e.read lib = .ok { r with variants := r.variants.filter fun v => !v.isSkipped } := by
  have hv := (EnumIn.read_ok hr).1
  have hl : ∀ (d : EnumIn) (ps : List (Str × Span)) l, (enumBody lib d l).2.length = l.length :=
    fun d _ l => enumBody_length lib d l
  rw [EnumIn.read, c19_attr_tokens _ _ (hl d)] at hr
  obtain ⟨ss, ss', h1, h2⟩ := hr
  rw [EnumIn.read, c19_attr_tokens _ _ (hl e), h.attrs]
  refine ⟨ss, ss', h1, enumBody_sub ?_ List.filter_sublist h2⟩
  rw [h.variants]
  exact readVariants_filter hv

/-- The meaning of the Rust code in an enum, and in the same enum without the skipped variants: `up` gives back the
variant that was meant. -/
structure SameMeaning (r : EnumDecl) (sem sem' : EnumSem V) (up : EnumVal V → EnumVal V) : Prop where
  field : ∀ j, sem'.field j = sem.field (keptPos r.variants (fun v => !v.isSkipped) j)
  pos : ∀ (j : Nat) xs, j < (r.variants.filter fun v => !v.isSkipped).length →
    up (j, xs) = (keptPos r.variants (fun v => !v.isSkipped) j, xs)
  default : ∀ x, sem.default x = up (sem'.default x)
  andThen : ∀ f x, sem.andThen f (up x) = (sem'.andThen f x).map up

omit [Env] in
theorem keptPos_bools {α : Type} (l : List α) (q : α → Bool) (j : Nat) :
    keptPos l q j = keptPos (l.map q) id j := by
  have : ∀ (l : List α) n, ((l.zipIdx n).filter fun x => q x.1).map (·.2) =
      (((l.map q).zipIdx n).filter fun x => id x.1).map (·.2) := by
    intro l
    induction l with
    | nil => intro n; rfl
    | cons a l ih =>
      intro n
      simp only [List.map_cons, List.zipIdx_cons, List.filter_cons, id]
      split
      · rw [List.map_cons, List.map_cons, ih]; rfl
      · exact ih _
  have := congrArg (·[j]?) (this l 0)
  simp only [List.getElem?_map] at this
  unfold keptPos
  rw [this]

omit [Env] in
theorem toDef_skippedRemoved {r : EnumDecl} {sem sem' : EnumSem V} {up : EnumVal V → EnumVal V}
    (h : SameMeaning r sem sem' up) (hf : ∀ v ∈ r.variants, v.isSkipped = true → v.isFlatten = false) :
    SkippedRemoved (r.toDef sem)
      (({ r with variants := r.variants.filter fun v => !v.isSkipped } : EnumDecl).toDef sem') up := by
  have hs : ∀ (v : VariantDecl) (f : Nat → FieldSem V), (v.toVariant f).isSkipped = v.isSkipped := fun _ _ => rfl
  have hp : ∀ j, keptPos (r.toDef sem).variants (fun v => !v.isSkipped) j =
      keptPos r.variants (fun v => !v.isSkipped) j := by
    intro j
    rw [keptPos_bools, keptPos_bools r.variants]
    congr 1
    simp only [EnumDecl.toDef, List.map_map]
    have : ((fun v : Variant V => !v.isSkipped) ∘ fun x : VariantDecl × Nat => x.1.toVariant (sem.field x.2)) =
      (fun v : VariantDecl => !v.isSkipped) ∘ Prod.fst := rfl
    rw [this, ← List.map_map, List.zipIdx_map_fst]
  constructor
  · simp only [EnumDecl.toDef, List.filter_map]
    have : ((fun v : Variant V => !v.isSkipped) ∘ fun x : VariantDecl × Nat => x.1.toVariant (sem.field x.2)) =
      fun x => !x.1.isSkipped := rfl
    rw [this, zipIdx_filter r.variants fun v => !v.isSkipped, List.map_map]
    apply List.map_congr_left
    intro x _
    simp only [Function.comp, h.field]
  · intro j v xs hj
    rw [hp]
    refine h.pos j xs ?_
    have := (List.getElem?_eq_some_iff.1 hj).1
    simpa [EnumDecl.toDef] using this
  · rfl
  · simp only [EnumDecl.toDef, Option.map_map]
    congr 1
    funext x
    exact h.default x
  · simp only [EnumDecl.toDef, List.length_map]
  · intro i f f' h1 h2 x
    simp only [EnumDecl.toDef, List.getElem?_map] at h1 h2
    obtain ⟨t, ht, rfl⟩ := Option.map_eq_some_iff.1 h1
    rw [ht] at h2
    cases h2
    exact h.andThen t x
  · intro v hv hsk
    simp only [EnumDecl.toDef, List.mem_map] at hv
    obtain ⟨x, hx, rfl⟩ := hv
    exact hf x.1 (List.fst_mem_of_mem_zipIdx hx) hsk

/-- C99, from the definition: an accepted enum whose skipped variants are not flattened, and the enum written without
them, are parsed in the same way. -/
theorem c99_definition_partial {lib : SynLib} {d e : EnumIn} (h : WithoutSkipped lib d e) {r : EnumDecl}
    (hr : d.read lib = .ok r) (hf : ∀ v ∈ r.variants, v.isSkipped = true → v.isFlatten = false) :
    ∃ q, e.read lib = .ok q ∧ ∀ (sem sem' : EnumSem V) up, SameMeaning r sem sem' up →
      (r.toDef sem).dict = (q.toDef sem').dict.map up ∧
      (∀ mode pre b, (r.toDef sem).flatNamed.parse mode pre b = ((q.toDef sem').flatNamed.parse mode pre b).map up) ∧
      (∀ site mode, (r.toDef sem).attrBody site mode = ((q.toDef sem').attrBody site mode).map up) :=
  ⟨_, c99_accepted_partial h hr, fun _ _ _ hm =>
    have hs := toDef_skippedRemoved hm hf
    ⟨c99_item_partial hs, fun mode pre b => (c99_flat_partial hs mode pre b 0).2.2.1, c99_attr_partial hs⟩⟩

end

/-! ## Where it is not so -/

section
variable [Env]

/-- Every field is a `bool`. -/
def boolSem : FieldSem Bool where
  default := fun _ => false
  transform := fun _ => .map id
  item := boolDict
  flatNamed := ⟨false, [], fun _ _ _ => M.panic⟩
  flatUnnamed := ⟨none, fun _ _ => M.panic⟩
  appendP := fun _ => M.panic
  restP := fun _ => M.panic

def boolEnumSem : EnumSem Bool where
  field := fun _ _ => boolSem
  default := fun _ => (0, [])
  andThen := fun _ x => .ok x

/-- `A` -/
def unitIn (n : String) (sp : Span) : VariantIn := ⟨(txt n, sp), sp, .unit, [], []⟩

def unitRead (n : String) (sp : Span) : VariantDecl :=
  ⟨(txt n, sp), sp, .unit, [], [(txt n, sp)], none, none, none, none⟩

/-- `#[deluxe(skip, flatten)] B { x: bool }` -/
def skipFlatIn : VariantIn :=
  ⟨(txt "b", 20), 20, .named, [plainIn "x" 21],
    [deluxeList [.ident (txt "skip") 2, .punct ',' false 3, .ident (txt "flatten") 4]]⟩

def skipFlatRead (sp : Span) : VariantDecl :=
  ⟨(txt "b", 20), 20, .named, [⟨some (txt "x", 21), [(txt "x", 21)], none, none, none, none, none, none, none, []⟩],
    [], some true, none, some ⟨true, sp⟩, none⟩

theorem unitIn_read (sp : Span) : (unitIn "a" sp).read demoLib = .ok (unitRead "a" sp) := rfl

theorem skipFlatIn_read : ∃ sp, skipFlatIn.read demoLib = .ok (skipFlatRead sp) := ⟨_, rfl⟩

/-- `a, x = y` -/
def skipFlatToks : List Tok :=
  [.ident (txt "a") 30, .punct ',' false 31, .ident (txt "x") 32, .punct '=' false 33, .ident (txt "y") 34]

omit [Env] in
theorem meaning_first (v : VariantDecl) (sp : Span) (hv : v.isSkipped = true) (x : EnumDecl)
    (hx : x.variants = [unitRead "a" sp, v]) : SameMeaning x boolEnumSem boolEnumSem id := by
  refine ⟨fun _ => rfl, fun j xs hj => ?_, fun _ => rfl, fun _ _ => rfl⟩
  rw [hx] at hj ⊢
  simp only [List.filter_cons, hv, Bool.not_true, Bool.false_eq_true, if_false, List.filter_nil] at hj
  have : j = 0 := by
    have : j < 1 := hj
    omega
  subst this
  rfl

/-- An enum without attributes of its own. -/
theorem read_bare {lib : SynLib} {vs : List VariantIn} {ds : List VariantDecl}
    (h : vs.map (VariantIn.read lib) = ds.map .ok) (hc : EnumChecked ds false) :
    EnumIn.read lib ⟨vs, []⟩ = .ok ⟨ds, none, none, [], [], none⟩ :=
  (c68_enum (d := ⟨vs, []⟩) (bs := []) .nil .nil _).2 ⟨ds, h, List.nodup_nil, (variantsOk_iff _ _).2 hc, rfl⟩

omit [Env] in
theorem skipFlat_checked (sp : Span) : EnumChecked [unitRead "a" 9, skipFlatRead sp] false := by
  refine ⟨?_, ?_, ?_, ?_, ?_, by simp⟩
  · show [txt "a"].Nodup
    decide
  · simp [unitRead, VariantDecl.container]
  · simp [unitRead, skipFlatRead, VariantDecl.isFlatten]
  · simp [unitRead, skipFlatRead, VariantDecl.isFlatten]
  · have : (skipFlatRead sp).fieldKey ≠ [btSet cmpStr ((unitRead "a" 9).idents.map (·.1))] := by
      show ([[txt "x"]] : VKey) ≠ [[txt "a"]]
      decide
    simp only [List.mem_cons, List.not_mem_nil, or_false]
    rintro v (rfl | rfl) hv w (rfl | rfl) hw
    · cases hv
    · cases hv
    · exact this
    · cases hw

theorem skipFlat_accepts (sp : Span) : ((EnumDecl.toDef boolEnumSem ⟨[unitRead "a" 9, skipFlatRead sp], none, none,
    [], [], none⟩).dict.inline (.named 0) [⟨skipFlatToks, 35, none⟩]).1 = .ok (0, []) := rfl

theorem skipFlat_rejects : ∃ e, ((EnumDecl.toDef boolEnumSem ⟨[unitRead "a" 9], none, none,
    [], [], none⟩).dict.inline (.named 0) [⟨skipFlatToks, 35, none⟩]).1 = .err e := ⟨_, rfl⟩

/-- C99 is violated by flattened variants: `enum E { A, #[deluxe(skip, flatten)] B { x: bool } }` and `enum E { A }` are
both accepted, but only the second one rejects the unknown field in `a, x = y`.  The names of the fields of a skipped
flattened variant still count as known. -/
theorem c99_flatten_violated : WithoutSkipped demoLib ⟨[unitIn "a" 9, skipFlatIn], []⟩ ⟨[unitIn "a" 9], []⟩ ∧
    ∃ r q, EnumIn.read demoLib ⟨[unitIn "a" 9, skipFlatIn], []⟩ = .ok r ∧
      EnumIn.read demoLib ⟨[unitIn "a" 9], []⟩ = .ok q ∧
      SameMeaning r boolEnumSem boolEnumSem id ∧
      ((r.toDef boolEnumSem).dict.inline (.named 0) [⟨skipFlatToks, 35, none⟩]).1 = .ok (0, []) ∧
      ∃ e, ((q.toDef boolEnumSem).dict.inline (.named 0) [⟨skipFlatToks, 35, none⟩]).1 = .err e := by
  obtain ⟨sp, hr⟩ := skipFlatIn_read
  have hw : WithoutSkipped demoLib ⟨[unitIn "a" 9, skipFlatIn], []⟩ ⟨[unitIn "a" 9], []⟩ := by
    refine ⟨rfl, ?_⟩
    simp only [List.filter_cons, unitIn_read, hr]
    rfl
  have h1 := read_bare (lib := demoLib) (vs := [unitIn "a" 9, skipFlatIn]) (ds := [unitRead "a" 9, skipFlatRead sp])
    (by simp [unitIn_read, hr]) (skipFlat_checked sp)
  exact ⟨hw, _, _, h1, c99_accepted_partial hw h1, meaning_first (skipFlatRead sp) 9 rfl _ rfl, skipFlat_accepts sp,
    skipFlat_rejects⟩

/-- `#[deluxe(skip, rename = a)] B` -/
def skipNamedIn : VariantIn :=
  ⟨(txt "b", 20), 20, .unit, [], [deluxeList [.ident (txt "skip") 2, .punct ',' false 3, .ident (txt "rename") 4,
    .punct '=' false 5, .ident (txt "a") 6]]⟩

/-- `#[deluxe(skip)] B` -/
def skipIn : VariantIn := ⟨(txt "b", 20), 20, .unit, [], [deluxeList [.ident (txt "skip") 2]]⟩

def skipRead (n : String) (nsp sp : Span) : VariantDecl :=
  ⟨(txt "b", 20), 20, .unit, [], [(txt n, nsp)], none, none, some ⟨true, sp⟩, none⟩

theorem skipNamedIn_read : ∃ sp, skipNamedIn.read demoLib = .ok (skipRead "a" 6 sp) := ⟨_, rfl⟩

theorem skipIn_read : ∃ sp, skipIn.read demoLib = .ok (skipRead "b" 20 sp) := ⟨_, rfl⟩

omit [Env] in
theorem unit_checked : EnumChecked [unitRead "a" 9] false := by
  refine ⟨by decide, ?_, ?_, ?_, ?_, by simp⟩ <;> simp [unitRead, VariantDecl.isFlatten]

/-- C99 is violated by the check of the names: `enum E { A, #[deluxe(skip, rename = a)] B }` is rejected, because two
variants have the name `a`, although nobody can write the second one; `enum E { A }` is accepted. -/
theorem c99_names_violated : WithoutSkipped demoLib ⟨[unitIn "a" 9, skipNamedIn], []⟩ ⟨[unitIn "a" 9], []⟩ ∧
    (∃ q, EnumIn.read demoLib ⟨[unitIn "a" 9], []⟩ = .ok q) ∧
    ∀ r, EnumIn.read demoLib ⟨[unitIn "a" 9, skipNamedIn], []⟩ ≠ .ok r := by
  obtain ⟨sp, hr⟩ := skipNamedIn_read
  refine ⟨⟨rfl, ?_⟩, ⟨_, read_bare (vs := [unitIn "a" 9]) (ds := [unitRead "a" 9]) (by simp [unitIn_read]) unit_checked⟩,
    fun r h => ?_⟩
  · simp only [List.filter_cons, unitIn_read, hr]
    rfl
  · obtain ⟨h1, h2⟩ := EnumIn.read_ok h
    have h3 : r.variants = [unitRead "a" 9, skipRead "a" 6 sp] := by
      simp only [List.map_cons, List.map_nil, unitIn_read, hr] at h1
      match hv : r.variants, h1 with
      | [x, y], h1 =>
        simp only [List.map_cons, List.map_nil, List.cons.injEq, Res.ok.injEq, and_true] at h1
        rw [← h1.1, ← h1.2]
    have h4 := h2.names
    rw [h3] at h4
    have h5 : ([txt "a", txt "a"] : List Str).Nodup := h4
    revert h5
    decide

/-- C99: the theorems apply to `enum E { A, #[deluxe(skip)] B }`, which is accepted. -/
example : ∃ r, WithoutSkipped demoLib ⟨[unitIn "a" 9, skipIn], []⟩ ⟨[unitIn "a" 9], []⟩ ∧
    EnumIn.read demoLib ⟨[unitIn "a" 9, skipIn], []⟩ = .ok r ∧
    (∀ v ∈ r.variants, v.isSkipped = true → v.isFlatten = false) ∧ SameMeaning r boolEnumSem boolEnumSem id := by
  obtain ⟨sp, hr⟩ := skipIn_read
  refine ⟨_, ⟨rfl, ?_⟩, read_bare (vs := [unitIn "a" 9, skipIn]) (ds := [unitRead "a" 9, skipRead "b" 20 sp])
    (by simp [unitIn_read, hr]) ?_, ?_, meaning_first (skipRead "b" 20 sp) 9 rfl _ rfl⟩
  · simp only [List.filter_cons, unitIn_read, hr]
    rfl
  · refine ⟨?_, ?_, ?_, ?_, ?_, by simp⟩
    · show [txt "a", txt "b"].Nodup
      decide
    all_goals simp [unitRead, skipRead, VariantDecl.isFlatten, VariantDecl.container]
  · simp [unitRead, skipRead, VariantDecl.isFlatten]

/-- C99: and the result is not the identity: with the skipped variant in front, positions move. -/
example : keptPos [skipRead "b" 20 1, unitRead "a" 9] (fun v => !v.isSkipped) 0 = 1 := rfl

end

end Deluxe
