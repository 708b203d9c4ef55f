import Verif.Lemmas.Derive
import Verif.Props.Collections
/-!
# Derived structures with named fields: outcome and messages
-/
namespace Deluxe

variable {V : Type}

theorem unwrapAll_some (vs : List V) : unwrapAll (vs.map .some) = .ok vs := by
  induction vs with
  | nil => rfl
  | cons v vs ih => simp [unwrapAll, FieldStatus.unwrap, ih, Res.map]

/-- The outcome of the end of the parser. -/
theorem finish_eq (d : Fields V) (slots : Slots V) (errs : Errors) :
    (errs.toList ≠ [] → FailsWith (finish d slots errs) errs.toList) ∧
      (errs.toList = [] → finish d slots errs = match d.target with
        | none => unwrapAll slots
        | some t => .ok (List.zipWith (fun st v => st.unwrapOr v) slots t)) := by
  rcases errs with ⟨_ | e⟩
  · simp [Errors.toList, finish, Errors.check, Errors.intoResult]
    rfl
  · simp [Errors.toList, finish, Errors.check, Errors.intoResult, FailsWith, SynErr.toList]

theorem itemMsgs_eq_nil [Env] (check : Bool) (allowed : List Str) (bs : List (SItem V)) :
    ∀ seen, itemMsgs check allowed seen bs = [] ↔
      ItemsOk check allowed bs ∧ ∀ i ∈ owners bs, i ∉ seen := by
  induction bs with
  | nil => intro seen; simp [itemMsgs, owners]; exact ⟨by simp [owners], by simp, by simp⟩
  | cons b bs ih =>
    intro seen
    cases b with
    | other key sp =>
      simp only [itemMsgs, List.append_eq_nil_iff, ih, owners]
      have hu : unknownMsgs check allowed key sp = [] ↔ (check = true → key ∈ allowed) := by
        simp only [unknownMsgs]
        split
        · rename_i h; simp [SynErr.toList, h.1, h.2]
        · rename_i h; simp only [true_iff]; intro hc; exact Classical.byContradiction fun hk => h ⟨hc, hk⟩
      rw [hu]
      constructor
      · rintro ⟨h1, ⟨h2, h3, h4⟩, h5⟩
        refine ⟨⟨h2, fun i n s x hx => h3 i n s x (by simpa using hx), ?_⟩, h5⟩
        intro k s hk hc
        simp only [List.mem_cons, SItem.other.injEq] at hk
        rcases hk with ⟨rfl, _⟩ | hk
        · exact h1 hc
        · exact h4 k s hk hc
      · rintro ⟨⟨h2, h3, h4⟩, h5⟩
        exact ⟨h4 key sp (by simp), ⟨h2, fun i n s x hx => h3 i n s x (by simp [hx]),
          fun k s hk => h4 k s (by simp [hk])⟩, h5⟩
    | field i name sp x =>
      simp only [itemMsgs, List.append_eq_nil_iff, ih, owners]
      constructor
      · rintro ⟨⟨h0, h1⟩, ⟨h2, h3, h4⟩, h5⟩
        have hi : i ∉ seen := by
          intro hi; simp [hi] at h0
        have hx : ∃ v, x = .ok v := by
          cases x with
          | ok v => exact ⟨v, rfl⟩
          | error e => simp [SynErr.toList] at h1
        refine ⟨⟨?_, ?_, fun k s hk => h4 k s (by simpa using hk)⟩, ?_⟩
        · rw [owners, List.nodup_cons]
          exact ⟨fun hm => h5 i hm (by simp), h2⟩
        · intro j n s y hy
          simp only [List.mem_cons, SItem.field.injEq] at hy
          rcases hy with ⟨_, _, _, rfl⟩ | hy
          · exact hx
          · exact h3 j n s y hy
        · intro j hj
          rcases List.mem_cons.1 hj with rfl | hj
          · exact hi
          · exact fun hs => h5 j hj (by simp [hs])
      · rintro ⟨⟨h2, h3, h4⟩, h5⟩
        rw [owners, List.nodup_cons] at h2
        obtain ⟨v, rfl⟩ := h3 i name sp x (by simp)
        refine ⟨⟨by simp [h5 i (by simp)], rfl⟩, ⟨h2.2,
          fun j n s y hy => h3 j n s y (by simp [hy]), fun k s hk => h4 k s (by simp [hk])⟩, ?_⟩
        intro j hj hs
        rcases List.mem_cons.1 hs with rfl | hs
        · exact h2.1 hj
        · exact h5 j (by simp [hj]) hs

/-- The items with an owner belong to plain fields. -/
def Owned (fields : List (Field V)) (bs : List (SItem V)) : Prop :=
  ∀ i name sp x, .field i name sp x ∈ bs → ∃ f, fields[i]? = some f ∧ f.Plain

theorem given_mem {i : Nat} {bs : List (SItem V)} {x} (h : given i bs = some x) :
    ∃ name sp, .field i name sp x ∈ bs := by
  induction bs with
  | nil => simp [given] at h
  | cons b bs ih =>
    cases b with
    | other key sp =>
      obtain ⟨n, s, hm⟩ := ih h
      exact ⟨n, s, by simp [hm]⟩
    | field j name sp y =>
      simp only [given] at h
      split at h
      · rename_i hj
        simp only [Option.some.injEq] at h
        subst hj h
        exact ⟨name, sp, by simp⟩
      · obtain ⟨n, s, hm⟩ := ih h
        exact ⟨n, s, by simp [hm]⟩

theorem Owned.plain {fields : List (Field V)} {bs} (h : Owned fields bs) {i f}
    (hf : fields[i]? = some f) (hp : ¬ f.Plain) : given i bs = none := by
  cases hg : given i bs with
  | none => rfl
  | some x =>
    obtain ⟨n, s, hm⟩ := given_mem hg
    obtain ⟨g, h1, h2⟩ := h _ _ _ _ hm
    rw [hf] at h1
    cases h1
    exact absurd h2 hp

theorem flatOuts_get (pre : Str) (span : Span) (allowed : List Str) (l : List Stream)
    (fs : List (Field V)) (i : Nat) (f : Field V) (h : fs[i]? = some f) :
    (flatOuts pre span allowed l fs)[i]? =
      some (if f.flatParsable then some (flatOut fs pre span allowed l f i) else none) := by
  induction fs generalizing i with
  | nil => simp at h
  | cons g fs ih =>
    cases i with
    | zero => simp at h; subst h; simp [flatOuts, flatOut]
    | succ i => simp only [List.getElem?_cons_succ] at h; simp [flatOuts, flatOut, ih i h]

theorem flatOuts_length (pre : Str) (span : Span) (allowed : List Str) (l : List Stream)
    (fs : List (Field V)) : (flatOuts pre span allowed l fs).length = fs.length := by
  induction fs with
  | nil => rfl
  | cons f fs ih => simp [flatOuts, ih]

section
variable (d : Fields V) (f : Field V) (g : Option (Except SynErr V)) (fl ms : Res V)

/-- The flat result of a field. -/
def outOf : Option (Res V) :=
  if f.flatParsable then some fl else none

/-- The slot of a field before the pass over the missing fields. -/
def slot1 : FieldStatus V :=
  flatSlot (slotOf g) (outOf f fl)

/-- The slot of a field before defaults and transforms. -/
def slot2 : FieldStatus V :=
  (missOut d ms f (slot1 f g fl)).1

/-- The slot of a field at the end. -/
def slot3 : FieldStatus V :=
  (setOut f (slot2 d f g fl ms)).1

end

section
variable (d : Fields V) {f : Field V} {g : Option (Except SynErr V)} {fl ms : Res V}

theorem plain_not_container {f : Field V} (h : f.isParsable = true) : f.isContainer = false := by
  simp only [Field.isParsable, Bool.and_eq_true, Bool.not_eq_true'] at h
  exact h.1

theorem flatParsable_iff (f : Field V) :
    f.flatParsable = true ↔ f.isFlat = true ∧ f.isParsable = true := by
  simp [Field.flatParsable]

theorem containerSet_parsable {f : Field V} (h : f.isParsable = true) (st : FieldStatus V) :
    containerSet d f st = st := by
  simp only [containerSet]
  split
  · simp [plain_not_container h]
  · rfl

/-- If nothing was reported about a field, its value comes from somewhere. -/
theorem base_exists (ha : Accepted d) (ht : d.transparent = false) (ho : ¬ f.Plain → g = none) (hf : f ∈ d.fields)
    (hfl : f.flatParsable = true → fl ≠ .panic)
    (hm : ms ≠ .panic)
    (hg : ∀ e, g ≠ some (.error e))
    (h1 : flatMsg (outOf f fl) = [])
    (h2 : (missOut d ms f (slot1 f g fl)).2 = []) :
    ∃ o, Source d f g fl ms o ∧
      withDefault f (slot2 d f g fl ms) = FieldStatus.ofOption o := by
  by_cases hp : f.isParsable = true
  · have hc := plain_not_container hp
    by_cases hfp : f.isFlat = true
    · have hpp := (flatParsable_iff f).2 ⟨hfp, hp⟩
      have hne := hfl hpp
      simp only [outOf, hpp, if_true] at h1
      cases hx : fl with
      | panic => exact absurd hx hne
      | err e =>
        try rw [← hx]
        rw [hx] at h1; simp [flatMsg, SynErr.toList] at h1
      | ok v =>
        try rw [← hx]
        refine ⟨some v, .flat hpp hx, ?_⟩
        have : slot2 d f g fl ms = .some v := by
          simp [slot2, slot1, outOf, hpp, hx, flatSlot, missOut, containerSet_parsable d hp, hc, hfp,
            ht]
        rw [this, withDefault]
        cases f.default <;> rfl
    · have hfp' : f.isFlat = false := by simpa using hfp
      have hnp : f.flatParsable = false := by simp [Field.flatParsable, hfp']
      have hs1 : ∀ g, slot1 f g fl = slotOf g := by
        intro g; simp [slot1, outOf, hnp, flatSlot]
      rw [hs1] at h2
      cases hgi : g with
      | some x =>
        try rw [← hgi]
        cases x with
        | error e => exact absurd hgi (hg e)
        | ok v =>
          refine ⟨some v, .item ⟨hfp', hp⟩ hgi, ?_⟩
          have : slot2 d f g fl ms = .some v := by
            simp [slot2, hs1, hgi, slotOf, missOut, containerSet_parsable d hp, hc, ht,
              FieldStatus.isNone]
          rw [this, withDefault]
          cases f.default <;> rfl
      | none =>
        try rw [← hgi]
        cases hd : f.default with
        | some v =>
          refine ⟨some v, .default (.inl ⟨⟨hfp', hp⟩, hgi⟩) hd, ?_⟩
          have : slot2 d f g fl ms = .none := by
            simp [slot2, hs1, hgi, slotOf, missOut, containerSet_parsable d hp, hc, ht, hd]
          rw [this, withDefault, hd]; rfl
        | none =>
          cases htg : d.target with
          | some t =>
            refine ⟨none, .target (.inl ⟨⟨hfp', hp⟩, hgi⟩) hd htg, ?_⟩
            have : slot2 d f g fl ms = .none := by
              simp [slot2, hs1, hgi, slotOf, missOut, containerSet_parsable d hp, hc, ht, htg]
            rw [this, withDefault, hd]; rfl
          | none =>
            simp only [hgi, slotOf, missOut, containerSet_parsable d hp, hc, ht, hd, htg, hfp',
              FieldStatus.isNone] at h2
            cases hx : ms with
            | panic => exact absurd hx hm
            | err e =>
              try rw [← hx]
              simp [hx, SynErr.toList] at h2
            | ok v =>
              try rw [← hx]
              refine ⟨some v, .missing ⟨hfp', hp⟩ hgi hd htg hx, ?_⟩
              have : slot2 d f g fl ms = .some v := by
                simp [slot2, hs1, hgi, slotOf, missOut, containerSet_parsable d hp, hc, ht, hd, htg,
                  hfp', FieldStatus.isNone, hx]
              rw [this, withDefault, hd]; rfl
  · have hp' : f.isParsable = false := by simpa using hp
    have hgi : g = none := ho (fun h => hp h.2)
    have hnp : f.flatParsable = false := by simp [Field.flatParsable, hp']
    have hs1 : slot1 f g fl = .none := by
      simp [slot1, outOf, hnp, flatSlot, hgi, slotOf]
    by_cases hco : f.isContainer = true ∧ d.obj.isSome = true
    · obtain ⟨v, hv⟩ := Option.isSome_iff_exists.1 hco.2
      refine ⟨some v, .container hco.1 hv, ?_⟩
      have : slot2 d f g fl ms = .some v := by
        simp [slot2, missOut, containerSet, hv, hco.1]
      rw [this, withDefault]
      cases f.default <;> rfl
    · have hcs : containerSet d f .none = .none := by
        simp only [containerSet]
        split
        · rename_i v hv
          have : f.isContainer = false := by
            cases hc : f.isContainer with
            | false => rfl
            | true => exact absurd ⟨hc, by simp [hv]⟩ hco
          simp [this]
        · rfl
      have hfill := ha.filled f hf hp'
      have hs2 : slot2 d f g fl ms = .none := by
        simp only [slot2, hs1, missOut, hcs]
        split
        · rfl
        · rcases hfill with h | h | h
          · obtain ⟨v, hv⟩ := Option.isSome_iff_exists.1 h
            simp [hv]
          · obtain ⟨v, hv⟩ := Option.isSome_iff_exists.1 h
            simp [hv]
          · exact absurd h hco
      cases hd : f.default with
      | some v => exact ⟨some v, .default (.inr ⟨hp', hco⟩) hd, by rw [hs2, withDefault, hd]; rfl⟩
      | none =>
        rcases hfill with h | h | h
        · simp [hd] at h
        · obtain ⟨t, ht'⟩ := Option.isSome_iff_exists.1 h
          exact ⟨none, .target (.inr ⟨hp', hco⟩) hd ht', by rw [hs2, withDefault, hd]; rfl⟩
        · exact absurd h hco

/-- A field whose value comes from somewhere has no message before its transforms. -/
theorem base_slot (ht : d.transparent = false) (ho : ¬ f.Plain → g = none) {o}
    (hb : Source d f g fl ms o) :
    flatMsg (outOf f fl) = [] ∧
      (missOut d ms f (slot1 f g fl)).2 = [] ∧
      withDefault f (slot2 d f g fl ms) = FieldStatus.ofOption o := by
  have hwd : ∀ v, withDefault f (.some v) = .some v := by
    intro v; rw [withDefault]; cases f.default <;> rfl
  have notgiven : NotGiven d f g →
      flatMsg (outOf f fl) = [] ∧
        slot1 f g fl = .none ∧ containerSet d f .none = .none := by
    rintro (⟨hp, hgi⟩ | ⟨hp, hco⟩)
    · have hnp : f.flatParsable = false := by simp [Field.flatParsable, hp.1]
      exact ⟨by simp [outOf, hnp, flatMsg], by simp [slot1, outOf, hnp, flatSlot, hgi, slotOf],
        containerSet_parsable d hp.2 _⟩
    · have hnp : f.flatParsable = false := by simp [Field.flatParsable, hp]
      have hgi : g = none := ho (fun h => by rw [h.2] at hp; cases hp)
      refine ⟨by simp [outOf, hnp, flatMsg], by simp [slot1, outOf, hnp, flatSlot, hgi, slotOf], ?_⟩
      simp only [containerSet]
      split
      · rename_i v hv
        have : f.isContainer = false := by
          cases hc : f.isContainer with
          | false => rfl
          | true => exact absurd ⟨hc, by simp [hv]⟩ hco
        simp [this]
      · rfl
  cases hb with
  | @item v hp hgi =>
    have hnp : f.flatParsable = false := by simp [Field.flatParsable, hp.1]
    have hmo : missOut d ms f (slot1 f g fl) = (.some v, []) := by
      simp [slot1, outOf, hnp, flatSlot, hgi, slotOf, missOut, containerSet_parsable d hp.2,
        FieldStatus.isNone]
    exact ⟨by simp [outOf, hnp, flatMsg], by rw [hmo], by simp only [slot2, hmo]; exact hwd v⟩
  | @flat v hfp hx =>
    have hp := (flatParsable_iff f).1 hfp
    have hmo : missOut d ms f (slot1 f g fl) = (.some v, []) := by
      simp [slot1, outOf, hfp, hx, flatSlot, missOut, containerSet_parsable d hp.2, hp.1]
    exact ⟨by simp [outOf, hfp, hx, flatMsg], by rw [hmo], by simp only [slot2, hmo]; exact hwd v⟩
  | @container v hc hv =>
    have hp : f.isParsable = false := by simp [Field.isParsable, hc]
    have hnp : f.flatParsable = false := by simp [Field.flatParsable, hp]
    have hmo : missOut d ms f (slot1 f g fl) = (.some v, []) := by
      simp [missOut, containerSet, hv, hc]
    exact ⟨by simp [outOf, hnp, flatMsg], by rw [hmo], by simp only [slot2, hmo]; exact hwd v⟩
  | @default v hn hd =>
    obtain ⟨a, b, c⟩ := notgiven hn
    have hmo : missOut d ms f (slot1 f g fl) = (.none, []) := by
      simp [b, missOut, c, hd]
    exact ⟨a, by rw [hmo], by simp only [slot2, hmo, withDefault, hd]; rfl⟩
  | @missing v hp hgi hd htg hx =>
    obtain ⟨a, b, c⟩ := notgiven (.inl ⟨hp, hgi⟩)
    have hmo : missOut d ms f (slot1 f g fl) = (.some v, []) := by
      simp [b, missOut, c, hd, htg, hp.1, plain_not_container hp.2, ht, FieldStatus.isNone, hx]
    exact ⟨a, by rw [hmo], by simp only [slot2, hmo]; exact hwd v⟩
  | @target t hn hd htg =>
    obtain ⟨a, b, c⟩ := notgiven hn
    have hmo : missOut d ms f (slot1 f g fl) = (.none, []) := by
      simp [b, missOut, c, htg]
    exact ⟨a, by rw [hmo], by simp only [slot2, hmo, withDefault, hd]; rfl⟩

/-- The value of a field at the end, given its slot. -/
def Final (i : Nat) (st : FieldStatus V) (v : V) : Prop :=
  match d.target with
  | none => st = .some v
  | some t => ∃ tv, t[i]? = some tv ∧ st.unwrapOr tv = v

theorem transOut_some {ts : List (Transform V)} {st : FieldStatus V} {v : V}
    (h : (transOut ts st).1 = .some v) : ∃ b, st = .some b ∧ runTransforms ts b = .ok v := by
  cases st with
  | some b =>
    simp only [transOut] at h
    refine ⟨b, rfl, ?_⟩
    split at h
    · simp at h; subst h; assumption
    · simp at h
  | none => simp [transOut] at h
  | parseError => simp [transOut] at h

/-- A field has no message and ends with the value `v` exactly if it `Holds` it. -/
theorem field_holds (ha : Accepted d) (ht : d.transparent = false) (ho : ¬ f.Plain → g = none) {i : Nat} (hf : d.fields[i]? = some f)
    (hfl : f.flatParsable = true → fl ≠ .panic)
    (hm : ms ≠ .panic)
    (hg : ∀ e, g ≠ some (.error e)) (v : V) :
    (flatMsg (outOf f fl) = [] ∧
      (missOut d ms f (slot1 f g fl)).2 = [] ∧
      (setOut f (slot2 d f g fl ms)).2 = [] ∧
      Final d i (slot3 d f g fl ms) v) ↔ Ends d f g fl ms i v := by
  constructor
  · rintro ⟨h1, h2, h3, h4⟩
    obtain ⟨o, hb, hw⟩ := base_exists d ha ht ho (List.mem_of_getElem? hf) hfl hm hg h1 h2
    rw [setOut, hw] at h3
    rw [slot3, setOut, hw] at h4
    cases o with
    | some b =>
      refine .inl ⟨b, hb, ?_⟩
      simp only [FieldStatus.ofOption, transOut] at h3 h4
      cases hr : runTransforms f.transforms b with
      | error e => simp [hr, SynErr.toList] at h3
      | ok v' =>
        simp only [hr, Final] at h4
        cases htg : d.target with
        | none => simp [htg] at h4; rw [h4]
        | some t =>
          simp only [htg, FieldStatus.unwrapOr] at h4
          obtain ⟨_, _, h4⟩ := h4
          rw [h4]
    | none =>
      refine .inr ⟨hb, ?_⟩
      cases hb with
      | @target t hn hd htg =>
        simp only [FieldStatus.ofOption, transOut, Final, htg, FieldStatus.unwrapOr] at h4
        obtain ⟨tv, h5, rfl⟩ := h4
        exact ⟨t, htg, h5⟩
  · rintro (⟨b, hb, hr⟩ | ⟨hb, t, htg, hv⟩)
    · obtain ⟨h1, h2, h3⟩ := base_slot d ht ho hb
      refine ⟨h1, h2, by simp [setOut, h3, FieldStatus.ofOption, transOut, hr], ?_⟩
      simp only [slot3, setOut, h3, FieldStatus.ofOption, transOut, hr, Final]
      cases htg : d.target with
      | none => trivial
      | some t =>
        have hl := ha.target t htg
        have hi := (List.getElem?_eq_some_iff.1 hf).1
        exact ⟨t[i]'(by omega), List.getElem?_eq_getElem _, rfl⟩
    · obtain ⟨h1, h2, h3⟩ := base_slot d ht ho hb
      refine ⟨h1, h2, by simp [setOut, h3, FieldStatus.ofOption, transOut], ?_⟩
      simp only [slot3, setOut, h3, FieldStatus.ofOption, transOut, Final, htg, FieldStatus.unwrapOr]
      exact ⟨v, hv, rfl⟩

theorem base_of_some (hm : ms ≠ .panic)
    (ha : Accepted d) (ht : d.transparent = false) (ho : ¬ f.Plain → g = none)
    (hf : f ∈ d.fields)
    (hfl : f.flatParsable = true → fl ≠ .panic) {b}
    (h : withDefault f (slot2 d f g fl ms) = .some b) :
    Source d f g fl ms (some b) := by
  by_cases hp : f.isParsable = true
  · have hc := plain_not_container hp
    by_cases hfp : f.isFlat = true
    · have hpp := (flatParsable_iff f).2 ⟨hfp, hp⟩
      have hs : slot2 d f g fl ms = flatSlot (slotOf g)
          (some (fl)) := by
        simp [slot2, slot1, outOf, hpp, missOut, containerSet_parsable d hp, hc, hfp, ht]
      rw [hs] at h
      cases hx : fl with
      | ok v =>
        try rw [← hx]
        rw [hx] at h
        simp only [flatSlot, withDefault] at h
        have : v = b := by
          cases hd : f.default <;> simp [hd, FieldStatus.orElse] at h <;> exact h
        subst this
        exact .flat hpp hx
      | err e =>
        try rw [← hx]
        rw [hx] at h
        simp only [flatSlot, withDefault] at h
        cases hd : f.default <;> simp [hd, FieldStatus.orElse] at h
      | panic => exact absurd hx (hfl hpp)
    · have hfp' : f.isFlat = false := by simpa using hfp
      have hnp : f.flatParsable = false := by simp [Field.flatParsable, hfp']
      have hs1 : ∀ g, slot1 f g fl = slotOf g := by
        intro g; simp [slot1, outOf, hnp, flatSlot]
      cases hgi : g with
      | some x =>
        try rw [← hgi]
        have hs2 : slot2 d f g fl ms = slotOf (some x) := by
          have := slotOf_isNone x
          simp [slot2, hs1, hgi, missOut, containerSet_parsable d hp, hc, ht, this]
        rw [hs2] at h
        cases x with
        | error e =>
          simp only [slotOf, withDefault] at h
          cases hd : f.default <;> simp [hd, FieldStatus.orElse] at h
        | ok v =>
          simp only [slotOf, withDefault] at h
          have : v = b := by
            cases hd : f.default <;> simp [hd, FieldStatus.orElse] at h <;> exact h
          subst this
          exact .item ⟨hfp', hp⟩ hgi
      | none =>
        try rw [← hgi]
        cases hd : f.default with
        | some v =>
          have : slot2 d f g fl ms = .none := by
            simp [slot2, hs1, hgi, slotOf, missOut, containerSet_parsable d hp, hc, ht, hd]
          rw [this, withDefault, hd] at h
          simp [FieldStatus.orElse] at h
          subst h
          exact .default (.inl ⟨⟨hfp', hp⟩, hgi⟩) hd
        | none =>
          cases htg : d.target with
          | some t =>
            have : slot2 d f g fl ms = .none := by
              simp [slot2, hs1, hgi, slotOf, missOut, containerSet_parsable d hp, hc, ht, htg]
            rw [this, withDefault, hd] at h
            simp at h
          | none =>
            have hs2 : slot2 d f g fl ms =
                match ms with
                | .ok v => .some v
                | _ => .none := by
              simp only [slot2, hs1, hgi, slotOf, missOut, containerSet_parsable d hp, hc, ht, hd, htg,
                hfp', FieldStatus.isNone]
              cases ms <;> rfl
            rw [hs2, withDefault, hd] at h
            cases ms with
            | ok v => simp only [FieldStatus.some.injEq] at h; subst h; exact .missing ⟨hfp', hp⟩ hgi hd htg rfl
            | err e => cases h
            | panic => cases h
  · obtain ⟨o, h1, h2⟩ := base_exists d ha ht ho hf
      (fun h => absurd ((flatParsable_iff f).1 h).2 hp) hm
      (fun e he => by rw [ho (fun h => hp h.2)] at he; cases he)
      (by simp [outOf, Field.flatParsable, hp, flatMsg])
      (by
        have hp' : f.isParsable = false := by simpa using hp
        have hgi : g = none := ho (fun h => hp h.2)
        have hnp : f.flatParsable = false := by simp [Field.flatParsable, hp']
        have hs1 : slot1 f g fl = .none := by
          simp [slot1, outOf, hnp, flatSlot, hgi, slotOf]
        simp only [missOut]
        split
        · rfl
        · rename_i hc
          rcases ha.filled f hf hp' with h | h | h
          · obtain ⟨v, hv⟩ := Option.isSome_iff_exists.1 h
            simp [hv]
          · obtain ⟨v, hv⟩ := Option.isSome_iff_exists.1 h
            simp [hv]
          · simp [h.1] at hc)
    rw [h2] at h
    cases o with
    | none => simp [FieldStatus.ofOption] at h
    | some v => simp [FieldStatus.ofOption] at h; subst h; exact h1

theorem setOut_msgs (hm : ms ≠ .panic)
    (ha : Accepted d) (ht : d.transparent = false) (ho : ¬ f.Plain → g = none)
    (hf : f ∈ d.fields)
    (hfl : f.flatParsable = true → fl ≠ .panic) :
    TransMsgs d f g fl ms (setOut f (slot2 d f g fl ms)).2 := by
  have hb : ∀ b, Source d f g fl ms (some b) →
      withDefault f (slot2 d f g fl ms) = .some b := fun b hb => by
    simpa [FieldStatus.ofOption] using (base_slot d ht ho hb).2.2
  cases hw : withDefault f (slot2 d f g fl ms) with
  | some b =>
    have h1 := base_of_some d hm ha ht ho hf hfl hw
    rw [setOut, hw, transOut]
    cases hr : runTransforms f.transforms b with
    | error e => exact .inl ⟨b, e, h1, hr, rfl⟩
    | ok v =>
      refine .inr ⟨rfl, fun b' e' hb' => ?_⟩
      have := hb b' hb'
      rw [hw] at this
      cases this
      simp [hr]
  | none =>
    refine .inr ⟨by simp [setOut, hw, transOut], fun b e hb' => ?_⟩
    have := hb b hb'
    rw [hw] at this
    cases this
  | parseError =>
    refine .inr ⟨by simp [setOut, hw, transOut], fun b e hb' => ?_⟩
    have := hb b hb'
    rw [hw] at this
    cases this

theorem unwrapAll_iff {sts : Slots V} {vs : List V} :
    unwrapAll sts = .ok vs ↔ sts = vs.map .some := by
  constructor
  · intro h
    induction sts generalizing vs with
    | nil => simp [unwrapAll] at h; subst h; rfl
    | cons st sts ih =>
      cases st with
      | some v =>
        simp only [unwrapAll, FieldStatus.unwrap] at h
        cases hr : unwrapAll sts with
        | ok ws => rw [hr] at h; simp [Res.map] at h; subst h; rw [ih hr]; rfl
        | err e => rw [hr] at h; simp [Res.map] at h
        | panic => rw [hr] at h; simp [Res.map] at h
      | none => simp [unwrapAll, FieldStatus.unwrap] at h
      | parseError => simp [unwrapAll, FieldStatus.unwrap] at h
  · rintro rfl; exact unwrapAll_some vs

/-- The value built from the slots, field by field. -/
theorem finish_ok {slots : Slots V} (hl : slots.length = d.fields.length)
    (hft : ∀ t, d.target = some t → t.length = d.fields.length) {errs : Errors} {vs : List V} :
    finish d slots errs = .ok vs ↔ errs.toList = [] ∧ vs.length = d.fields.length ∧
      ∀ i st, slots[i]? = some st → ∃ v, vs[i]? = some v ∧ Final d i st v := by
  obtain ⟨h1, h2⟩ := finish_eq d slots errs
  by_cases he : errs.toList = []
  · simp only [he, true_and]
    rw [h2 he]
    cases htg : d.target with
    | none =>
      simp only [unwrapAll_iff, Final, htg]
      constructor
      · rintro rfl
        refine ⟨by simpa using hl, ?_⟩
        intro i st hs
        rw [List.getElem?_map] at hs
        cases hv : vs[i]? with
        | none => simp [hv] at hs
        | some v => simp [hv] at hs; exact ⟨v, rfl, hs.symm⟩
      · rintro ⟨h3, h4⟩
        apply List.ext_getElem?
        intro i
        rw [List.getElem?_map]
        cases hs : slots[i]? with
        | some st =>
          obtain ⟨v, h5, h6⟩ := h4 i st hs
          simp [h5, h6]
        | none =>
          have := List.getElem?_eq_none_iff.1 hs
          rw [List.getElem?_eq_none (by omega)]; rfl
    | some t =>
      have htl := hft t htg
      simp only [Res.ok.injEq, Final, htg]
      constructor
      · rintro rfl
        refine ⟨by simp [hl, htl], ?_⟩
        intro i st hs
        have hi := (List.getElem?_eq_some_iff.1 hs).1
        have := List.getElem?_eq_getElem (l := t) (i := i) (by omega)
        exact ⟨st.unwrapOr (t[i]'(by omega)), by simp [List.getElem?_zipWith, hs, this],
          _, this, rfl⟩
      · rintro ⟨h3, h4⟩
        apply List.ext_getElem?
        intro i
        rw [List.getElem?_zipWith]
        cases hs : slots[i]? with
        | some st =>
          obtain ⟨v, h5, tv, h6, h7⟩ := h4 i st hs
          simp [h5, h6, h7]
        | none =>
          have := List.getElem?_eq_none_iff.1 hs
          rw [List.getElem?_eq_none (l := t) (by omega), List.getElem?_eq_none (l := vs) (by omega)]
  · obtain ⟨e, h3, _⟩ := h1 he
    simp [h3, he]

end

section
variable (d : Fields V) (allowed : List Str) (pre : Str) (span : Span) (l : List Stream)
  (bs : List (SItem V))

theorem flatSlots_get {i f} (h : d.fields[i]? = some f) :
    (flatSlots d allowed pre span l bs)[i]? = some (slot1 f (given i bs) (flatOut d.fields pre span allowed l f i)) := by
  have hi := (List.getElem?_eq_some_iff.1 h).1
  simp only [flatSlots, List.getElem?_zipWith, flatOuts_get _ _ _ _ _ _ _ h, itemSlots,
    List.getElem?_map, List.getElem?_range hi, slot1, outOf]
  rfl

theorem missSlots_get {i f} (h : d.fields[i]? = some f) :
    (missSlots d pre span (flatSlots d allowed pre span l bs))[i]? =
      some (slot2 d f (given i bs) (flatOut d.fields pre span allowed l f i) (f.item.missing (missingName d pre f) span)) := by
  simp only [missSlots, List.getElem?_zipWith, h, flatSlots_get d allowed pre span l bs h, slot2]

theorem setSlots_get {i f} (h : d.fields[i]? = some f) :
    (setSlots d (missSlots d pre span (flatSlots d allowed pre span l bs)))[i]? =
      some (slot3 d f (given i bs) (flatOut d.fields pre span allowed l f i) (f.item.missing (missingName d pre f) span)) := by
  simp only [setSlots, List.getElem?_zipWith, h, missSlots_get d allowed pre span l bs h, slot3]

theorem setSlots_length :
    (setSlots d (missSlots d pre span (flatSlots d allowed pre span l bs))).length =
      d.fields.length := by
  simp [setSlots, missSlots, flatSlots, itemSlots, flatOuts_length]

theorem flatten_zipWith_nil {α β γ : Type} {f : α → β → List γ} {as : List α} {bs : List β} :
    (List.zipWith f as bs).flatten = [] ↔
      ∀ (i : Nat) a b, as[i]? = some a → bs[i]? = some b → f a b = [] := by
  rw [List.flatten_eq_nil_iff]
  constructor
  · intro h i a b ha hb
    exact h _ (List.mem_of_getElem? (i := i) (by simp [List.getElem?_zipWith, ha, hb]))
  · intro h x hx
    obtain ⟨i, hi⟩ := List.getElem?_of_mem hx
    rw [List.getElem?_zipWith] at hi
    cases ha : as[i]? <;> cases hb : bs[i]? <;> rw [ha, hb] at hi <;> simp at hi
    rw [← hi]
    exact h i _ _ ha hb

/-- No message of the passes over the fields, field by field. -/
theorem postMsgs_nil :
    flatMsgs d allowed pre span l ++ missMsgs d pre span (flatSlots d allowed pre span l bs) ++
        setMsgsOf d (missSlots d pre span (flatSlots d allowed pre span l bs)) = [] ↔
      ∀ i f, d.fields[i]? = some f → flatMsg (outOf f (flatOut d.fields pre span allowed l f i)) = [] ∧
        (missOut d (f.item.missing (missingName d pre f) span) f (slot1 f (given i bs) (flatOut d.fields pre span allowed l f i))).2 = [] ∧
        (setOut f (slot2 d f (given i bs) (flatOut d.fields pre span allowed l f i) (f.item.missing (missingName d pre f) span))).2 = [] := by
  have h1 : flatMsgs d allowed pre span l = [] ↔ ∀ i f, d.fields[i]? = some f →
      flatMsg (outOf f (flatOut d.fields pre span allowed l f i)) = [] := by
    rw [flatMsgs, List.flatten_eq_nil_iff]
    constructor
    · intro h i f hf
      refine h _ (List.mem_map.2 ⟨_, List.mem_of_getElem? (flatOuts_get pre span allowed l _ _ _ hf), ?_⟩)
      rfl
    · intro h x hx
      obtain ⟨o, ho, rfl⟩ := List.mem_map.1 hx
      obtain ⟨i, hi⟩ := List.getElem?_of_mem ho
      have hlt : i < d.fields.length := by
        have := (List.getElem?_eq_some_iff.1 hi).1
        rwa [flatOuts_length] at this
      have hf := List.getElem?_eq_getElem hlt
      rw [flatOuts_get pre span allowed l _ _ _ hf] at hi
      have := h i _ hf
      simp only [Option.some.injEq] at hi
      rw [← hi]
      exact this
  rw [List.append_eq_nil_iff, List.append_eq_nil_iff, h1, missMsgs, flatten_zipWith_nil,
    setMsgsOf, flatten_zipWith_nil]
  constructor
  · rintro ⟨⟨a, b⟩, c⟩ i f hf
    exact ⟨a i f hf, b i f _ hf (flatSlots_get d allowed pre span l bs hf),
      c i f _ hf (missSlots_get d allowed pre span l bs hf)⟩
  · intro h
    refine ⟨⟨fun i f hf => (h i f hf).1, fun i f st hf hs => ?_⟩, fun i f st hf hs => ?_⟩
    · rw [flatSlots_get d allowed pre span l bs hf] at hs
      cases hs
      exact (h i f hf).2.1
    · rw [missSlots_get d allowed pre span l bs hf] at hs
      cases hs
      exact (h i f hf).2.2

theorem zipWith_eachField {fields : List (Field V)} {sts : Slots V} (hl : sts.length = fields.length)
    {F : Field V → FieldStatus V → List Msg} {g : Field V → Nat → List Msg}
    (h : ∀ i f st, fields[i]? = some f → sts[i]? = some st → F f st = g f i) :
    (List.zipWith F fields sts).flatten = eachField fields g := by
  rw [eachField]
  congr 1
  apply List.ext_getElem?
  intro i
  rw [List.getElem?_zipWith, List.getElem?_map, List.getElem?_zipIdx]
  cases hf : fields[i]? with
  | none => rfl
  | some f =>
    have hi := (List.getElem?_eq_some_iff.1 hf).1
    have hs := List.getElem?_eq_getElem (l := sts) (i := i) (by omega)
    rw [hs]
    simp [h i f _ hf hs]

theorem flatMsgs_eachField :
    flatMsgs d allowed pre span l = eachField d.fields (flatFailMsgs d.fields pre span allowed l) := by
  rw [flatMsgs, eachField]
  congr 1
  apply List.ext_getElem?
  intro i
  rw [List.getElem?_map, List.getElem?_map, List.getElem?_zipIdx]
  cases hf : d.fields[i]? with
  | none =>
    rw [List.getElem?_eq_none (by rw [flatOuts_length]; exact List.getElem?_eq_none_iff.1 hf)]
    rfl
  | some f =>
    rw [flatOuts_get _ _ _ _ _ _ _ hf]
    simp only [Option.map_some, Nat.zero_add, flatFailMsgs]
    cases f.flatParsable with
    | false => simp [flatMsg]
    | true =>
      simp only [if_true]
      cases flatOut d.fields pre span allowed l f i <;> rfl

theorem missMsgs_eachField (ha : Accepted d) (ht : d.transparent = false) (ho : Owned d.fields bs) :
    missMsgs d pre span (flatSlots d allowed pre span l bs) =
      eachField d.fields (missingMsgs d pre span bs) := by
  rw [missMsgs]
  refine zipWith_eachField (by simp [flatSlots, itemSlots, flatOuts_length]) ?_
  intro i f st hf hs
  rw [flatSlots_get d allowed pre span l bs hf] at hs
  cases hs
  by_cases hp : f.isParsable = true
  · have hc := plain_not_container hp
    simp only [missOut, containerSet_parsable d hp, hc, ht, missingMsgs, hp]
    by_cases hfp : f.isFlat = true
    · simp [hfp]
    · have hfp' : f.isFlat = false := by simpa using hfp
      have hnp : f.flatParsable = false := by simp [Field.flatParsable, hfp']
      have hs1 : slot1 f (given i bs) (flatOut d.fields pre span allowed l f i) = slotOf (given i bs) := by
        simp [slot1, outOf, hnp, flatSlot]
      have hn : (slotOf (given i bs)).isNone = (given i bs).isNone := by
        cases given i bs with
        | none => rfl
        | some x => exact slotOf_isNone x
      simp only [hs1, hfp', hn]
      simp only [Bool.or_false, Bool.false_eq_true, if_false, Bool.not_false, Bool.and_true, true_and]
      cases f.default.isNone <;> cases d.target.isNone <;> cases (given i bs).isNone <;>
        simp <;> cases f.item.missing (missingName d pre f) span <;> rfl
  · have hp' : f.isParsable = false := by simpa using hp
    have hgi : given i bs = none := ho.plain hf (fun h => hp h.2)
    have hnp : f.flatParsable = false := by simp [Field.flatParsable, hp']
    have hs1 : slot1 f (given i bs) (flatOut d.fields pre span allowed l f i) = .none := by
      simp [slot1, outOf, hnp, flatSlot, hgi, slotOf]
    have hr : missingMsgs d pre span bs f i = [] := by simp [missingMsgs, hp']
    rw [hr]
    simp only [hs1, missOut]
    split
    · rfl
    · rename_i hc
      rcases ha.filled f (List.mem_of_getElem? hf) hp' with h | h | h
      · obtain ⟨v, hv⟩ := Option.isSome_iff_exists.1 h
        simp [hv]
      · obtain ⟨v, hv⟩ := Option.isSome_iff_exists.1 h
        simp [hv]
      · simp [h.1] at hc

end

section
variable [Env]

/-- The items that are read have their owners among the plain fields. -/
theorem ReadsAll.owned {fields : List (Field V)} {pre : Str} {l rs fatal l'}
    (h : ReadsAll (structItem fields pre) l rs fatal l') : Owned fields (rs.map (·.1)) := by
  intro i name sp x hx
  obtain ⟨r, hr, hb⟩ := List.mem_map.1 hx
  have h1 := h.mem r hr
  rw [hb] at h1
  obtain ⟨f, key, ho, _⟩ := structItem_owner h1
  exact ⟨f, ho.choose_spec.2.1, ho.mem.2.1⟩

/-- Success of a derived structure, on any input. -/
theorem namedFlat_ok (d : Fields V) (ha : Accepted d) (ht : d.transparent = false)
    (hg : FieldsGood d.fields) (allowed : List Str) (mode : Mode) (pre : Str) (validate : Bool)
    {l rs fatal l1} (h : ReadsAll (structItem d.fields pre)
      (if d.fields.any (·.flatParsable) then forkInputs l else l) rs fatal l1) (vs : List V) :
    (namedFlat d allowed mode pre validate l).1 = .ok vs ↔
      fatal = none ∧ ItemsOk (!d.allowUnknown && validate) allowed (rs.map (·.1)) ∧
        vs.length = d.fields.length ∧ ∀ i f, d.fields[i]? = some f → ∃ v, vs[i]? = some v ∧
          Holds d allowed pre (mode.toFullSpan l) l (rs.map (·.1)) f i v := by
  obtain ⟨errs, l', h1, h2, _⟩ := namedFlat_reads d hg allowed mode pre validate h
  have ho := h.owned
  generalize rs.map (·.1) = bs at *
  generalize mode.toFullSpan l = span at *
  have hff : stopMsgs fatal = [] ↔ fatal = none := by
    cases fatal <;> simp [stopMsgs, SynErr.toList]
  have hnil : errs.toList = [] ↔ fatal = none ∧ ItemsOk (!d.allowUnknown && validate) allowed bs ∧
      ∀ i f, d.fields[i]? = some f → flatMsg (outOf f (flatOut d.fields pre span allowed l f i)) = [] ∧
        (missOut d (f.item.missing (missingName d pre f) span) f (slot1 f (given i bs) (flatOut d.fields pre span allowed l f i))).2 = [] ∧
        (setOut f (slot2 d f (given i bs) (flatOut d.fields pre span allowed l f i) (f.item.missing (missingName d pre f) span))).2 = [] := by
    rw [h2, ← postMsgs_nil d allowed pre span l bs, List.append_assoc, List.append_assoc,
      List.append_eq_nil_iff, List.append_eq_nil_iff, itemMsgs_eq_nil, hff, List.append_assoc]
    constructor
    · rintro ⟨⟨⟨a, _⟩, b⟩, c⟩; exact ⟨b, a, c⟩
    · rintro ⟨a, b, c⟩; exact ⟨⟨⟨b, by simp⟩, a⟩, c⟩
  rw [h1]
  simp only
  rw [finish_ok d (setSlots_length d allowed pre span l bs) ha.target, hnil]
  have hnp : ∀ i f, d.fields[i]? = some f →
      (f.flatParsable = true → flatOut d.fields pre span allowed l f i ≠ .panic) := by
    intro i f hf hp
    exact (hg.flat f (List.mem_of_getElem? hf) hp pre span allowed _).1
  have hmp : ∀ (i : Nat) f, d.fields[i]? = some f → f.item.missing (missingName d pre f) span ≠ .panic := by
    intro i f hf
    exact hg.missing f (List.mem_of_getElem? hf) _ _
  have hgv : ItemsOk (!d.allowUnknown && validate) allowed bs → ∀ i e, given i bs ≠ some (.error e) := by
    intro hi i e he
    obtain ⟨n, s, hm⟩ := given_mem he
    obtain ⟨v, hv⟩ := hi.values _ _ _ _ hm
    cases hv
  constructor
  · rintro ⟨⟨a, b, c⟩, e, g⟩
    refine ⟨a, b, e, ?_⟩
    intro i f hf
    obtain ⟨v, hv, hfin⟩ := g i _ (setSlots_get d allowed pre span l bs hf)
    obtain ⟨c1, c2, c3⟩ := c i f hf
    exact ⟨v, hv, (field_holds d ha ht (ho.plain hf) hf (hnp i f hf) (hmp i f hf)
      (hgv b i) v).1 ⟨c1, c2, c3, hfin⟩⟩
  · rintro ⟨a, b, e, g⟩
    have key : ∀ i f, d.fields[i]? = some f → ∃ v, vs[i]? = some v ∧ _ := fun i f hf => by
      obtain ⟨v, hv, hh⟩ := g i f hf
      exact ⟨v, hv, (field_holds d ha ht (ho.plain hf) hf (hnp i f hf) (hmp i f hf)
        (hgv b i) v).2 hh⟩
    refine ⟨⟨a, b, fun i f hf => ?_⟩, e, ?_⟩
    · obtain ⟨v, _, k1, k2, k3, _⟩ := key i f hf
      exact ⟨k1, k2, k3⟩
    · intro i st hs
      have hi := (List.getElem?_eq_some_iff.1 hs).1
      rw [setSlots_length] at hi
      have hf := List.getElem?_eq_getElem hi
      rw [setSlots_get d allowed pre span l bs hf] at hs
      cases hs
      obtain ⟨v, k0, _, _, _, k4⟩ := key i _ hf
      exact ⟨v, k0, k4⟩

end

section
variable [Env]

omit [Env] in
theorem slots_all {sts : Slots V} (h : ∀ (i : Nat) st, sts[i]? = some st → ∃ v, st = .some v) :
    ∃ vs : List V, sts = vs.map .some := by
  induction sts with
  | nil => exact ⟨[], rfl⟩
  | cons st sts ih =>
    obtain ⟨v, hv⟩ := h 0 st rfl
    obtain ⟨vs, hvs⟩ := ih (fun i st hs => h (i + 1) st (by simpa using hs))
    exact ⟨v :: vs, by rw [hv, hvs]; rfl⟩

/-- Every message of a derived structure, on any input. -/
theorem namedFlat_msgs (d : Fields V) (ha : Accepted d) (ht : d.transparent = false)
    (hg : FieldsGood d.fields) (allowed : List Str) (mode : Mode) (pre : Str) (validate : Bool)
    {l rs fatal l1} (h : ReadsAll (structItem d.fields pre)
      (if d.fields.any (·.flatParsable) then forkInputs l else l) rs fatal l1) :
    ∃ trans : List (List Msg), trans.length = d.fields.length ∧
      (∀ i f, d.fields[i]? = some f → ∃ m, trans[i]? = some m ∧
        TransformMsgs d allowed pre (mode.toFullSpan l) l (rs.map (·.1)) f i m) ∧
      ∀ msgs, msgs = itemMsgs (!d.allowUnknown && validate) allowed [] (rs.map (·.1)) ++
          stopMsgs fatal ++
          eachField d.fields (flatFailMsgs d.fields pre (mode.toFullSpan l) allowed l) ++
          eachField d.fields (missingMsgs d pre (mode.toFullSpan l) (rs.map (·.1))) ++
          trans.flatten →
        (msgs ≠ [] → FailsWith (namedFlat d allowed mode pre validate l).1 msgs) ∧
        (msgs = [] → ∃ vs, (namedFlat d allowed mode pre validate l).1 = .ok vs) := by
  obtain ⟨errs, l', h1, h2, _⟩ := namedFlat_reads d hg allowed mode pre validate h
  have hok := namedFlat_ok d ha ht hg allowed mode pre validate h
  have ho := h.owned
  generalize rs.map (·.1) = bs at *
  generalize mode.toFullSpan l = span at *
  have hnp : ∀ i f, d.fields[i]? = some f →
      (f.flatParsable = true → flatOut d.fields pre span allowed l f i ≠ .panic) := by
    intro i f hf hp
    exact (hg.flat f (List.mem_of_getElem? hf) hp pre span allowed _).1
  have h2' := h2
  rw [flatMsgs_eachField, missMsgs_eachField d allowed pre span l bs ha ht ho] at h2
  refine ⟨List.zipWith (fun f st => (setOut f st).2) d.fields
    (missSlots d pre span (flatSlots d allowed pre span l bs)), ?_, ?_, ?_⟩
  · simp [missSlots, flatSlots, itemSlots, flatOuts_length]
  · intro i f hf
    exact ⟨_, by simp [List.getElem?_zipWith, hf, missSlots_get d allowed pre span l bs hf],
      setOut_msgs d (hg.missing f (List.mem_of_getElem? hf) _ _) ha ht (ho.plain hf)
        (List.mem_of_getElem? hf) (hnp i f hf)⟩
  · rintro msgs rfl
    obtain ⟨f1, f2⟩ := finish_eq d (setSlots d (missSlots d pre span (flatSlots d allowed pre span l bs)))
      errs
    rw [setMsgsOf] at h2
    rw [← h2, h1]
    refine ⟨f1, fun he => ?_⟩
    have he' := he
    simp only
    cases htg : d.target with
    | some t => exact ⟨_, by rw [f2 he, htg]⟩
    | none =>
      rw [h2', List.append_assoc, List.append_assoc, List.append_eq_nil_iff,
        List.append_eq_nil_iff, itemMsgs_eq_nil, ← List.append_assoc, postMsgs_nil] at he'
      obtain ⟨⟨⟨hi, _⟩, _⟩, hp⟩ := he'
      rw [f2 he, htg]
      obtain ⟨vs, hvs⟩ := slots_all (sts := setSlots d (missSlots d pre span
        (flatSlots d allowed pre span l bs))) (fun i st hs => by
          have hlt := (List.getElem?_eq_some_iff.1 hs).1
          rw [setSlots_length] at hlt
          have hf := List.getElem?_eq_getElem hlt
          rw [setSlots_get d allowed pre span l bs hf] at hs
          cases hs
          obtain ⟨q1, q2, q3⟩ := hp i _ hf
          obtain ⟨o, hb, hw⟩ := base_exists d ha ht (ho.plain hf) (List.mem_of_getElem? hf) (hnp i _ hf)
            (hg.missing _ (List.mem_of_getElem? hf) _ _)
            (fun e hge => by
              obtain ⟨n, s, hmem⟩ := given_mem hge
              obtain ⟨v, hv⟩ := hi.values _ _ _ _ hmem
              cases hv) q1 q2
          cases o with
          | none => cases hb with | target _ _ h => rw [htg] at h; cases h
          | some b =>
            rw [slot3, setOut, hw]
            rw [setOut, hw] at q3
            simp only [FieldStatus.ofOption, transOut] at q3 ⊢
            cases hr : runTransforms (d.fields[i]).transforms b with
            | ok v => exact ⟨v, by simp⟩
            | error e => simp [hr, SynErr.toList] at q3)
      exact ⟨vs, by rw [hvs]; exact unwrapAll_some vs⟩

end

end Deluxe
