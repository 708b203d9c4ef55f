import Verif.Props.OwnItems
/-!
# C126: items of fields that may be left out can be left out
-/
namespace Deluxe

/-! ## Specification -/

section
variable [Env] {V : Type}

/-- Something else is there for the field if no item is given for it: a default of the field, what its type makes of a
missing value, or the default of the structure; and the functions applied to the value do not fail. -/
def MayOmit (d : Fields V) (pre : Str) (k : Span) (f : Field V) (i : Nat) : Prop :=
  ∃ v, Ends d f none .panic (f.item.missing (missingName d pre f) k) i v

/-- What is accepted is accepted without the items whose keys are among `P`. -/
def Spares (P : Str → Prop) {α : Type} (q : M (List Stream) α) : Prop :=
  ∀ l l', DroppedAll P l l' → Fresh l → ∀ v, (q l).1 = .ok v → ∃ v', (q l').1 = .ok v'

/-! ## Items -/

/-- The items that are left are read as before. -/
theorem Dropped.left {P : Str → Prop} {β : Type} {p : M Stream β} (he : EndsAlike p) (ht : Tidy p) {ts ts' : List Tok}
    (h : Dropped P ts ts') {sc : Span} {rs s1} (hr : Reads p ⟨ts, sc, none⟩ rs none s1) :
    ∃ rs' s1', Reads p ⟨ts', sc, none⟩ rs' none s1' ∧ (rs'.map (·.1)).Sublist (rs.map (·.1)) := by
  induction h generalizing rs s1 with
  | same ts => exact ⟨rs, s1, hr, List.Sublist.refl _⟩
  | @keep v c r r' hv hc _ ih =>
    obtain ⟨b, x, rs1, s2, h1, _, rfl, _, h4⟩ := Reads.first he ht hv (by simp) (.inr ⟨_, _, rfl, hc⟩) hr
    obtain ⟨rs', s1', i1, i2⟩ := ih (h4 _ _ rfl hc)
    rcases he v sc none hv with ⟨b', w, u', g1, g2⟩ | g2
    · have e := g2 (c :: r) (.inr ⟨_, _, rfl, hc⟩)
      have e' := g2 (c :: r') (.inr ⟨_, _, rfl, hc⟩)
      have hu : u' = none := by
        have := (ht ⟨v ++ c :: r, sc, none⟩ rfl b' (by rw [e])).1
        rw [e] at this
        exact this
      subst hu
      rw [h1] at e
      cases e
      have hw : w = [] := by
        cases hr with
        | last h0 hi hl =>
          rw [h1] at hi
          cases hi
          simp at hl
        | more h0 hi hl hc' _ =>
          rw [h1] at hi
          cases hi
          exact (left_comma (hv.suffix g1) hc' hl).1
      subst hw
      exact ⟨_, s1', .more (by simp) e' rfl hc i1, by simpa using i2.cons_cons b⟩
    · exact absurd h1 (g2 _ (.inr ⟨_, _, rfl, hc⟩) _ _)
  | last hk hP hn => exact ⟨[], _, .done rfl, by simp⟩
  | more hk hP hn hc _ ih =>
    obtain ⟨b, x, rs1, s2, h1, _, rfl, _, h4⟩ := Reads.first he ht (hk.noComma hn) (by simp) (.inr ⟨_, _, rfl, hc⟩) hr
    obtain ⟨rs', s1', i1, i2⟩ := ih (h4 _ _ rfl hc)
    exact ⟨rs', s1', i1, by simpa using i2.cons _⟩

/-- The same for several lists in which nothing unexpected was found yet. -/
theorem DroppedAll.left {P : Str → Prop} {β : Type} {p : M Stream β} (he : EndsAlike p) (ht : Tidy p)
    {l l' : List Stream} (h : DroppedAll P l l') (hl : Fresh l) {rs l1} (hr : ReadsAll p l rs none l1) :
    ∃ rs' l1', ReadsAll p l' rs' none l1' ∧ (rs'.map (·.1)).Sublist (rs.map (·.1)) := by
  induction h generalizing rs l1 with
  | nil => exact ⟨rs, l1, hr, List.Sublist.refl _⟩
  | @cons ts ts' sc u l l' h1 _ ih =>
    have hu : u = none := hl _ List.mem_cons_self
    subst hu
    cases hr with
    | cons a b =>
      obtain ⟨rs1, s1, e1, e2⟩ := h1.left he ht a
      obtain ⟨rs2, s2, e3, e4⟩ := ih (fun s hs => hl s (List.mem_cons_of_mem _ hs)) b
      exact ⟨_, _, .cons e1 e3, by simpa using e2.append e4⟩

omit [Env] in
theorem ReadsAll.lift {β γ : Type} {p : M Stream β} {q : M Stream γ} (g : γ → β) (C : γ → Prop)
    (h : ∀ s b s1, p s = (.ok b, s1) → ∃ b', q s = (.ok b', s1) ∧ g b' = b ∧ C b') {l rs l1}
    (hr : ReadsAll p l rs none l1) :
    ∃ rs', ReadsAll q l rs' none l1 ∧ rs'.map (fun x => g x.1) = rs.map (·.1) := by
  generalize hf : (none : Option SynErr) = f at hr
  induction hr with
  | nil => exact ⟨[], .nil, rfl⟩
  | cons h1 _ ih =>
    subst hf
    obtain ⟨rs1, a1, a2, _⟩ := h1.lift g C h
    obtain ⟨rs2, b1, b2⟩ := ih rfl
    exact ⟨_, .cons a1 b1, by simp [a2, b2]⟩
  | fail => cases hf

theorem Others.exists (P : Str → Prop) (n : Nat) : ∀ ts : List Tok, ts.length ≤ n → ∃ vs, Others P ts vs := by
  induction n with
  | zero =>
    intro ts h
    cases ts with
    | nil => exact ⟨[], .nil⟩
    | cons t ts => simp at h
  | succ n ih =>
    intro ts h
    obtain ⟨v, rest, rfl, hv, hb⟩ := split_at_comma ts
    rcases hb with rfl | ⟨c, r, rfl, hc⟩
    · cases v with
      | nil => exact ⟨[], .nil⟩
      | cons t v => exact ⟨[t :: v], by simpa using Others.last hv (by simp)⟩
    · obtain ⟨vs, h1⟩ := ih r (by simp at h; omega)
      exact ⟨v :: vs, .more hv hc h1⟩

theorem Dropped.sameBut {P : Str → Prop} {ts ts' : List Tok} (h : Dropped P ts ts') : SameBut P ts ts' := by
  induction h with
  | same ts =>
    obtain ⟨vs, h⟩ := Others.exists P _ ts (Nat.le_refl _)
    exact ⟨vs, h, h⟩
  | keep hv hc _ ih =>
    obtain ⟨vs, h1, h2⟩ := ih
    exact ⟨_, .more hv hc h1, .more hv hc h2⟩
  | last hk hP hn => exact ⟨[], .otherLast hk hP hn, .nil⟩
  | more hk hP hn hc _ ih =>
    obtain ⟨vs, h1, h2⟩ := ih
    exact ⟨_, .other hk hP hn hc h1, h2⟩

theorem DroppedAll.sameBut {P : Str → Prop} {l l' : List Stream} (h : DroppedAll P l l') (hl : Fresh l) :
    SameButAll P l l' := by
  induction h with
  | nil => exact .nil
  | @cons ts ts' sc u l l' h1 _ ih =>
    have hu : u = none := hl _ List.mem_cons_self
    subst hu
    exact .cons h1.sameBut (ih fun s hs => hl s (List.mem_cons_of_mem _ hs))

/-! ## Structures -/

theorem strictItem_tidy {fields : List (Field V)} (ht : ∀ f ∈ fields, ∀ n sp, Tidy (f.item.named n sp)) (pre : Str) :
    Tidy (strictItem fields pre) :=
  keyed_tidy fun key sp => by
    split
    · rename_i f j h
      exact (ht f ((owner_some _ _ _ _ _).1 h).mem.1 _ _).map _
    · exact skipItem_tidy _

omit [Env] in
theorem owners_sublist {bs bs' : List (SItem V)} (h : bs'.Sublist bs) : (owners bs').Sublist (owners bs) := by
  induction h with
  | slnil => exact List.Sublist.refl _
  | cons a _ ih =>
    cases a with
    | field i n sp x => exact ih.cons _
    | other k sp => exact ih
  | cons_cons a _ ih =>
    cases a with
    | field i n sp x => exact ih.cons_cons _
    | other k sp => exact ih

omit [Env] in
theorem ItemsOk.sublist {check : Bool} {allowed : List Str} {bs bs' : List (SItem V)} (h : ItemsOk check allowed bs)
    (hs : bs'.Sublist bs) : ItemsOk check allowed bs' where
  once := h.once.sublist (owners_sublist hs)
  values i name sp x hx := h.values i name sp x (hs.subset hx)
  known key sp hk := h.known key sp (hs.subset hk)

omit [Env] in
theorem given_sublist {bs bs' : List (SItem V)} (h : (owners bs).Nodup) (hs : bs'.Sublist bs) (i : Nat) :
    given i bs' = given i bs ∨ given i bs' = none := by
  cases hg : given i bs' with
  | none => exact .inr rfl
  | some x =>
    obtain ⟨n, sp, hm⟩ := (given_iff (h.sublist (owners_sublist hs)) i x).1 hg
    exact .inl ((given_iff h i x).2 ⟨n, sp, hs.subset hm⟩).symm

/-- The items of a structure that was accepted, and what its fields are. -/
theorem struct_iff_all (d : Fields V) (ha : Accepted d) (ht : d.transparent = false) (hg : FieldsGood d.fields)
    (allowed : List Str) (k : Span) (pre : Str) (validate : Bool) (l : List Stream) (vs : List V) :
    (namedFlat d allowed (.named k) pre validate l).1 = .ok vs ↔
    ∃ rs l1, ReadsAll (strictItem d.fields pre) (if d.fields.any (·.flatParsable) then forkInputs l else l) rs none l1 ∧
      ItemsOk (!d.allowUnknown && validate) allowed (rs.map (·.1)) ∧ vs.length = d.fields.length ∧
      ∀ i f, d.fields[i]? = some f → ∃ v, vs[i]? = some v ∧ Holds d allowed pre k l (rs.map (·.1)) f i v := by
  constructor
  · intro h
    obtain ⟨rs, fatal, l1, h1⟩ := ReadsAll.exists (structItem_good hg.named pre)
      (if d.fields.any (·.flatParsable) then forkInputs l else l)
    rw [namedFlat_ok d ha ht hg allowed (.named k) pre validate h1] at h
    obtain ⟨rfl, h2, h3, h4⟩ := h
    have h5 := h1.transfer (item' := strictItem d.fields pre) id SItem.Fine
      (fun s b s' => struct_strict d.fields pre s b s') rfl
      (fun x hx i name sp y hy => h2.values i name sp y (by rw [← hy]; exact List.mem_map_of_mem hx))
    exact ⟨_, l1, h5, by simpa using h2, h3, by rw [List.map_map]; exact h4⟩
  · rintro ⟨rs, l1, h1, h2, h3, h4⟩
    obtain ⟨rs', h5, h6⟩ := h1.lift (q := structItem d.fields pre) id SItem.Fine (strict_struct d.fields pre)
    have h7 : rs'.map (·.1) = rs.map (·.1) := h6
    refine (namedFlat_ok d ha ht hg allowed (.named k) pre validate h5 vs).2 ⟨rfl, ?_, h3, ?_⟩
    · rw [h7]; exact h2
    · rw [h7]; exact h4

omit [Env] in
theorem choose_at {R : Nat → V → Prop} (n : Nat) (h : ∀ i, i < n → ∃ v, R i v) :
    ∃ vs : List V, vs.length = n ∧ ∀ i v, vs[i]? = some v → R i v := by
  induction n with
  | zero => exact ⟨[], rfl, by simp⟩
  | succ n ih =>
    obtain ⟨vs, h1, h2⟩ := ih fun i hi => h i (Nat.lt_succ_of_lt hi)
    obtain ⟨v, hv⟩ := h n (Nat.lt_succ_self n)
    refine ⟨vs ++ [v], by simp [h1], fun i w hw => ?_⟩
    rcases Nat.lt_trichotomy i n with hi | rfl | hi
    · rw [List.getElem?_append_left (by omega)] at hw
      exact h2 i w hw
    · rw [List.getElem?_append_right (by omega), h1] at hw
      simp at hw
      exact hw ▸ hv
    · rw [List.getElem?_eq_none (by simp; omega)] at hw
      cases hw

omit [Env] in
theorem Source.flat_ok {d : Fields V} {f : Field V} {g : Option (Except SynErr V)} {fl ms : Res V} {b : Option V}
    (hf : f.flatParsable = true) (h : Source d f g fl ms b) : ∃ v, fl = .ok v := by
  simp only [Field.flatParsable, Bool.and_eq_true] at hf
  have hpl : ¬ f.Plain := fun h => by rw [h.1] at hf; exact absurd hf.1 (by simp)
  have hng : ¬ NotGiven d f g := by
    rintro (⟨h1, _⟩ | ⟨h1, _⟩)
    · exact hpl h1
    · rw [h1] at hf
      exact absurd hf.2 (by simp)
  cases h with
  | item a _ => exact absurd a hpl
  | flat _ b => exact ⟨_, b⟩
  | container a _ =>
    have := hf.2
    simp [Field.isParsable, a] at this
  | default a _ => exact absurd a hng
  | missing a => exact absurd a hpl
  | target a => exact absurd a hng

/-- **C126.**  If a structure accepts a list of items, it accepts the list without any of the items of those fields that
may be omitted.  The value of each field is as before, or what the field is without its item if this was left out, or
that of a flattened field some of whose items were left out. -/
theorem c126_struct (d : Fields V) (ha : Accepted d) (ht : d.transparent = false) (hg : FieldsGood d.fields)
    (he : ∀ f ∈ d.fields, f.item.EndsAlike) (hy : ∀ f ∈ d.fields, ∀ n sp, Tidy (f.item.named n sp))
    (allowed : List Str) (k : Span) (pre : Str) (validate : Bool) {P : Str → Prop}
    (hP : ∀ key, P key → ∀ f i, Owns d.fields pre key f i → MayOmit d pre k f i)
    (hfl : ∀ f ∈ d.fields, f.flatParsable = true → Ignores P (f.flatCall pre k allowed) ∨
      (Spares P (f.flatCall pre k allowed) ∧ f.transforms = []))
    {l l' : List Stream} (hs : DroppedAll P l l') (hl : Fresh l) {vs : List V}
    (h : (namedFlat d allowed (.named k) pre validate l).1 = .ok vs) :
    ∃ vs', (namedFlat d allowed (.named k) pre validate l').1 = .ok vs' ∧
      ∀ i, vs'[i]? = vs[i]? ∨ (∃ key f v, P key ∧ Owns d.fields pre key f i ∧ vs'[i]? = some v ∧
          Ends d f none .panic (f.item.missing (missingName d pre f) k) i v) ∨
        (∃ f, d.fields[i]? = some f ∧ f.flatParsable = true ∧ ¬ Ignores P (f.flatCall pre k allowed)) := by
  obtain ⟨rs, l1, h1, h2, h3, h4⟩ := (struct_iff_all d ha ht hg allowed k pre validate l vs).1 h
  have hfork : DroppedAll P (if d.fields.any (·.flatParsable) then forkInputs l else l)
      (if d.fields.any (·.flatParsable) then forkInputs l' else l') ∧
      Fresh (if d.fields.any (·.flatParsable) then forkInputs l else l) := by
    split
    · refine ⟨hs.fork, fun s hs => ?_⟩
      simp only [forkInputs, List.mem_map] at hs
      obtain ⟨s0, _, rfl⟩ := hs
      rfl
    · exact ⟨hs, hl⟩
  have hends := strictItem_ends he pre
  have htidy := strictItem_tidy hy pre
  obtain ⟨rs', l1', e1, e2⟩ := hfork.1.left hends htidy hfork.2 h1
  have hforkl : Fresh (forkInputs l) := by
    intro s hs
    simp only [forkInputs, List.mem_map] at hs
    obtain ⟨s0, _, rfl⟩ := hs
    rfl
  have hout : ∀ i f, d.fields[i]? = some f → (f.flatParsable = true → Ignores P (f.flatCall pre k allowed)) →
      f.flatParsable = true → flatOut d.fields pre k allowed l f i = flatOut d.fields pre k allowed l' f i := by
    intro i f hf hig hp
    unfold flatOut
    split
    · exact hig hp _ _ hs.fork
    · exact hig hp _ _ hs
  have hspare : ∀ i f, d.fields[i]? = some f → Spares P (f.flatCall pre k allowed) → ∀ v,
      flatOut d.fields pre k allowed l f i = .ok v → ∃ v', flatOut d.fields pre k allowed l' f i = .ok v' := by
    intro i f hf hsp v hv
    unfold flatOut at hv ⊢
    split
    · rename_i hc
      rw [if_pos hc] at hv
      exact hsp _ _ hs.fork hforkl v hv
    · rename_i hc
      rw [if_neg hc] at hv
      exact hsp _ _ hs hl v hv
  have hsame : ∀ i f v, d.fields[i]? = some f → (f.flatParsable = true → Ignores P (f.flatCall pre k allowed)) → given i (rs'.map (·.1)) = given i (rs.map (·.1)) → vs[i]? = some v →
      Holds d allowed pre k l' (rs'.map (·.1)) f i v := by
    intro i f v hf hig hgi hv
    obtain ⟨w, hw, hh⟩ := h4 i f hf
    rw [hv] at hw
    cases hw
    simp only [Holds] at hh ⊢
    rw [hgi]
    exact hh.flat_iff fun hp x hx => hout i f hf hig hp ▸ hx
  have hex : ∀ i, i < d.fields.length → ∃ v, (∀ f, d.fields[i]? = some f → Holds d allowed pre k l' (rs'.map (·.1)) f i v) ∧
      (vs[i]? = some v ∨ (∃ key f, P key ∧ Owns d.fields pre key f i ∧
        Ends d f none .panic (f.item.missing (missingName d pre f) k) i v) ∨
        (∃ f, d.fields[i]? = some f ∧ f.flatParsable = true ∧ ¬ Ignores P (f.flatCall pre k allowed))) := by
    intro i hi
    have hf : d.fields[i]? = some d.fields[i] := List.getElem?_eq_getElem hi
    generalize d.fields[i] = f at hf
    obtain ⟨v, hv, hh⟩ := h4 i f hf
    by_cases hfi : f.flatParsable = true ∧ ¬ Ignores P (f.flatCall pre k allowed)
    · rcases hfl f (List.mem_of_getElem? hf) hfi.1 with hig | ⟨hsp, htr⟩
      · exact absurd hig hfi.2
      · have hfo : ∃ x, flatOut d.fields pre k allowed l f i = .ok x := by
          rcases hh with ⟨b, hb, _⟩ | ⟨hb, _⟩
          · exact hb.flat_ok hfi.1
          · exact hb.flat_ok hfi.1
        obtain ⟨x, hx⟩ := hfo
        obtain ⟨w, hw⟩ := hspare i f hf hsp x hx
        refine ⟨w, fun g hg => ?_, .inr (.inr ⟨f, hf, hfi⟩)⟩
        rw [hf] at hg
        cases hg
        exact .inl ⟨w, .flat hfi.1 hw, by rw [htr]; rfl⟩
    have hig : f.flatParsable = true → Ignores P (f.flatCall pre k allowed) := fun hp =>
      Classical.byContradiction fun hn => hfi ⟨hp, hn⟩
    have keep : given i (rs'.map (·.1)) = given i (rs.map (·.1)) →
        ∃ v, (∀ f, d.fields[i]? = some f → Holds d allowed pre k l' (rs'.map (·.1)) f i v) ∧
        (vs[i]? = some v ∨ (∃ key f, P key ∧ Owns d.fields pre key f i ∧
          Ends d f none .panic (f.item.missing (missingName d pre f) k) i v) ∨
          (∃ f, d.fields[i]? = some f ∧ f.flatParsable = true ∧ ¬ Ignores P (f.flatCall pre k allowed))) := fun hgi =>
      ⟨v, fun g hg => by
        rw [hf] at hg
        cases hg
        exact hsame i f v hf hig hgi hv, .inl hv⟩
    by_cases hN : NotNamed d.fields pre P i
    · refine keep ?_
      rw [given_head, given_head, (hfork.1.sameBut hfork.2).shows (strictItem_overlooks he hy pre hN) h1 e1]
    · simp only [NotNamed, Classical.not_forall, Classical.not_not] at hN
      obtain ⟨key, hk, g, ho⟩ := hN
      rcases given_sublist h2.once e2 i with hgi | hgi
      · exact keep hgi
      · obtain ⟨w, hw⟩ := hP key hk g i ho
        refine ⟨w, fun g' hg' => ?_, .inr (.inl ⟨key, g, hk, ho, hw⟩)⟩
        obtain ⟨m, _, o1, o2, _⟩ := ho
        rw [hg'] at o1
        cases o1
        simp only [Holds]
        rw [hgi]
        exact hw.flat_iff fun hp => by simp [Field.flatParsable, o2.1] at hp
  obtain ⟨vs', c1, c2⟩ := choose_at d.fields.length hex
  refine ⟨vs', (struct_iff_all d ha ht hg allowed k pre validate l' vs').2 ⟨rs', l1', e1, h2.sublist e2, c1, ?_⟩, ?_⟩
  · intro i f hf
    have hi : i < vs'.length := c1 ▸ (List.getElem?_eq_some_iff.1 hf).1
    exact ⟨vs'[i], List.getElem?_eq_getElem hi, (c2 i _ (List.getElem?_eq_getElem hi)).1 f hf⟩
  · intro i
    by_cases hi : i < vs'.length
    · rcases (c2 i _ (List.getElem?_eq_getElem hi)).2 with h5 | ⟨key, f, a, b, c⟩ | h5
      · exact .inl ((List.getElem?_eq_getElem hi).trans h5.symm)
      · exact .inr (.inl ⟨key, f, _, a, b, List.getElem?_eq_getElem hi, c⟩)
      · exact .inr (.inr h5)
    · exact .inl (by rw [List.getElem?_eq_none (by omega), List.getElem?_eq_none (by omega)])

/-! ## Structures as they are derived -/

omit [Env] in
/-- A field with a default may be omitted. -/
theorem mayOmit_default (d : Fields V) (pre : Str) (k : Span) {f : Field V} (i : Nat) (hp : f.Plain) {v : V}
    (hd : f.default = some v) (ht : f.transforms = []) : MayOmit d pre k f i :=
  ⟨v, .inl ⟨v, .default (.inl ⟨hp, rfl⟩) hd, by rw [ht]; rfl⟩⟩

omit [Env] in
/-- A field may be omitted if its type, like `Option`, has a value for this. -/
theorem mayOmit_missing (d : Fields V) (pre : Str) (k : Span) {f : Field V} (i : Nat) (hp : f.Plain)
    (hd : f.default = none) (hn : d.target = none) {v : V} (hm : f.item.missing (missingName d pre f) k = .ok v)
    (ht : f.transforms = []) : MayOmit d pre k f i :=
  ⟨v, .inl ⟨v, .missing hp rfl hd hn hm, by rw [ht]; rfl⟩⟩

omit [Env] in
/-- Every field of a structure with a default may be omitted. -/
theorem mayOmit_target (d : Fields V) (ha : Accepted d) (pre : Str) (k : Span) {f : Field V} {i : Nat}
    (hf : d.fields[i]? = some f) (hp : f.Plain) (hd : f.default = none) (hn : d.target.isSome = true) :
    MayOmit d pre k f i := by
  cases ht : d.target with
  | none => rw [ht] at hn; cases hn
  | some t =>
    have hi : i < t.length := by
      rw [ha.target t ht]
      exact (List.getElem?_eq_some_iff.1 hf).1
    exact ⟨t[i], .inr ⟨.target (.inl ⟨hp, rfl⟩) hd ht, t, ht, List.getElem?_eq_getElem hi⟩⟩

/-- The types with a value for a missing item, with this value: `Option`, `Flag`, and structures and enums with a
default. -/
inductive ForMissing : {α : Type} → Dict α → α → Prop
  | option {α} (b : Dict α) : ForMissing (optionDict b) none
  | flag : ForMissing flagDict none
  | struct {W} (e : StructDef W) (t : List W) : e.default = some t →
      (e.isTransparent = true → ∃ f ∈ e.fields, (f.isParsable && !f.isFlat) = true) → ForMissing e.dict t
  | enum {W} (e : EnumDef W) (t : EnumVal W) : e.default = some t → ForMissing e.dict t

/-- **C126.**  A field of such a type may be omitted, and then has this value, unless there is a default for it. -/
theorem c126_types (d : Fields V) (pre : Str) (k : Span) {f : Field V} (i : Nat) (hp : f.Plain)
    (hd : f.default = none) (hn : d.target = none) (ht : f.transforms = []) {α : Type} {b : Dict α} {x : α}
    (hx : ForMissing b x) (g : α → V) (hi : f.item = b.map g) (v : V) :
    Ends d f none .panic (f.item.missing (missingName d pre f) k) i v ↔ v = g x := by
  have hm : f.item.missing (missingName d pre f) k = .ok (g x) := by
    rw [hi]
    cases hx with
    | option b => rfl
    | flag => rfl
    | struct e t he ha =>
      have : e.dict.missing (missingName d pre f) k = .ok t := by
        have h1 : e.missing (missingName d pre f) k = .ok t := by simp only [StructDef.missing, he]
        unfold StructDef.dict
        split
        · rename_i htr
          split
          · exact h1
          · rename_i hnone
            obtain ⟨f0, hf0, hp0⟩ := ha htr
            obtain ⟨j, hj, rfl⟩ := List.getElem_of_mem hf0
            have := List.find?_eq_none.1 hnone (e.fields[j], j) (List.mem_zipIdx_iff_getElem?.2 (List.getElem?_eq_getElem hj))
            exact absurd hp0 this
        · split <;> exact h1
      simp only [Dict.map, this]
      rfl
    | enum e t he =>
      simp only [Dict.map, EnumDef.dict, Dict.mk', he]
      rfl
  have hmem : Ends d f none .panic (f.item.missing (missingName d pre f) k) i (g x) :=
    .inl ⟨g x, .missing hp rfl hd hn hm, by rw [ht]; rfl⟩
  exact ⟨fun h => h.ok_unique (fun _ _ _ h => by cases h) hmem, fun h => h ▸ hmem⟩

/-- C126: the conditions are met by a field whose type is a structure with a default. -/
example (pre : Str) (k : Span) : ∃ (d : Fields (List Bool)) (f : Field (List Bool)) (e : StructDef Bool),
    f.Plain ∧ f.default = none ∧ d.target = none ∧ f.transforms = [] ∧ d.fields[0]? = some f ∧
    ForMissing e.dict [true, false] ∧ f.item = e.dict.map id ∧
    Ends d f none .panic (f.item.missing (missingName d pre f) k) 0 [true, false] := by
  let e : StructDef Bool := { twoNamed "p" "q" with default := some [true, false] }
  let f : Field (List Bool) := plainField ['a'] (e.dict.map id)
  let d : Fields (List Bool) := (⟨.named, [f], none, none, none, []⟩ : StructDef (List Bool)).data
  have h : ForMissing e.dict [true, false] := .struct e _ rfl fun h => by cases h
  exact ⟨d, f, e, ⟨rfl, rfl⟩, rfl, rfl, rfl, rfl, h, rfl,
    (c126_types d pre k 0 ⟨rfl, rfl⟩ rfl rfl rfl h id rfl _).2 rfl⟩

/-- The parsers of flat fields, in any nesting, that take no items whose keys are among `P`, or only those of fields that
may be omitted. -/
inductive PlainSpares (P : Str → Prop) : {α : Type} → M (List Stream) α → Prop
  | ignores {α} {q : M (List Stream) α} : PlainIgnores P q → PlainSpares P q
  | struct {W} (d : StructDef W) (k : Span) (pre : Str) (validate : Bool) : d.Accepted → d.isTransparent = false →
      FieldsGood d.fields → d.andThens = [] → (∀ f ∈ d.fields, f.item.EndsAlike) →
      (∀ f ∈ d.fields, ∀ n sp, Tidy (f.item.named n sp)) →
      (∀ key, P key → ∀ f i, Owns d.fields pre key f i → MayOmit d.data pre k f i) →
      (∀ f ∈ d.fields, f.flatParsable = true → f.transforms = []) →
      (∀ f ∈ d.fields, f.flatParsable = true → PlainSpares P (f.flatCall pre k (Field.fieldNames d.fields))) →
      PlainSpares P (d.flatNamed.parse (.named k) pre validate)
  | embed {α β} {q : M (List Stream) α} (f : α → β) : PlainSpares P q → PlainSpares P (q.mapRes (·.map f))

/-- **C126.**  All of them accept their items without those. -/
theorem c126_every_flat {P : Str → Prop} {α : Type} {q : M (List Stream) α} (h : PlainSpares P q) : Spares P q := by
  induction h with
  | ignores h =>
    intro l l' hd _ v hv
    exact ⟨v, (c124_every_flat h l l' hd).symm.trans hv⟩
  | struct d k pre validate h1 h2 h3 h4 h5 h6 h7 h8 _ ih =>
    intro l l' hd hl v hv
    have h0 : ∀ l, (d.flatNamed.parse (.named k) pre validate l).1 =
      runAndThens d.andThens (namedFlat d.data (Field.fieldNames d.fields) (.named k) pre validate l).1 := fun _ => rfl
    rw [h0, h4] at hv
    obtain ⟨x, hx⟩ : ∃ x, (namedFlat d.data (Field.fieldNames d.fields) (.named k) pre validate l).1 = .ok x := by
      cases hq : (namedFlat d.data (Field.fieldNames d.fields) (.named k) pre validate l).1 with
      | ok x => exact ⟨x, rfl⟩
      | err e => rw [hq] at hv; cases hv
      | panic => rw [hq] at hv; cases hv
    obtain ⟨vs', e1, _⟩ := c126_struct d.data h1.fields h2 h3 h5 h6 (Field.fieldNames d.fields) k pre validate h7
      (fun f hf hp => .inr ⟨ih f hf hp, h8 f hf hp⟩) hd hl hx
    exact ⟨vs', by rw [h0, h4, e1]; rfl⟩
  | embed f _ ih =>
    intro l l' hd hl v hv
    rename_i q _
    cases hq : (q l).1 with
    | ok x =>
      obtain ⟨y, hy⟩ := ih l l' hd hl x hq
      exact ⟨f y, by simp only [M.mapRes, hy]; rfl⟩
    | err e => simp only [M.mapRes, hq] at hv; cases hv
    | panic => simp only [M.mapRes, hq] at hv; cases hv

theorem PlainSpares.whole {P : Str → Prop} {α : Type} {q : M (List Stream) α} (h : PlainSpares P q) : Whole q := by
  induction h with
  | ignores h => exact h.whole
  | struct d k pre validate h1 h2 h3 h4 h5 h6 h7 h8 _ ih =>
    refine (namedFlat_whole d.data h3 (Field.fieldNames d.fields) k pre validate ih).mapped ?_
    intro r y h
    cases r with
    | ok x => exact ⟨x, rfl⟩
    | err e => cases h
    | panic => cases h
  | embed f _ ih =>
    refine ih.mapped ?_
    intro r y h
    cases r with
    | ok x => exact ⟨x, rfl⟩
    | err e => cases h
    | panic => cases h

/-- The items of the field at position `i` are left alone. -/
def LeftAlone (d : StructDef V) (k : Span) (P : Str → Prop) (i : Nat) : Prop :=
  NotNamed d.fields [] P i ∧ ∀ f, d.fields[i]? = some f → f.flatParsable = true →
    PlainIgnores P (f.flatCall [] k (Field.fieldNames d.fields))

/-- **C126.**  A structure that accepts some items accepts them without any of the items of fields that may be omitted,
and only the values of these fields can change: as the items of attributes, in `name(…)` and in braces. -/
theorem c126_items (d : StructDef V) (ha : d.Accepted) (ht : d.isTransparent = false) (hs : d.shape = .named)
    (hg : d.FieldsFine) (hat : d.andThens = []) (he : ∀ f ∈ d.fields, f.item.EndsAlike)
    (hy : ∀ f ∈ d.fields, ∀ n sp, Tidy (f.item.named n sp)) (k : Span) {P : Str → Prop}
    (hP : ∀ key, P key → ∀ f i, Owns d.fields [] key f i → MayOmit d.data [] k f i)
    (hfl : ∀ f ∈ d.fields, f.flatParsable = true → PlainIgnores P (f.flatCall [] k (Field.fieldNames d.fields)) ∨
      (PlainSpares P (f.flatCall [] k (Field.fieldNames d.fields)) ∧ f.transforms = []))
    (vs : List V) :
    (∀ l l', DroppedAll P l l' → Fresh l → (d.dict.inline (.named k) l).1 = .ok vs →
      ∃ vs', (d.dict.inline (.named k) l').1 = .ok vs' ∧
        ∀ i, LeftAlone d k P i → vs'[i]? = vs[i]?) ∧
    ∀ ts ts', Dropped P ts ts' → ∀ a b rest sc,
      ((d.dict.parse (.named k) ⟨.group .brace ts a b :: rest, sc, none⟩).1 = .ok vs →
        ∃ vs', (d.dict.parse (.named k) ⟨.group .brace ts' a b :: rest, sc, none⟩).1 = .ok vs' ∧
          ∀ i, LeftAlone d k P i → vs'[i]? = vs[i]?) ∧
      ∀ n, (d.dict.named n k ⟨.group .paren ts a b :: rest, sc, none⟩).1 = .ok vs →
        ∃ vs', (d.dict.named n k ⟨.group .paren ts' a b :: rest, sc, none⟩).1 = .ok vs' ∧
          ∀ i, LeftAlone d k P i → vs'[i]? = vs[i]? := by
  have hgood : FieldsGood d.fields :=
    ⟨fun f hf _ => (hg.item f hf).named, fun f hf => (hg.item f hf).missing, hg.flat hs⟩
  have hi : ∀ mode, d.dict.inline mode = d.flatNamed.parse mode [] (!d.acceptsAll) := by
    intro mode
    simp only [StructDef.dict, ht, hs]
    rfl
  have hres : ∀ l ws, (d.flatNamed.parse (.named k) [] (!d.acceptsAll) l).1 = .ok ws ↔
      (namedFlat d.data (Field.fieldNames d.fields) (.named k) [] (!d.acceptsAll) l).1 = .ok ws := by
    intro l ws
    have h0 : (d.flatNamed.parse (.named k) [] (!d.acceptsAll) l).1 =
      runAndThens d.andThens (namedFlat d.data (Field.fieldNames d.fields) (.named k) [] (!d.acceptsAll) l).1 := rfl
    rw [h0, hat]
    cases (namedFlat d.data (Field.fieldNames d.fields) (.named k) [] (!d.acceptsAll) l).1 with
    | ok x => exact Iff.rfl
    | err e => exact ⟨fun h => (by cases h), fun h => (by cases h)⟩
    | panic => exact ⟨fun h => (by cases h), fun h => (by cases h)⟩
  have hmain : ∀ l l', DroppedAll P l l' → Fresh l → (d.flatNamed.parse (.named k) [] (!d.acceptsAll) l).1 = .ok vs →
      ∃ vs', (d.flatNamed.parse (.named k) [] (!d.acceptsAll) l').1 = .ok vs' ∧
        ∀ i, LeftAlone d k P i → vs'[i]? = vs[i]? := by
    intro l l' hb hl h
    obtain ⟨vs', h1, h2⟩ := c126_struct d.data ha.fields ht hgood he hy (Field.fieldNames d.fields) k [] (!d.acceptsAll)
      hP (fun f hf hp => (hfl f hf hp).imp c124_every_flat fun h => ⟨c126_every_flat h.1, h.2⟩) hb hl ((hres _ _).1 h)
    refine ⟨vs', (hres _ _).2 h1, fun i hN => ?_⟩
    rcases h2 i with h3 | ⟨key, f, v, p1, p2, _⟩ | ⟨f, p1, p2, p3⟩
    · exact h3
    · exact absurd p2 (hN.1 key p1 f)
    · exact absurd (c124_every_flat (hN.2 f p1 p2)) p3
  have hwhole : Whole (d.flatNamed.parse (.named k) [] (!d.acceptsAll)) := by
    refine (namedFlat_whole d.data hgood (Field.fieldNames d.fields) k [] _ fun f hf hp =>
      (hfl f hf hp).elim (·.whole) (·.1.whole)).mapped ?_
    intro r y h
    cases r with
    | ok x => exact ⟨x, rfl⟩
    | err e => cases h
    | panic => cases h
  have hin : ∀ dl ts a b rest sc ws,
      (parseDelimitedMetaItem dl (fun mode => d.flatNamed.parse mode [] (!d.acceptsAll)) (.named k)
        ⟨.group dl ts a b :: rest, sc, none⟩).1 = .ok ws ↔
      (d.flatNamed.parse (.named k) [] (!d.acceptsAll) [⟨ts, b, none⟩]).1 = .ok ws := fun dl ts a b rest sc ws =>
    brackets_iff (d.flatNamed_good ha ht hs hg _ _ _) fun l' h => hwhole _ _ _ h
  have hone : ∀ dl ts ts', Dropped P ts ts' → ∀ a b rest sc,
      (parseDelimitedMetaItem dl (fun mode => d.flatNamed.parse mode [] (!d.acceptsAll)) (.named k)
        ⟨.group dl ts a b :: rest, sc, none⟩).1 = .ok vs →
      ∃ vs', (parseDelimitedMetaItem dl (fun mode => d.flatNamed.parse mode [] (!d.acceptsAll)) (.named k)
        ⟨.group dl ts' a b :: rest, sc, none⟩).1 = .ok vs' ∧ ∀ i, LeftAlone d k P i → vs'[i]? = vs[i]? := by
    intro dl ts ts' hb a b rest sc h
    obtain ⟨vs', h1, h2⟩ := hmain [⟨ts, b, none⟩] [⟨ts', b, none⟩] (.cons hb .nil) (.single rfl) ((hin _ _ _ _ _ _ _).1 h)
    exact ⟨vs', (hin _ _ _ _ _ _ _).2 h1, h2⟩
  refine ⟨fun l l' hb hl => by rw [hi]; exact hmain l l' hb hl, fun ts ts' hb a b rest sc => ⟨fun h1 => ?_, fun n h1 => ?_⟩⟩
  · have hd : d.dict.parse (.named k) = parseDelimitedMetaItem .brace
        (fun mode => d.flatNamed.parse mode [] (!d.acceptsAll)) (.named k) := by
      simp only [StructDef.dict, ht, hs]
      rfl
    rw [hd] at h1 ⊢
    exact hone .brace ts ts' hb a b rest sc h1
  · have hd : ∀ ts, d.dict.named n k ⟨.group .paren ts a b :: rest, sc, none⟩ = parseDelimitedMetaItem .paren
        (fun mode => d.flatNamed.parse mode [] (!d.acceptsAll)) (.named k) ⟨.group .paren ts a b :: rest, sc, none⟩ := by
      intro ts
      simp only [StructDef.dict, ht, hs]
      rfl
    rw [hd] at h1 ⊢
    exact hone .paren ts ts' hb a b rest sc h1

/-! ## Concrete cases -/

/-- `a` (alias `b`) with a default, a flattened structure with `p` and `q`, and an `append` field. -/
def omittable : StructDef (List Bool) :=
  ⟨.named, [{ plainField ['a'] (boolDict.map fun b => [b]) with idents := [['a'], ['b']], default := some [] },
    { plainField ['i'] (boolDict.map fun b => [b]) with
      flatten := some ⟨true, none⟩, flatNamed := (twoNamed "p" "q").flatNamed },
    { plainField ['x'] (boolDict.map fun b => [b]) with
      idents := [['x'], ['y']], append := some true, appendP := seqAppend boolDict }], none, none, none, []⟩

theorem omittable_all {p : Field (List Bool) → Prop} : (∀ f ∈ omittable.fields, p f) ↔
    p { plainField ['a'] (boolDict.map fun b => [b]) with idents := [['a'], ['b']], default := some [] } ∧
    p { plainField ['i'] (boolDict.map fun b => [b]) with
      flatten := some ⟨true, none⟩, flatNamed := (twoNamed "p" "q").flatNamed } ∧
    p { plainField ['x'] (boolDict.map fun b => [b]) with
      idents := [['x'], ['y']], append := some true, appendP := seqAppend boolDict } := by
  simp [omittable]

/-- The names of the field with the default. -/
def firstNames (k : Str) : Prop := k = ['a'] ∨ k = ['b']

/-- C126: the conditions are met, and `p, b = t, q` without the item of the field with the default is `p, q`. -/
theorem omittable_meets (k : Span) : omittable.Accepted ∧ omittable.isTransparent = false ∧ omittable.shape = .named ∧
    omittable.andThens = [] ∧ omittable.FieldsFine ∧
    (∀ f ∈ omittable.fields, f.item.EndsAlike) ∧ (∀ f ∈ omittable.fields, ∀ n sp, Tidy (f.item.named n sp)) ∧
    (∀ key, firstNames key → ∀ f i, Owns omittable.fields [] key f i → MayOmit omittable.data [] k f i) ∧
    (∀ f ∈ omittable.fields, f.flatParsable = true →
      PlainIgnores firstNames (f.flatCall [] k (Field.fieldNames omittable.fields))) ∧
    Dropped firstNames
      [.ident ['p'] 1, .punct ',' false 2, .ident ['b'] 3, .punct '=' false 6, .ident ['t'] 7, .punct ',' false 4,
        .ident ['q'] 5] [.ident ['p'] 1, .punct ',' false 2, .ident ['q'] 5] := by
  have hin : (twoNamed "p" "q").Accepted := by
    refine ⟨⟨fun f hf h => ?_, fun _ h => ?_⟩, fun h => ?_, fun h => ?_⟩
    · simp only [StructDef.data, twoNamed, List.mem_cons, List.not_mem_nil, or_false] at hf
      rcases hf with rfl | rfl <;> cases h
    · cases h
    · cases h
    · cases h
  have hgood := Dict.map_good (fun b : Bool => [b]) boolDict_good
  have hflat : ∀ f ∈ omittable.fields, f.flatParsable = true → ∀ pre sp allowed, Good (f.flatCall pre sp allowed) :=
    omittable_all.2 ⟨fun h => (by cases h),
      fun _ _ _ _ => (twoNamed "p" "q").flatNamed_good hin rfl rfl twoNamed_fine _ _ _,
      fun _ _ _ _ => seqAppend_good boolDict_good.named _⟩
  refine ⟨⟨⟨?_, fun _ h => (by cases h)⟩, fun h => (by cases h), fun h => (by cases h)⟩, rfl, rfl, rfl,
    ⟨omittable_all.2 ⟨hgood, hgood, hgood⟩, fun _ => hflat, fun h => (by cases h)⟩,
    omittable_all.2 ⟨boolItem_ends, boolItem_ends, boolItem_ends⟩,
    omittable_all.2 ⟨boolItem_tidy, boolItem_tidy, boolItem_tidy⟩, ?_,
    omittable_all.2 ⟨fun h => (by cases h), fun _ => ?_, fun _ => ?_⟩, ?_⟩
  · exact omittable_all.2 ⟨fun h => (by cases h), fun h => (by cases h), fun h => (by cases h)⟩
  · rintro key hk f i ⟨m, hm, h1, h2, h3, _⟩
    have hd : f.Plain → MayOmit omittable.data [] k f i := by
      revert h3
      refine (omittable_all (p := fun f => m ∈ f.idents → f.Plain → MayOmit omittable.data [] k f i)).2
        ⟨fun _ hp => mayOmit_default _ _ _ _ hp rfl rfl, fun _ hp => ?_, fun _ hp => ?_⟩ f (List.mem_of_getElem? h1)
      · cases hp.1
      · cases hp.1
    exact hd h2
  · refine .struct (twoNamed "p" "q") k [] false
      ⟨fun f hf _ => (twoNamed_fine.item f hf).named, fun f hf => (twoNamed_fine.item f hf).missing,
        twoNamed_fine.flat rfl⟩ ?_ ⟨?_, fun _ _ _ h => (by cases h)⟩ ?_
    · intro f hf
      simp only [twoNamed, List.mem_cons, List.not_mem_nil, or_false] at hf
      rcases hf with rfl | rfl <;> exact c56_bool
    · rintro key hk g i ⟨m, hm, h1, _, h3, _⟩
      rw [List.nil_append] at hm
      subst hm
      have hg := List.mem_of_getElem? h1
      simp only [StructDef.data, twoNamed, List.mem_cons, List.not_mem_nil, or_false] at hg
      rcases hg with rfl | rfl <;> simp [plainField] at h3 <;> subst h3 <;> simp [firstNames] at hk
    · intro f hf h
      simp only [twoNamed, List.mem_cons, List.not_mem_nil, or_false] at hf
      rcases hf with rfl | rfl <;> cases h
  · refine .appendSeq boolDict _ boolDict_good.named c56_bool.named fun key hk h => ?_
    rw [show joinPaths [] _ = [['x'], ['y']] from rfl] at h
    rcases hk with rfl | rfl <;> simp at h
  · refine .keep (v := [.ident ['p'] 1]) (by simp [NoComma, Comma]) ⟨_, _, rfl⟩ ?_
    exact .more (segs := [['b']]) (sp := 3) (v := [.ident ['b'] 3, .punct '=' false 6, .ident ['t'] 7])
      (vt := [.punct '=' false 6, .ident ['t'] 7])
      (.mk (pt := [.ident ['b'] 3]) (.plain (.one _ _)) (by simp [StartsColon2])) (.inr rfl)
      (by simp [NoComma, Comma]) ⟨_, _, rfl⟩ (.same _)

/-- C126: the structure, flattened in another, may lose the items of its field with the default; `omittable` does own
such items, so this is not the case of items that it ignores. -/
example (k : Span) : PlainSpares firstNames (omittable.flatNamed.parse (.named k) [] false) ∧
    ∃ f i, Owns omittable.fields [] ['b'] f i := by
  obtain ⟨h1, h2, _, h4, h5, h6, h7, h8, h9, _⟩ := omittable_meets k
  refine ⟨.struct omittable k [] false h1 h2
    ⟨fun f hf _ => (h5.item f hf).named, fun f hf => (h5.item f hf).missing, h5.flat rfl⟩ h4 h6 h7 h8
    (omittable_all.2 ⟨fun h => (by cases h), fun _ => rfl, fun _ => rfl⟩) fun f hf hp => .ignores (h9 f hf hp), ?_⟩
  refine ⟨_, 0, ['b'], rfl, rfl, ⟨rfl, rfl⟩, by simp, ?_⟩
  intro j g hj
  exact absurd hj (Nat.not_lt_zero j)

/-- A structure with `z` and `omittable` flattened. -/
def aroundOmittable : StructDef (List (List Bool)) :=
  ⟨.named, [plainField ['z'] (boolDict.map fun b => [[b]]),
    { plainField ['i'] (boolDict.map fun b => [[b]]) with
      flatten := some ⟨true, none⟩, flatNamed := omittable.flatNamed }], none, none, none, []⟩

/-- C126: `{p, b, z, q = false}` and `{p, z, q = false}` for it. -/
example : letI : Env := ⟨fun a _ => some a, fun _ _ => 0, 1⟩
    ((aroundOmittable.dict.parse (.named 0) ⟨[.group .brace [.ident ['p'] 1, .punct ',' false 2, .ident ['b'] 3,
      .punct ',' false 4, .ident ['z'] 3, .punct ',' false 4,
      .ident ['q'] 5, .punct '=' false 6, .ident "false".toList 7] 8 9], 0, none⟩).1 matches
      .ok [[[true]], [[true], [true, false], []]]) ∧
    ((aroundOmittable.dict.parse (.named 0) ⟨[.group .brace [.ident ['p'] 1, .punct ',' false 2,
      .ident ['z'] 3, .punct ',' false 4, .ident ['q'] 5, .punct '=' false 6, .ident "false".toList 7] 8 9], 0, none⟩).1
      matches .ok [[[true]], [[], [true, false], []]]) := by
  decide +kernel

/-- C126: `{p, b, q = false}` and `{p, q = false}` are accepted and only the field with the default changes; without `p`
the list is rejected. -/
example : letI : Env := ⟨fun a _ => some a, fun _ _ => 0, 1⟩
    ((omittable.dict.parse (.named 0) ⟨[.group .brace [.ident ['p'] 1, .punct ',' false 2, .ident ['b'] 3, .punct ',' false 4,
      .ident ['q'] 5, .punct '=' false 6, .ident "false".toList 7] 8 9], 0, none⟩).1 matches
      .ok [[true], [true, false], []]) ∧
    ((omittable.dict.parse (.named 0) ⟨[.group .brace [.ident ['p'] 1, .punct ',' false 2,
      .ident ['q'] 5, .punct '=' false 6, .ident "false".toList 7] 8 9], 0, none⟩).1 matches
      .ok [[], [true, false], []]) ∧
    ((omittable.dict.parse (.named 0) ⟨[.group .brace [.ident ['b'] 3, .punct ',' false 4,
      .ident ['q'] 5, .punct '=' false 6, .ident "false".toList 7] 8 9], 0, none⟩).1 matches .err _) := by
  decide +kernel

end
end Deluxe
