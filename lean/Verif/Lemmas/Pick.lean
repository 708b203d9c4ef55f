import Verif.Lemmas.Struct
import Verif.Spec.Pick
/-!
# Reading a structure does not depend on the order of its fields
-/
namespace Deluxe

section
variable {α : Type}

theorem select_length {idx : List Nat} {l : List α} (h : ∀ i ∈ idx, i < l.length) : (select idx l).length = idx.length := by
  induction idx with
  | nil => rfl
  | cons i idx ih =>
    have hi := h i List.mem_cons_self
    simp only [select, List.filterMap_cons, List.getElem?_eq_getElem hi, List.length_cons]
    exact congrArg (· + 1) (ih fun j hj => h j (List.mem_cons_of_mem _ hj))

theorem select_get {idx : List Nat} {l : List α} (h : ∀ i ∈ idx, i < l.length) (j : Nat) :
    (select idx l)[j]? = idx[j]?.bind (l[·]?) := by
  induction idx generalizing j with
  | nil => rfl
  | cons i idx ih =>
    have hi := h i List.mem_cons_self
    simp only [select, List.filterMap_cons, List.getElem?_eq_getElem hi]
    cases j with
    | zero => simp [hi]
    | succ j => simpa [select] using ih (fun j hj => h j (List.mem_cons_of_mem _ hj)) j

theorem select_mem {idx : List Nat} {l : List α} {a : α} (h : a ∈ select idx l) : a ∈ l := by
  obtain ⟨i, _, hi⟩ := List.mem_filterMap.1 h
  exact List.mem_of_getElem? hi

theorem nodup_get {idx : List Nat} (h : idx.Nodup) {j k i : Nat} (hj : idx[j]? = some i) (hk : idx[k]? = some i) :
    j = k := by
  obtain ⟨h1, h2⟩ := List.getElem?_eq_some_iff.1 hj
  obtain ⟨h3, h4⟩ := List.getElem?_eq_some_iff.1 hk
  have hp := List.pairwise_iff_getElem.1 h
  rcases Nat.lt_trichotomy j k with hlt | he | hlt
  · exact absurd (h2.trans h4.symm) (hp j k h1 h3 hlt)
  · exact he
  · exact absurd (h4.trans h2.symm) (hp k j h3 h1 hlt)
end

variable {V : Type}

/-- The item of the field that is at position `j` of `idx` is that of the field at this position. -/
def SItem.move (idx : List Nat) : SItem V → SItem V
  | .field j n sp x => .field (idx.getD j 0) n sp x
  | .other k sp => .other k sp

section
variable {idx : List Nat} {fields : List (Field V)}

theorem Picks.get (h : Picks idx fields) {j : Nat} {f : Field V} :
    (select idx fields)[j]? = some f ↔ ∃ i, idx[j]? = some i ∧ fields[i]? = some f := by
  rw [select_get h.lt, Option.bind_eq_some_iff]

/-- The owner of a key is the same field. -/
theorem Picks.owns (h : Picks idx fields) (ho : OneOwner fields) {pre key : Str} {f : Field V} {i : Nat} :
    Owns fields pre key f i ↔ ∃ j, idx[j]? = some i ∧ Owns (select idx fields) pre key f j := by
  constructor
  · rintro ⟨k, h1, h2, h3, h4, -⟩
    obtain ⟨j, hj, hij⟩ := List.mem_iff_getElem.1 (h.parsed i f h2 h3.2)
    have hij' : idx[j]? = some i := by rw [List.getElem?_eq_getElem hj, hij]
    refine ⟨j, hij', k, h1, h.get.2 ⟨i, hij', h2⟩, h3, h4, ?_⟩
    intro j' g hlt hg hp hk
    obtain ⟨i', hi', hg'⟩ := h.get.1 hg
    have := ho i i' f g k h2 hg' h3 hp h4 hk
    subst this
    have := nodup_get h.nodup hij' hi'
    omega
  · rintro ⟨j, hj, k, h1, h2, h3, h4, -⟩
    obtain ⟨i', hi', h2'⟩ := h.get.1 h2
    have : i' = i := by rw [hi'] at hj; exact Option.some.inj hj
    subst this
    refine ⟨k, h1, h2', h3, h4, ?_⟩
    intro j' g hlt hg hp hk
    have := ho i' j' f g k h2' hg h3 hp h4 hk
    omega

theorem Picks.owner (h : Picks idx fields) (ho : OneOwner fields) (pre key : Str) :
    (stripPrefix pre key).bind (findArm fields) =
      ((stripPrefix pre key).bind (findArm (select idx fields))).map fun x => (x.1, idx.getD x.2 0) := by
  cases hx : (stripPrefix pre key).bind (findArm (select idx fields)) with
  | none =>
    rw [owner_none] at hx
    rw [Option.map_none, owner_none]
    intro f i hf
    obtain ⟨j, _, hj⟩ := (h.owns ho).1 hf
    exact hx f j hj
  | some x =>
    have hx' := (owner_some _ _ _ x.1 x.2).1 hx
    obtain ⟨k, hk1, hk2, hk3⟩ := id hx'
    obtain ⟨i, hi, _⟩ := h.get.1 hk2
    rw [Option.map_some]
    refine (owner_some _ _ _ _ _).2 ((h.owns ho).2 ⟨x.2, ?_, hx'⟩)
    rw [List.getD_eq_getElem?_getD, hi]
    rfl

theorem Picks.value (h : Picks idx fields) (ho : OneOwner fields) (pre key : Str) (sp : Span) :
    structValue fields pre key sp = (structValue (select idx fields) pre key sp).map (SItem.move idx) := by
  unfold structValue
  rw [h.owner ho]
  cases (stripPrefix pre key).bind (findArm (select idx fields)) with
  | none => rfl
  | some x =>
    funext s
    simp only [Option.map_some, M.map]
    cases (recover (x.1.item.named (x.1.idents.headD []) sp) s).1 <;> rfl

theorem Picks.item [Env] (h : Picks idx fields) (ho : OneOwner fields) (pre : Str) :
    structItem fields pre = (structItem (select idx fields) pre).map (SItem.move idx) := by
  funext s
  simp only [structItem, keyed, M.map]
  cases hp : parseAnyPath s with
  | mk r s1 =>
    cases r with
    | ok p => simp only [h.value ho]; rfl
    | err e => rfl
    | panic => rfl
end

/-- Renaming what is read. -/
theorem Reads.map {β γ : Type} {item : M Stream β} (g : β → γ) {s rs fatal s'} (h : Reads item s rs fatal s') :
    Reads (item.map g) s (rs.map fun x => (g x.1, x.2)) fatal s' := by
  induction h with
  | done h => exact .done h
  | last h1 h2 h3 => exact .last h1 (by simp only [M.map, h2, Res.map]) h3
  | more h1 h2 h3 h4 _ ih => exact .more h1 (by simp only [M.map, h2, Res.map]) h3 h4 ih
  | failItem h1 h2 => exact .failItem h1 (by simp only [M.map, h2, Res.map])
  | failSep h1 h2 h3 h4 => exact .failSep h1 (by simp only [M.map, h2, Res.map]) h3 h4

theorem ReadsAll.map {β γ : Type} {item : M Stream β} (g : β → γ) {l rs fatal l'} (h : ReadsAll item l rs fatal l') :
    ReadsAll (item.map g) l (rs.map fun x => (g x.1, x.2)) fatal l' := by
  induction h with
  | nil => exact .nil
  | cons h1 _ ih => rw [List.map_append]; exact .cons (h1.map g) ih
  | fail h1 => exact .fail (h1.map g)

section
variable {idx : List Nat} {fields : List (Field V)}

theorem getD_of_some {j i : Nat} (h : idx[j]? = some i) : idx.getD j 0 = i := by
  rw [List.getD_eq_getElem?_getD, h]; rfl

theorem Picks.owned (h : Picks idx fields) {bs : List (SItem V)} (hb : Owned (select idx fields) bs) {j n sp x}
    (hm : .field j n sp x ∈ bs) : ∃ i, idx[j]? = some i := by
  obtain ⟨f, hf, _⟩ := hb j n sp x hm
  obtain ⟨i, hi, _⟩ := h.get.1 hf
  exact ⟨i, hi⟩

theorem Picks.given (h : Picks idx fields) {bs : List (SItem V)} (hb : Owned (select idx fields) bs) {j i : Nat}
    (hj : idx[j]? = some i) : given i (bs.map (SItem.move idx)) = given j bs := by
  induction bs with
  | nil => rfl
  | cons b bs ih =>
    have ih := ih fun j n sp x hm => hb j n sp x (List.mem_cons_of_mem _ hm)
    cases b with
    | other k sp => exact ih
    | field k n sp x =>
      obtain ⟨i', hi'⟩ := h.owned hb (List.mem_cons_self)
      simp only [List.map_cons, SItem.move, Deluxe.given, getD_of_some hi']
      by_cases hk : k = j
      · subst hk
        rw [hj] at hi'
        cases hi'
        simp
      · rw [if_neg hk, if_neg, ih]
        intro he
        subst he
        exact hk (nodup_get h.nodup hi' hj)

omit fields in
theorem owners_move (bs : List (SItem V)) :
    owners (bs.map (SItem.move idx)) = (owners bs).map (idx.getD · 0) := by
  induction bs with
  | nil => rfl
  | cons b bs ih =>
    cases b with
    | other k sp => exact ih
    | field k n sp x => simp only [List.map_cons, SItem.move, Deluxe.owners, ih]

omit idx fields in
theorem mem_owners {bs : List (SItem V)} {j : Nat} : j ∈ Deluxe.owners bs ↔ ∃ n sp x, .field j n sp x ∈ bs := by
  induction bs with
  | nil => simp [Deluxe.owners]
  | cons b bs ih =>
    cases b with
    | other k sp => simp [Deluxe.owners, ih]
    | field k n sp x =>
      simp only [Deluxe.owners, List.mem_cons, ih, SItem.field.injEq]
      constructor
      · rintro (rfl | ⟨n, sp, x, h⟩)
        · exact ⟨_, _, _, .inl ⟨rfl, rfl, rfl, rfl⟩⟩
        · exact ⟨_, _, _, .inr h⟩
      · rintro ⟨n, sp, x, ⟨rfl, _⟩ | h⟩
        · exact .inl rfl
        · exact .inr ⟨_, _, _, h⟩

/-- The positions of the owners differ in both structures or in none. -/
theorem Picks.nodup_owners (h : Picks idx fields) {bs : List (SItem V)} (hb : Owned (select idx fields) bs) :
    (Deluxe.owners (bs.map (SItem.move idx))).Nodup ↔ (Deluxe.owners bs).Nodup := by
  rw [owners_move, List.Nodup, List.pairwise_map]
  have key : ∀ {j}, j ∈ Deluxe.owners bs → ∃ i, idx[j]? = some i := by
    intro j hj
    obtain ⟨n, sp, x, hm⟩ := mem_owners.1 hj
    exact h.owned hb hm
  constructor
  · intro hp
    exact hp.imp fun hne he => hne (by rw [he])
  · intro hp
    refine List.Pairwise.imp_of_mem ?_ hp
    intro a b ha hb hne he
    obtain ⟨i, hi⟩ := key ha
    obtain ⟨i', hi'⟩ := key hb
    rw [getD_of_some hi, getD_of_some hi'] at he
    subst he
    exact hne (nodup_get h.nodup hi hi')

/-- Nothing is wrong with the items of both structures or with those of one. -/
theorem Picks.itemsOk (h : Picks idx fields) {bs : List (SItem V)} (hb : Owned (select idx fields) bs) (check : Bool)
    {allowed allowed' : List Str} (ha : ∀ n, n ∈ allowed ↔ n ∈ allowed') :
    ItemsOk check allowed (bs.map (SItem.move idx)) ↔ ItemsOk check allowed' bs := by
  constructor
  · rintro ⟨h1, h2, h3⟩
    refine ⟨(h.nodup_owners hb).1 h1, fun i n sp x hm => h2 _ n sp x (List.mem_map.2 ⟨_, hm, rfl⟩), fun key sp hm hc =>
      (ha _).1 (h3 key sp (List.mem_map.2 ⟨_, hm, rfl⟩) hc)⟩
  · rintro ⟨h1, h2, h3⟩
    refine ⟨(h.nodup_owners hb).2 h1, fun i n sp x hm => ?_, fun key sp hm hc => ?_⟩
    · obtain ⟨b, hb, he⟩ := List.mem_map.1 hm
      cases b with
      | other => cases he
      | field j n sp x => cases he; exact h2 _ _ _ _ hb
    · obtain ⟨b, hb, he⟩ := List.mem_map.1 hm
      cases b with
      | field => cases he
      | other => cases he; exact (ha _).2 (h3 _ _ hb hc)
end

/-- Fresh streams. -/
theorem fork_fresh {l : List Stream} (h : ∀ s ∈ l, s.unexp = none) : forkInputs l = l := by
  induction l with
  | nil => rfl
  | cons s l ih =>
    have hs := h s List.mem_cons_self
    obtain ⟨t, sc, u⟩ := s
    dsimp only at hs
    subst hs
    have := ih fun s hs => h s (List.mem_cons_of_mem _ hs)
    simp only [forkInputs, List.map_cons, Stream.fork] at this ⊢
    rw [this]

theorem fork_if {fields : List (Field V)} {l : List Stream} (h : NoFork fields l) :
    (if fields.any (·.flatParsable) then forkInputs l else l) = l := by
  rcases h with h | h
  · split
    · exact fork_fresh h
    · rfl
  · rw [if_neg]
    simpa using h

theorem NoFork.select {fields : List (Field V)} {l : List Stream} (h : NoFork fields l) (idx : List Nat) :
    NoFork (select idx fields) l :=
  h.imp id fun h f hf => h f (select_mem hf)

theorem flatOut_fresh {fields : List (Field V)} {l : List Stream} (hl : NoFork fields l) (pre : Str) (span : Span)
    (allowed : List Str) (f : Field V) (i : Nat) :
    flatOut fields pre span allowed l f i = (f.flatCall pre span allowed l).1 := by
  unfold flatOut
  rw [fork_if (hl.imp id fun h f hf => h f (List.mem_of_mem_drop hf))]

theorem flatCall_names {f : Field V} (hf : ∀ names names', (∀ n : Str, n ∈ names ↔ n ∈ names') → f.restP names = f.restP names')
    {allowed allowed' : List Str} (ha : ∀ n, n ∈ allowed ↔ n ∈ allowed') (pre : Str) (span : Span) :
    f.flatCall pre span allowed = f.flatCall pre span allowed' := by
  unfold Field.flatCall
  rw [hf _ _ ha]

theorem Source.target_congr {d d' : Fields V} (h1 : d.obj = d'.obj) (h2 : d.target.isSome = d'.target.isSome)
    {f : Field V} {g : Option (Except SynErr V)} {fl ms : Res V} {b : Option V} (h : Source d f g fl ms b) :
    Source d' f g fl ms b := by
  have hn : NotGiven d f g → NotGiven d' f g := by
    intro h
    unfold NotGiven at h ⊢
    rw [← h1]
    exact h
  cases h with
  | item a b => exact .item a b
  | flat a b => exact .flat a b
  | container a b => exact .container a (h1 ▸ b)
  | default a b => exact .default (hn a) b
  | missing a b c e k =>
    refine .missing a b c ?_ k
    rw [e] at h2
    cases h : d'.target with
    | none => rfl
    | some t => rw [h] at h2; cases h2
  | target a b c =>
    rw [c] at h2
    cases h : d'.target with
    | none => rw [h] at h2; cases h2
    | some t => exact .target (hn a) b h

theorem TransMsgs.target_congr {d d' : Fields V} (h1 : d.obj = d'.obj) (h2 : d.target.isSome = d'.target.isSome)
    {f : Field V} {g : Option (Except SynErr V)} {fl ms : Res V} {m : List Msg} (h : TransMsgs d f g fl ms m) :
    TransMsgs d' f g fl ms m := by
  rcases h with ⟨b, e, h3, h4, h5⟩ | ⟨h3, h4⟩
  · exact .inl ⟨b, e, h3.target_congr h1 h2, h4, h5⟩
  · exact .inr ⟨h3, fun b e hs => h4 b e (hs.target_congr h1.symm h2.symm)⟩

section
variable [Env] {idx : List Nat} {d : Fields V}

omit [Env] in
theorem Picks.accepted (h : Picks idx d.fields) (ha : Accepted d) : Accepted (d.select idx) := by
  refine ⟨fun f hf hp => ?_, fun t ht => ?_⟩
  · rcases ha.filled f (select_mem hf) hp with h1 | h1 | h1
    · exact .inl h1
    · exact .inr (.inl (by simpa [Fields.select] using h1))
    · exact .inr (.inr h1)
  · simp only [Fields.select, Option.map_eq_some_iff] at ht
    obtain ⟨t', ht', rfl⟩ := ht
    have := ha.target t' ht'
    show (select idx t').length = (select idx d.fields).length
    rw [select_length h.lt, select_length fun i hi => by rw [this]; exact h.lt i hi]

omit [Env] in
theorem FieldsGood.select (hg : FieldsGood d.fields) : FieldsGood (select idx d.fields) :=
  ⟨fun f hf => hg.named f (select_mem hf), fun f hf => hg.missing f (select_mem hf), fun f hf => hg.flat f (select_mem hf)⟩

omit [Env] in
theorem Picks.holds (h : Picks idx d.fields) (ha : Accepted d) (hn : NamesOnly d.fields) {allowed allowed' : List Str}
    (hal : ∀ n, n ∈ allowed ↔ n ∈ allowed') (pre : Str) (span : Span) {l : List Stream} (hl : NoFork d.fields l)
    {bs : List (SItem V)} (hb : Owned (Deluxe.select idx d.fields) bs) {i j : Nat} (hj : idx[j]? = some i) {f : Field V}
    (hf : f ∈ d.fields) (v : V) :
    Holds d allowed pre span l (bs.map (SItem.move idx)) f i v ↔ Holds (d.select idx) allowed' pre span l bs f j v := by
  have e1 := h.given hb hj
  have e2 : flatOut d.fields pre span allowed l f i = flatOut (d.select idx).fields pre span allowed' l f j := by
    rw [flatOut_fresh hl, flatOut_fresh (fields := (d.select idx).fields) (hl.select idx), flatCall_names (hn f hf) hal]
  have e3 : missingName d pre f = missingName (d.select idx) pre f := rfl
  have e4 : d.target.isSome = (d.select idx).target.isSome := by simp [Fields.select]
  have ht : ∀ v, (∃ t, d.target = some t ∧ t[i]? = some v) ↔ ∃ t, (d.select idx).target = some t ∧ t[j]? = some v := by
    intro v
    simp only [Fields.select, Option.map_eq_some_iff]
    constructor
    · rintro ⟨t, h1, h2⟩
      refine ⟨_, ⟨t, h1, rfl⟩, ?_⟩
      rw [select_get fun i hi => by rw [ha.target t h1]; exact h.lt i hi, hj]
      exact h2
    · rintro ⟨_, ⟨t, h1, rfl⟩, h2⟩
      refine ⟨t, h1, ?_⟩
      rw [select_get fun i hi => by rw [ha.target t h1]; exact h.lt i hi, hj] at h2
      exact h2
  unfold Holds Ends
  rw [e1, e2, e3, ht]
  constructor
  · rintro (⟨b, h1, h2⟩ | ⟨h1, h2⟩)
    · exact .inl ⟨b, h1.target_congr (d := d) (d' := d.select idx) rfl e4, h2⟩
    · exact .inr ⟨h1.target_congr (d := d) (d' := d.select idx) rfl e4, h2⟩
  · rintro (⟨b, h1, h2⟩ | ⟨h1, h2⟩)
    · exact .inl ⟨b, h1.target_congr (d := d.select idx) (d' := d) rfl e4.symm, h2⟩
    · exact .inr ⟨h1.target_congr (d := d.select idx) (d' := d) rfl e4.symm, h2⟩

omit [Env] in
theorem holds_unparsed {allowed : List Str} {pre : Str} {span : Span} {l : List Stream} {bs : List (SItem V)} {f : Field V}
    {i : Nat} (hp : f.isParsable = false) (v : V) : Holds d allowed pre span l bs f i v ↔ Unparsed d f i v := by
  have hpl : ¬ f.Plain := fun h => by rw [h.2] at hp; cases hp
  have hfl : ¬ f.flatParsable = true := by simp [Field.flatParsable, hp]
  unfold Holds Ends Unparsed
  constructor
  · rintro (⟨b, h1, h2⟩ | ⟨h1, t, h2, h3⟩)
    · refine .inl ⟨b, ?_, h2⟩
      cases h1 with
      | item a => exact absurd a hpl
      | flat a => exact absurd a hfl
      | container a b => exact .inl ⟨a, b⟩
      | default a b =>
        rcases a with a | a
        · exact absurd a.1 hpl
        · exact .inr ⟨a.2, b⟩
      | missing a => exact absurd a hpl
    · refine .inr ?_
      cases h1 with
      | target a b c =>
        rcases a with a | a
        · exact absurd a.1 hpl
        · exact ⟨a.2, b, t, h2, h3⟩
  · rintro (⟨b, h1 | h1, h2⟩ | ⟨h1, h2, t, h3, h4⟩)
    · exact .inl ⟨b, .container h1.1 h1.2, h2⟩
    · exact .inl ⟨b, .default (.inr ⟨hp, h1.1⟩) h1.2, h2⟩
    · exact .inr ⟨.target (.inr ⟨hp, h1⟩) h2 h3, t, h3, h4⟩

/-- The value of a structure, from that of the structure with the picked fields. -/
theorem Picks.ok (h : Picks idx d.fields) (ha : Accepted d) (ht : d.transparent = false) (hg : FieldsGood d.fields)
    (ho : OneOwner d.fields) (hn : NamesOnly d.fields) {allowed allowed' : List Str}
    (hal : ∀ n, n ∈ allowed ↔ n ∈ allowed') (mode : Mode) (pre : Str) (validate : Bool) {l : List Stream}
    (hl : NoFork d.fields l) (vs : List V) :
    (namedFlat d allowed mode pre validate l).1 = .ok vs ↔
      vs.length = d.fields.length ∧ (namedFlat (d.select idx) allowed' mode pre validate l).1 = .ok (select idx vs) ∧
        ∀ i f, d.fields[i]? = some f → i ∉ idx → ∃ v, vs[i]? = some v ∧ Unparsed d f i v := by
  obtain ⟨rs, fatal, l1, hr⟩ := ReadsAll.exists (structItem_good (fields := select idx d.fields) hg.select.named pre) l
  have hr' := hr.map (SItem.move idx)
  rw [← h.item ho] at hr'
  have hb := hr.owned
  have h1 := namedFlat_ok d ha ht hg allowed mode pre validate
    (l := l) (rs := rs.map fun x => (SItem.move idx x.1, x.2)) (fatal := fatal) (l1 := l1)
    (by rw [fork_if hl]; exact hr') vs
  have h2 := namedFlat_ok (d.select idx) (h.accepted ha) ht hg.select allowed' mode pre validate
    (l := l) (rs := rs) (fatal := fatal) (l1 := l1) (by rw [fork_if (fields := (d.select idx).fields) (hl.select idx)]; exact hr) (select idx vs)
  rw [h1]
  have e : (rs.map fun x => (SItem.move idx x.1, x.2)).map (·.1) = (rs.map (·.1)).map (SItem.move idx) := by
    simp [List.map_map, Function.comp_def]
  rw [e, h.itemsOk hb _ hal]
  have hnp : ∀ i f, d.fields[i]? = some f → i ∉ idx → f.isParsable = false := by
    intro i f hf hi
    cases hp : f.isParsable with
    | false => rfl
    | true => exact absurd (h.parsed i f hf hp) hi
  constructor
  · rintro ⟨h3, h4, h5, h6⟩
    have hlt : ∀ i ∈ idx, i < vs.length := fun i hi => by rw [h5]; exact h.lt i hi
    refine ⟨h5, h2.2 ⟨h3, h4, ?_, ?_⟩, ?_⟩
    · show (select idx vs).length = (select idx d.fields).length
      rw [select_length hlt, select_length h.lt]
    · intro j f hf
      obtain ⟨i, hi, hf'⟩ := h.get.1 hf
      obtain ⟨v, hv, hh⟩ := h6 i f hf'
      refine ⟨v, ?_, (h.holds ha hn hal pre _ hl hb hi (List.mem_of_getElem? hf') v).1 hh⟩
      rw [select_get hlt, hi]
      exact hv
    · intro i f hf hi
      obtain ⟨v, hv, hh⟩ := h6 i f hf
      exact ⟨v, hv, (holds_unparsed (hnp i f hf hi) v).1 hh⟩
  · rintro ⟨h5, h3, h6⟩
    have hlt : ∀ i ∈ idx, i < vs.length := fun i hi => by rw [h5]; exact h.lt i hi
    obtain ⟨h7, h8, _, h9⟩ := h2.1 h3
    refine ⟨h7, h8, h5, fun i f hf => ?_⟩
    by_cases hi : i ∈ idx
    · obtain ⟨j, hj, hij⟩ := List.mem_iff_getElem.1 hi
      have hij' : idx[j]? = some i := by rw [List.getElem?_eq_getElem hj, hij]
      obtain ⟨v, hv, hh⟩ := h9 j f (h.get.2 ⟨i, hij', hf⟩)
      rw [select_get hlt, hij'] at hv
      exact ⟨v, hv, (h.holds ha hn hal pre _ hl hb hij' (List.mem_of_getElem? hf) v).2 hh⟩
    · obtain ⟨v, hv, hh⟩ := h6 i f hf hi
      exact ⟨v, hv, (holds_unparsed (hnp i f hf hi) v).2 hh⟩

omit [Env] in
theorem Source.unique {f : Field V} {g : Option (Except SynErr V)} {fl ms : Res V} {b b' : Option V}
    (h : Source d f g fl ms b) (h' : Source d f g fl ms b') : b = b' := by
  have hc : f.isContainer = true → ¬ f.isParsable = true := by
    intro h1 h2
    simp [Field.isParsable, h1] at h2
  have hpc : f.Plain → ¬ f.isContainer = true := fun h1 h2 => hc h2 h1.2
  have hfc : f.flatParsable = true → ¬ f.isContainer = true := by
    intro h1 h2
    simp only [Field.flatParsable, Bool.and_eq_true] at h1
    exact hc h2 h1.2
  have hpf : f.Plain → ¬ f.flatParsable = true := by
    intro h1 h2
    simp [Field.flatParsable, h1.1] at h2
  have hnf : NotGiven d f g → ¬ f.flatParsable = true := by
    rintro (⟨h1, _⟩ | ⟨h1, _⟩)
    · exact hpf h1
    · intro h2
      simp [Field.flatParsable, h1] at h2
  have hni : NotGiven d f g → ∀ x, f.Plain → ¬ g = some x := by
    rintro (⟨_, h1⟩ | ⟨h1, _⟩) x hp h2
    · rw [h1] at h2; cases h2
    · rw [hp.2] at h1; cases h1
  have hnc : NotGiven d f g → ∀ v, f.isContainer = true → ¬ d.obj = some v := by
    rintro (⟨h1, _⟩ | ⟨_, h1⟩) v hcn hob
    · exact hpc h1 hcn
    · exact h1 ⟨hcn, by rw [hob]; rfl⟩
  cases h with
  | item p1 p2 =>
    cases h' with
    | item q1 q2 => rw [p2] at q2; cases q2; rfl
    | flat q1 q2 => exact absurd q1 (hpf p1)
    | container q1 q2 => exact absurd q1 (hpc p1)
    | default q1 q2 => exact absurd p2 (hni q1 _ p1)
    | missing q1 q2 => rw [p2] at q2; cases q2
    | target q1 q2 => exact absurd p2 (hni q1 _ p1)
  | flat p1 p2 =>
    cases h' with
    | item q1 q2 => exact absurd p1 (hpf q1)
    | flat q1 q2 => rw [p2] at q2; cases q2; rfl
    | container q1 q2 => exact absurd q1 (hfc p1)
    | default q1 q2 => exact absurd p1 (hnf q1)
    | missing q1 q2 => exact absurd p1 (hpf q1)
    | target q1 q2 => exact absurd p1 (hnf q1)
  | container p1 p2 =>
    cases h' with
    | item q1 q2 => exact absurd p1 (hpc q1)
    | flat q1 q2 => exact absurd p1 (hfc q1)
    | container q1 q2 => rw [p2] at q2; cases q2; rfl
    | default q1 q2 => exact absurd p2 (hnc q1 _ p1)
    | missing q1 q2 => exact absurd p1 (hpc q1)
    | target q1 q2 => exact absurd p2 (hnc q1 _ p1)
  | default p1 p2 =>
    cases h' with
    | item q1 q2 => exact absurd q2 (hni p1 _ q1)
    | flat q1 q2 => exact absurd q1 (hnf p1)
    | container q1 q2 => exact absurd q2 (hnc p1 _ q1)
    | default q1 q2 => rw [p2] at q2; cases q2; rfl
    | missing q1 q2 q3 => rw [p2] at q3; cases q3
    | target q1 q2 => rw [p2] at q2; cases q2
  | missing p1 p2 p3 p4 p5 =>
    cases h' with
    | item q1 q2 => rw [p2] at q2; cases q2
    | flat q1 q2 => exact absurd q1 (hpf p1)
    | container q1 q2 => exact absurd q1 (hpc p1)
    | default q1 q2 => rw [p3] at q2; cases q2
    | missing q1 q2 q3 q4 q5 => rw [p5] at q5; cases q5; rfl
    | target q1 q2 q3 => rw [p4] at q3; cases q3
  | target p1 p2 p3 =>
    cases h' with
    | item q1 q2 => exact absurd q2 (hni p1 _ q1)
    | flat q1 q2 => exact absurd q1 (hnf p1)
    | container q1 q2 => exact absurd q2 (hnc p1 _ q1)
    | default q1 q2 => rw [p2] at q2; cases q2
    | missing q1 q2 q3 q4 => rw [p3] at q4; cases q4
    | target => rfl

omit [Env] in
theorem TransMsgs.unique {f : Field V} {g : Option (Except SynErr V)} {fl ms : Res V} {m m' : List Msg}
    (h : TransMsgs d f g fl ms m) (h' : TransMsgs d f g fl ms m') : m = m' := by
  rcases h with ⟨b, e, h1, h2, h3⟩ | ⟨h1, h2⟩ <;> rcases h' with ⟨b', e', h1', h2', h3'⟩ | ⟨h1', h2'⟩
  · cases h1.unique h1'
    rw [h2] at h2'
    cases h2'
    rw [h3, h3']
  · exact absurd h2 (h2' b e h1)
  · exact absurd h2' (h2 b' e' h1')
  · rw [h1, h1']

omit [Env] in
/-- The messages about each field are those about the picked fields, if there are none about the others. -/
theorem Picks.perm {α : Type} (h : Picks idx d.fields) {ms ms' : List (List α)} (hl : ms.length = d.fields.length)
    (hl' : ms'.length = idx.length) (he : ∀ i j : Nat, idx[j]? = some i → ms[i]? = ms'[j]?)
    (hr : ∀ (i : Nat) m, i ∉ idx → ms[i]? = some m → m = []) : ms.flatten.Perm ms'.flatten := by
  have e1 : ms = (List.range d.fields.length).map fun i => (ms[i]?).getD [] := by
    apply List.ext_getElem?
    intro i
    rw [List.getElem?_map]
    by_cases hi : i < d.fields.length
    · rw [List.getElem?_range hi, Option.map_some, List.getElem?_eq_getElem (by omega)]; rfl
    · rw [List.getElem?_eq_none (by omega), List.getElem?_eq_none (by simpa using hi)]; rfl
  have e2 : ms' = idx.map fun i => (ms[i]?).getD [] := by
    apply List.ext_getElem?
    intro j
    rw [List.getElem?_map]
    by_cases hj : j < idx.length
    · have hi : idx[j]? = some idx[j] := List.getElem?_eq_getElem hj
      rw [← he _ j hi, hi]
      have : idx[j] < ms.length := by rw [hl]; exact h.lt _ (List.getElem_mem hj)
      simp [List.getElem?_eq_getElem this]
    · rw [List.getElem?_eq_none (by omega), List.getElem?_eq_none (by omega)]; rfl
  have hp : (List.range d.fields.length).Perm
      (idx ++ (List.range d.fields.length).filter fun i => !(idx.contains i)) := by
    refine (List.perm_ext_iff_of_nodup List.nodup_range ?_).2 ?_
    · refine List.nodup_append.2 ⟨h.nodup, List.nodup_range.filter _, ?_⟩
      intro a ha b hb hab
      subst hab
      simp [ha] at hb
    · intro a
      simp only [List.mem_range, List.mem_append, List.mem_filter, Bool.not_eq_true', List.contains_iff_mem,
        Bool.eq_false_iff, ne_eq]
      constructor
      · intro ha
        by_cases hm : a ∈ idx
        · exact .inl hm
        · exact .inr ⟨ha, hm⟩
      · rintro (ha | ha)
        · exact h.lt a ha
        · exact ha.1
  rw [e2]
  have e3 : ((List.range d.fields.length).filter fun i => !(idx.contains i)).map (fun i => (ms[i]?).getD []) =
      ((List.range d.fields.length).filter fun i => !(idx.contains i)).map fun _ => [] := by
    apply List.map_congr_left
    intro i hi
    simp only [List.mem_filter, List.mem_range, Bool.not_eq_true', Bool.eq_false_iff, ne_eq, List.contains_iff_mem] at hi
    cases hm : ms[i]? with
    | none => rfl
    | some m => rw [hr i m hi.2 hm]; rfl
  refine (List.Perm.of_eq (congrArg List.flatten e1)).trans ((List.Perm.flatten (hp.map _)).trans ?_)
  rw [List.map_append, e3, List.flatten_append]
  have : ∀ l : List Nat, (l.map fun _ => ([] : List α)).flatten = [] := by
    intro l
    induction l with
    | nil => rfl
    | cons a l ih => simp
  rw [this, List.append_nil]

omit [Env] in
theorem Picks.eachField (h : Picks idx d.fields) {g g' : Field V → Nat → List Msg}
    (he : ∀ i j f, idx[j]? = some i → d.fields[i]? = some f → g f i = g' f j)
    (hr : ∀ (i : Nat) f, i ∉ idx → d.fields[i]? = some f → g f i = []) :
    (Deluxe.eachField d.fields g).Perm (Deluxe.eachField (select idx d.fields) g') := by
  refine h.perm (by simp) (by simp [select_length h.lt]) ?_ ?_
  · intro i j hij
    simp only [List.getElem?_map, List.getElem?_zipIdx, Option.map_map, select_get h.lt, hij, Option.bind_some]
    cases hf : d.fields[i]? with
    | none => rfl
    | some f => simp [he i j f hij hf]
  · intro i m hi hm
    simp only [List.getElem?_map, List.getElem?_zipIdx, Option.map_map, Option.map_eq_some_iff] at hm
    obtain ⟨f, hf, rfl⟩ := hm
    simpa using hr i f hi hf

theorem Msg.plain_unknown (check : Bool) {allowed allowed' : List Str} (hal : ∀ n, n ∈ allowed ↔ n ∈ allowed')
    (key : Str) (sp : Span) :
    (unknownMsgs check allowed key sp).map Msg.plain = (unknownMsgs check allowed' key sp).map Msg.plain := by
  unfold unknownMsgs
  by_cases hk : key ∈ allowed
  · rw [if_neg fun h => h.2 hk, if_neg fun h => h.2 ((hal _).1 hk)]
  · have hk' := fun h => hk ((hal key).2 h)
    cases check with
    | false => rfl
    | true => rw [if_pos ⟨rfl, hk⟩, if_pos ⟨rfl, hk'⟩]; rfl

theorem Picks.itemMsgs (h : Picks idx d.fields) {bs : List (SItem V)} (hb : Owned (Deluxe.select idx d.fields) bs)
    (check : Bool) {allowed allowed' : List Str} (hal : ∀ n, n ∈ allowed ↔ n ∈ allowed') (seen : List Nat)
    (hs : ∀ j ∈ seen, ∃ i, idx[j]? = some i) :
    (Deluxe.itemMsgs check allowed (seen.map (idx.getD · 0)) (bs.map (SItem.move idx))).map Msg.plain =
      (Deluxe.itemMsgs check allowed' seen bs).map Msg.plain := by
  induction bs generalizing seen with
  | nil => rfl
  | cons b bs ih =>
    have hb' : Owned (Deluxe.select idx d.fields) bs := fun j n sp x hm => hb j n sp x (List.mem_cons_of_mem _ hm)
    cases b with
    | other k sp =>
      simp only [List.map_cons, SItem.move, Deluxe.itemMsgs, List.map_append, ih hb' seen hs, Msg.plain_unknown check hal]
    | field k n sp x =>
      obtain ⟨i, hi⟩ := h.owned hb List.mem_cons_self
      have hmem : (idx.getD k 0 ∈ seen.map (idx.getD · 0)) ↔ k ∈ seen := by
        constructor
        · intro hm
          obtain ⟨j, hj, hjk⟩ := List.mem_map.1 hm
          obtain ⟨i', hi'⟩ := hs j hj
          rw [getD_of_some hi, getD_of_some hi'] at hjk
          subst hjk
          rw [nodup_get h.nodup hi hi']
          exact hj
        · exact fun hm => List.mem_map.2 ⟨k, hm, rfl⟩
      have := ih hb' (k :: seen) (by
        intro j hj
        rcases List.mem_cons.1 hj with rfl | hj
        · exact ⟨i, hi⟩
        · exact hs j hj)
      rw [List.map_cons] at this
      simp only [List.map_cons, SItem.move, Deluxe.itemMsgs, List.map_append, this, hmem]

/-- The messages of a structure are those of the structure with the picked fields, in some order and up to the
suggested names. -/
theorem Picks.err (h : Picks idx d.fields) (ha : Accepted d) (ht : d.transparent = false) (hg : FieldsGood d.fields)
    (ho : OneOwner d.fields) (hn : NamesOnly d.fields) {allowed allowed' : List Str}
    (hal : ∀ n, n ∈ allowed ↔ n ∈ allowed') (mode : Mode) (pre : Str) (validate : Bool) {l : List Stream}
    (hl : NoFork d.fields l)
    (hu : ∀ (i : Nat) f, d.fields[i]? = some f → i ∉ idx → ∃ v, Unparsed d f i v) :
    ∃ msgs msgs' : List Msg, (msgs.map Msg.plain).Perm (msgs'.map Msg.plain) ∧
      (msgs ≠ [] → FailsWith (namedFlat d allowed mode pre validate l).1 msgs) ∧
      (msgs = [] → ∃ vs, (namedFlat d allowed mode pre validate l).1 = .ok vs) ∧
      (msgs' ≠ [] → FailsWith (namedFlat (d.select idx) allowed' mode pre validate l).1 msgs') ∧
      (msgs' = [] → ∃ vs, (namedFlat (d.select idx) allowed' mode pre validate l).1 = .ok vs) := by
  obtain ⟨rs, fatal, l1, hr⟩ := ReadsAll.exists (structItem_good (fields := Deluxe.select idx d.fields) hg.select.named pre) l
  have hr' := hr.map (SItem.move idx)
  rw [← h.item ho] at hr'
  have hb := hr.owned
  obtain ⟨trans, t1, t2, t3⟩ := namedFlat_msgs d ha ht hg allowed mode pre validate
    (l := l) (rs := rs.map fun x => (SItem.move idx x.1, x.2)) (fatal := fatal) (l1 := l1)
    (by rw [fork_if hl]; exact hr')
  obtain ⟨trans', t1', t2', t3'⟩ := namedFlat_msgs (d.select idx) (h.accepted ha) ht hg.select allowed' mode pre validate
    (l := l) (rs := rs) (fatal := fatal) (l1 := l1) (by rw [fork_if (fields := (d.select idx).fields) (hl.select idx)]; exact hr)
  have e : (rs.map fun x => (SItem.move idx x.1, x.2)).map (·.1) = (rs.map (·.1)).map (SItem.move idx) := by
    simp [List.map_map, Function.comp_def]
  rw [e] at t2 t3
  generalize rs.map (·.1) = bs at *
  obtain ⟨a1, a2⟩ := t3 _ rfl
  obtain ⟨b1, b2⟩ := t3' _ rfl
  refine ⟨_, _, ?_, a1, a2, b1, b2⟩
  have hnp : ∀ i f, d.fields[i]? = some f → i ∉ idx → f.isParsable = false := by
    intro i f hf hi
    cases hp : f.isParsable with
    | false => rfl
    | true => exact absurd (h.parsed i f hf hp) hi
  have e4 : d.target.isSome = (d.select idx).target.isSome := by simp [Fields.select]
  have e2 : ∀ i j f, f ∈ d.fields → flatOut d.fields pre (mode.toFullSpan l) allowed l f i =
      flatOut (d.select idx).fields pre (mode.toFullSpan l) allowed' l f j := by
    intro i j f hf
    rw [flatOut_fresh hl, flatOut_fresh (fields := (d.select idx).fields) (hl.select idx), flatCall_names (hn f hf) hal]
  have p1 := h.itemMsgs hb (!d.allowUnknown && validate) hal [] (by simp)
  have p2 : (Deluxe.eachField d.fields (flatFailMsgs d.fields pre (mode.toFullSpan l) allowed l)).Perm
      (Deluxe.eachField (d.select idx).fields (flatFailMsgs (d.select idx).fields pre (mode.toFullSpan l) allowed' l)) := by
    refine h.eachField ?_ ?_
    · intro i j f _ hf
      unfold flatFailMsgs
      rw [e2 i j f (List.mem_of_getElem? hf)]
    · intro i f hi hf
      simp [flatFailMsgs, Field.flatParsable, hnp i f hf hi]
  have p3 : (Deluxe.eachField d.fields (missingMsgs d pre (mode.toFullSpan l) (bs.map (SItem.move idx)))).Perm
      (Deluxe.eachField (d.select idx).fields (missingMsgs (d.select idx) pre (mode.toFullSpan l) bs)) := by
    refine h.eachField ?_ ?_
    · intro i j f hij hf
      unfold missingMsgs
      rw [h.given hb hij]
      have e5 : d.target.isNone = (d.select idx).target.isNone := by simp [Fields.select]
      rw [e5]
      rfl
    · intro i f hi hf
      simp [missingMsgs, hnp i f hf hi]
  have p4 : trans.flatten.Perm trans'.flatten := by
    refine h.perm t1 (t1'.trans (select_length h.lt)) ?_ ?_
    · intro i j hij
      have hi : i < d.fields.length := h.lt i (List.mem_of_getElem? hij)
      have hf : d.fields[i]? = some d.fields[i] := List.getElem?_eq_getElem hi
      obtain ⟨m, hm, hm1⟩ := t2 i _ hf
      obtain ⟨m', hm', hm1'⟩ := t2' j d.fields[i] (h.get.2 ⟨i, hij, hf⟩)
      rw [hm, hm']
      have := hm1'.target_congr (d := d.select idx) (d' := d) rfl e4.symm
      unfold TransformMsgs at hm1
      rw [h.given hb hij, e2 i j _ (List.getElem_mem hi)] at hm1
      rw [hm1.unique this]
    · intro i m hi hm
      obtain ⟨hi', _⟩ := List.getElem?_eq_some_iff.1 hm
      rw [t1] at hi'
      have hf : d.fields[i]? = some d.fields[i] := List.getElem?_eq_getElem hi'
      obtain ⟨m', hm', hm1⟩ := t2 i _ hf
      rw [hm] at hm'
      cases hm'
      obtain ⟨v, hv⟩ := hu i _ hf hi
      have hh := (holds_unparsed (allowed := allowed) (pre := pre) (span := mode.toFullSpan l) (l := l)
        (bs := bs.map (SItem.move idx)) (hnp i _ hf hi) v).2 hv
      rcases hm1 with ⟨b, x, h1, h2, h3⟩ | ⟨h1, h2⟩
      · rcases hh with ⟨b', h4, h5⟩ | ⟨h4, _⟩
        · cases h1.unique h4
          rw [h2] at h5
          cases h5
        · cases h1.unique h4
      · exact h1
  simp only [List.map_append]
  exact ((((List.Perm.of_eq p1).append (.refl _)).append (p2.map _)).append (p3.map _)).append (p4.map _)

end

end Deluxe
