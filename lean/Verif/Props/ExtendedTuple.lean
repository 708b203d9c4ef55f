import Verif.Props.Extended
import Verif.Props.TupleStructs
/-!
# C119: extending a tuple structure

A tuple structure is extended by adding fields at its end that may be left out, and by giving fields a default that had
to be given.  What the items were read as before they are read as afterwards, including a comma after the last of them,
and the old fields have the same values.  This includes the structure as a flag, as in definitions the macros accept no
field without a default follows one with a default, unless the structure had no field that is parsed at all.
-/
namespace Deluxe

section
variable {β : Type} {item item' : Nat → M Stream β} {len len' : Nat}

/-- The same items, if further ones would be allowed: the comma after the last of them is read as well. -/
theorem PosReads.grow (hlt : len < len') (hi : ∀ i, i < len → item' i = item i) {c s rs fatal c' full s'}
    (h : PosReads item len c s rs fatal c' full s') :
    c < len → fatal = none → AtEnd s'.toks → ∃ s'', PosReads item' len' c s rs none c' false s'' ∧ s''.toks = [] := by
  induction h with
  | done h => exact fun _ _ _ => ⟨_, .done h, h⟩
  | full h1 h2 => exact fun hc => absurd hc (Nat.not_lt.2 h2)
  | failItem => exact fun _ hf => (nomatch hf)
  | failSep => exact fun _ hf => (nomatch hf)
  | more h1 h2 h3 h4 h5 _ ih =>
    intro hc hf he
    obtain ⟨s'', h6, h7⟩ := ih h2 hf he
    exact ⟨s'', .more h1 (by omega) (by rw [hi _ hc]; exact h3) h4 h5 h6, h7⟩
  | @last c s b s1 rs f c' full s' h1 h2 h3 h4 hr ih =>
    intro hc hf he
    by_cases hl : c + 1 < len
    · obtain ⟨s'', h6, h7⟩ := ih hl hf he
      refine ⟨s'', .last h1 (by omega) (by rw [hi _ hc]; exact h3) (.inl ?_) h6, h7⟩
      rcases h4 with h4 | h4
      · exact h4
      · omega
    · subst hf
      have h3' : item' c s = (.ok b, s1) := by rw [hi _ hc]; exact h3
      cases hr with
      | done h => exact ⟨_, .last h1 (by omega) h3' (.inl h) (.done h), h⟩
      | full h h' =>
        rcases he with he | ⟨t, ht, he⟩
        · exact absurd he h
        · exact ⟨{ s1 with toks := [] }, .more h1 (by omega) h3' he ht (.done rfl), rfl⟩
      | last h h' => exact absurd h' hl
      | more h h' => exact absurd (Nat.lt_of_succ_lt h') hl

/-- The same items, read in the same way. -/
theorem PosReads.same (hi : ∀ i, i < len → item' i = item i) {c s rs fatal c' full s'}
    (h : PosReads item len c s rs fatal c' full s') : PosReads item' len c s rs fatal c' full s' := by
  induction h with
  | done h => exact .done h
  | full h1 h2 => exact .full h1 h2
  | failItem h1 h2 h3 => exact .failItem h1 h2 (by rw [hi _ h2]; exact h3)
  | failSep h1 h2 h3 h4 h5 => exact .failSep h1 h2 (by rw [hi _ (Nat.lt_of_succ_lt h2)]; exact h3) h4 h5
  | more h1 h2 h3 h4 h5 _ ih => exact .more h1 h2 (by rw [hi _ (Nat.lt_of_succ_lt h2)]; exact h3) h4 h5 ih
  | last h1 h2 h3 h4 _ ih => exact .last h1 h2 (by rw [hi _ h2]; exact h3) h4 ih

theorem PosReads.empty {c s rs fatal c' full s'} (h : PosReads item len c s rs fatal c' full s') (h0 : s.toks = []) :
    s' = s := by
  cases h with
  | done h => rfl
  | full h1 h2 => exact absurd h0 h1
  | failItem h1 => exact absurd h0 h1
  | failSep h1 => exact absurd h0 h1
  | more h1 => exact absurd h0 h1
  | last h1 => exact absurd h0 h1

theorem PosReadsAll.one {c s rs c' full s'} (h : PosReads item len c s rs none c' full s') :
    PosReadsAll item len c [s] rs none c' [s'] := by
  cases full with
  | true => exact .full h
  | false => simpa using PosReadsAll.next h .nil

theorem PosReadsAll.of_one {c s rs fatal c' l'} (h : PosReadsAll item len c [s] rs fatal c' l') :
    ∃ full s', l' = [s'] ∧ PosReads item len c s rs fatal c' full s' := by
  cases h with
  | next h1 h2 => cases h2; exact ⟨_, _, rfl, by simpa using h1⟩
  | full h1 => exact ⟨_, _, rfl, h1⟩
  | fail h1 => exact ⟨_, _, rfl, h1⟩

end

section
variable {V : Type} {d d' : Fields V}

theorem Fields.Grows.length_le (h : d.Grows d') : d.fields.length ≤ d'.fields.length := by
  apply Nat.le_of_not_lt
  intro hlt
  obtain ⟨f', h5, -⟩ := h.kept _ _ (List.getElem?_eq_getElem hlt)
  rw [List.getElem?_eq_none (Nat.le_refl _)] at h5
  cases h5

/-- Counting fields with a property that extending does not change. -/
theorem Fields.Grows.count (h : d.Grows d') (p : Field V → Bool)
    (hp : ∀ f f', Field.Grown d.target.isSome f f' → p f' = p f) {k : Nat} (hk : k ≤ d.fields.length) :
    (d'.fields.take k).countP p = (d.fields.take k).countP p := by
  induction k with
  | zero => rfl
  | succ k ih =>
    obtain ⟨f, hf⟩ : ∃ f, d.fields[k]? = some f := ⟨_, List.getElem?_eq_getElem hk⟩
    obtain ⟨f', h1, h2⟩ := h.kept k f hf
    rw [List.take_add_one, List.take_add_one, List.countP_append, List.countP_append, ih (by omega), hf, h1]
    simp [hp f f' h2]

theorem Fields.Grows.rank (h : d.Grows d') {k : Nat} (hk : k ≤ d.fields.length) :
    rank d'.fields k = rank d.fields k := h.count _ (fun _ _ h => h.isParsable) hk

theorem rank_all (fields : List (Field V)) : rank fields fields.length = fields.countP (·.isParsable) := by
  rw [rank, List.take_length]

theorem rank_mono (fields : List (Field V)) {k k' : Nat} (h : k ≤ k') : rank fields k ≤ rank fields k' :=
  (List.take_prefix_take_left h).sublist.countP_le

theorem Fields.Grows.parsed (h : d.Grows d') {k : Nat} (hk : d.fields.length ≤ k) :
    d.fields.countP (·.isParsable) ≤ Deluxe.rank d'.fields k := by
  rw [← rank_all, ← h.rank (Nat.le_refl _)]
  exact rank_mono _ hk

theorem Fields.Grows.parsed_le (h : d.Grows d') :
    d.fields.countP (·.isParsable) ≤ d'.fields.countP (·.isParsable) := by
  rw [← rank_all d'.fields]
  exact h.parsed h.length_le

theorem Fields.Grows.nth (h : d.Grows d') {j : Nat} {f : Field V} {k : Nat} (hn : NthField d.fields j f k) :
    ∃ f', f.Grown d.target.isSome f' ∧ NthField d'.fields j f' k := by
  obtain ⟨h1, h2, h3⟩ := hn
  obtain ⟨f', h4, h5⟩ := h.kept k f h1
  exact ⟨f', h5, h4, h5.isParsable.trans h2, (h.rank (Nat.le_of_lt (List.getElem?_eq_some_iff.1 h1).1)).trans h3⟩

theorem Fields.Grows.tupleItem (h : d.Grows d') (hn : NoFlat d.fields) (hn' : NoFlat d'.fields) {i : Nat}
    (hi : i < d.fields.countP (·.isParsable)) : tupleItem d'.fields i = tupleItem d.fields i := by
  obtain ⟨f, k, hf⟩ := nthField_exists hi
  obtain ⟨f', h1, h2⟩ := h.nth hf
  rw [Deluxe.tupleItem, Deluxe.tupleItem, (nthArm_some hn.noAppendRest).2 hf, (nthArm_some hn'.noAppendRest).2 h2]
  dsimp only
  rw [h1.item]

/-- A field without flattened type, told of another place. -/
theorem Ends.moved {f : Field V} {g : Option (Except SynErr V)} {fl ms ms' : Res V} {i : Nat} {v : V}
    (hm : ∀ v, ms = .ok v → ms' = .ok v) (h : Ends d f g fl ms i v) : Ends d f g fl ms' i v := by
  have key : ∀ {b}, Source d f g fl ms b → Source d f g fl ms' b := by
    intro b hb
    cases hb with
    | item a b => exact .item a b
    | flat a b => exact .flat a b
    | container a b => exact .container a b
    | default a b => exact .default a b
    | missing a b c e k => exact .missing a b c e (hm _ k)
    | target a b c => exact .target a b c
  rcases h with ⟨b, h1, h2⟩ | ⟨h1, h2⟩
  · exact .inl ⟨b, key h1, h2⟩
  · exact .inr ⟨key h1, h2⟩

/-- Values for missing fields do not depend on the place in the source. -/
def PlaceFree (fields : List (Field V)) : Prop :=
  ∀ f ∈ fields, ∀ n sp sp' v, f.item.missing n sp = .ok v → f.item.missing n sp' = .ok v

variable [Env]

/-- C119: the items of a tuple structure, at most followed by a comma.  The extended structure reads them, and the old
fields have the same values. -/
theorem c119_tuple (h : d.Grows d') (ha : Accepted d) (ha' : Accepted d') (ht : d.transparent = false)
    (ht' : d'.transparent = false) (hn : NoFlat d.fields) (hn' : NoFlat d'.fields)
    (hg : ∀ f ∈ d.fields, f.item.Good)
    (hg' : ∀ f ∈ d'.fields, f.item.Good)
    (hpl : PlaceFree d.fields) (hpos : 0 < d.fields.countP (·.isParsable)) (mode : Mode) (index : Nat) {s s' : Stream}
    {vs : List V} (hok : unnamedFlat d mode index [s] = (.ok vs, [s'])) (he : AtEnd s'.toks) :
    ∃ ws s'', unnamedFlat d' mode index [s] = (.ok ws, [s'']) ∧ vs <+: ws ∧ AtEnd s''.toks ∧
      (s.toks = [] → s'' = s) := by
  have hm : ∀ f ∈ d.fields, ∀ n sp, f.item.missing n sp ≠ .panic := fun f hf => (hg f hf).missing
  have hm' : ∀ f ∈ d'.fields, ∀ n sp, f.item.missing n sp ≠ .panic := fun f hf => (hg' f hf).missing
  have hitem : ∀ i, Deluxe.Good (recover (tupleItem d.fields i)) := by
    intro i
    refine recover_good ?_
    rw [Deluxe.tupleItem]
    cases ha : nthArm d.fields i with
    | none => exact Good.fail _
    | some x =>
      obtain ⟨f, k⟩ := x
      exact (hg f (List.mem_of_getElem? ((nthArm_some hn.noAppendRest).1 ha).1)).parse _
  obtain ⟨rs, fatal, c, l1, hr⟩ := PosReadsAll.exists (len := d.fields.countP (·.isParsable)) hitem [s] 0
  have hst := unnamedFlat_ok d ha ht hn hm hpos mode index hr vs
  rw [hok] at hst
  obtain ⟨h1, h0⟩ := hst
  obtain ⟨h2, h3, h4, h5⟩ := h0.1 rfl
  clear h0
  dsimp only at h1
  subst h1
  subst h2
  obtain ⟨full, s1, h6, hr1⟩ := hr.of_one
  cases h6
  obtain ⟨s'', full', hr2, he2⟩ : ∃ s'' full', PosReads (fun i => recover (tupleItem d'.fields i))
      (d'.fields.countP (·.isParsable)) 0 s rs none c full' s'' ∧ AtEnd s''.toks := by
    have hi : ∀ i, i < d.fields.countP (·.isParsable) →
        (fun i => recover (tupleItem d'.fields i)) i = (fun i => recover (tupleItem d.fields i)) i :=
      fun i hi => by dsimp only; rw [h.tupleItem hn hn' hi]
    rcases Nat.lt_or_eq_of_le h.parsed_le with hl | hl
    · obtain ⟨s'', h7, h8⟩ := hr1.grow hl hi hpos rfl he
      exact ⟨s'', _, h7, .inl h8⟩
    · rw [← hl]
      exact ⟨s', _, hr1.same hi, he⟩
  have hcount := hr1.count
  have hcle := hr1.le (Nat.zero_le _)
  have hr' := PosReadsAll.one hr2
  generalize hxs : rs.map (·.1) = xs at h3 h5
  have hxl : xs.length ≤ d.fields.countP (·.isParsable) := by
    rw [← hxs, List.length_map]; omega
  have hall : ∀ i : Nat, i < d'.fields.length → ∃ v, ∀ f', d'.fields[i]? = some f' →
      (i < d.fields.length → vs[i]? = some v) ∧
        PosHolds d' index (mode.toFullSpan [s'']) xs f' i v := by
    intro i hlt
    obtain ⟨f', hf'⟩ : ∃ f', d'.fields[i]? = some f' := ⟨_, List.getElem?_eq_getElem hlt⟩
    by_cases hi : i < d.fields.length
    · obtain ⟨f, hf, hfg⟩ := h.at hf' hi
      obtain ⟨v, hv1, hv2⟩ := h5 i f hf
      refine ⟨v, fun g hg => ⟨fun _ => hv1, ?_⟩⟩
      rw [hf'] at hg
      cases hg
      have h7 := hv2.grown h hfg ⟨_, _, rfl⟩ ha hi
      have hgiven : posGiven d'.fields xs f' i = posGiven d.fields xs f i := by
        rw [posGiven, posGiven, hfg.isParsable, h.rank (Nat.le_of_lt hi)]
      unfold PosHolds
      rw [hgiven]
      refine h7.moved fun w hw => ?_
      unfold posMissing at hw ⊢
      rw [h.count _ (fun _ _ h => by rw [h.isContainer]) (Nat.le_of_lt hi), hfg.item]
      have : ∀ n, missingIndexName d' n = missingIndexName d n := by
        intro n; simp only [missingIndexName, h.attrName]
      rw [this]
      exact hpl f (List.mem_of_getElem? hf) _ _ _ _ hw
    · obtain ⟨h6, h7⟩ := h.added i f' (Nat.le_of_not_lt hi) hf'
      obtain ⟨v, hv⟩ := h7 (missingIndexName d' (index + (d'.fields.take i).countP (!·.isContainer)))
        (mode.toFullSpan [s''])
      refine ⟨v, fun g hg => ⟨fun hc => absurd hc hi, ?_⟩⟩
      rw [hf'] at hg
      cases hg
      have hgiven : posGiven d'.fields xs f' i = none := by
        rw [posGiven]
        split
        · exact List.getElem?_eq_none (Nat.le_trans hxl (h.parsed (Nat.le_of_not_lt hi)))
        · rfl
      unfold PosHolds
      rw [hgiven]
      exact hv
  obtain ⟨ws, hw1, hw2⟩ := list_exists hall
  have hst' := unnamedFlat_ok d' ha' ht' hn' hm' (Nat.lt_of_lt_of_le hpos h.parsed_le) mode index hr' ws
  refine ⟨ws, s'', ?_, ?_, he2, fun h0 => hr2.empty h0⟩
  · refine Prod.ext (hst'.2.2 ⟨rfl, by rw [hxs]; exact h3, hw1, fun i f' hf' => ?_⟩) hst'.1
    rw [hxs]
    obtain ⟨v, h6, h7⟩ := hw2 i (List.getElem?_eq_some_iff.1 hf').1
    exact ⟨v, h6, (h7 f' hf').2⟩
  · rw [List.prefix_iff_eq_take]
    apply List.ext_getElem?
    intro i
    rw [List.getElem?_take]
    split
    · rename_i hi
      rw [h4] at hi
      have hi' := Nat.lt_of_lt_of_le hi h.length_le
      obtain ⟨v, h5, h6⟩ := hw2 i hi'
      rw [h5, (h6 _ (List.getElem?_eq_getElem hi')).1 hi]
    · rename_i hi
      exact List.getElem?_eq_none (Nat.le_of_not_lt hi)

end

/-! ## In parentheses, as a flag and left out -/

/-- If the first parser succeeds and reads to the end so does the second. -/
def ImpEnd {α β : Type} (R : α → β → Prop) (m : M Stream α) (m' : M Stream β) : Prop :=
  ∀ s a s', m s = (.ok a, s') → AtEnd s'.toks → ∃ b s'', m' s = (.ok b, s'') ∧ R a b ∧ AtEnd s''.toks

theorem ImpEnd.delimited {α β : Type} {R : α → β → Prop} {m : M Stream α} {m' : M Stream β} (h : ImpEnd R m m')
    (dl : Delim) (s : Stream) (a : α) (ha : (parseDelimitedWith dl m s).1 = .ok a) :
    ∃ b, (parseDelimitedWith dl m' s).1 = .ok b ∧ R a b ∧
      (parseDelimitedWith dl m' s).2.toks = (parseDelimitedWith dl m s).2.toks := by
  simp only [parseDelimitedWith, withContent] at ha ⊢
  cases he : enter dl s with
  | error e => rw [he] at ha; cases ha
  | ok x =>
    obtain ⟨c, s0⟩ := x
    rw [he] at ha
    simp only [Bind.bind, M.bind] at ha ⊢
    cases hx : m c with
    | mk r s1 =>
      rw [hx] at ha
      cases r with
      | err e => cases ha
      | panic => cases ha
      | ok v =>
        dsimp only at ha ⊢
        cases hq : parseEof s1 with
        | mk q s2 =>
          rw [hq] at ha
          cases q with
          | err e => cases ha
          | panic => cases ha
          | ok u =>
            cases ha
            obtain ⟨b, s3, h1, h2, h3⟩ := h c _ s1 hx (parseEof_ok hq).1
            rw [h1]
            dsimp only
            rw [(c04_eof s3).1 h3]
            exact ⟨b, rfl, h2, rfl⟩

variable {V : Type}

/-- `d'` is the tuple structure `d`, extended, and neither has flattened fields.  The functions run at the end must not
refuse what they accepted. -/
structure StructDef.TupleGrows (d d' : StructDef V) : Prop where
  tuple : d.shape = .unnamed
  tuple' : d'.shape = .unnamed
  fields : d.data.Grows d'.data
  plain : NoFlat d.fields
  plain' : NoFlat d'.fields
  place : PlaceFree d.fields
  parsed : 0 < d.fields.countP (·.isParsable)
  thens : ∀ vs ws v, vs <+: ws → runAndThens d.andThens (.ok vs) = .ok v →
    ∃ w, runAndThens d'.andThens (.ok ws) = .ok w ∧ v <+: w

section
variable [Env] {d d' : StructDef V}

theorem StructDef.TupleGrows.inline (h : d.TupleGrows d') (ha : d.Accepted) (ha' : d'.Accepted) (hg : d.FieldsFine)
    (hg' : d'.FieldsFine) (ht : d.isTransparent = false) (ht' : d'.isTransparent = false) (mode : Mode) {s s' : Stream}
    {vs : List V} (hok : d.flatUnnamed.parse mode 0 [s] = (.ok vs, [s'])) (he : AtEnd s'.toks) :
    ∃ ws s'', d'.flatUnnamed.parse mode 0 [s] = (.ok ws, [s'']) ∧ vs <+: ws ∧ AtEnd s''.toks ∧ (s.toks = [] → s'' = s) := by
  simp only [StructDef.flatUnnamed, h.tuple, h.tuple', M.mapRes] at hok ⊢
  cases hx : unnamedFlat d.data mode 0 [s] with
  | mk r l =>
    rw [hx] at hok
    obtain ⟨h1, h2⟩ := Prod.mk.inj hok
    obtain ⟨us, h3⟩ := runAndThens_from h1
    subst h3
    dsimp only at h2
    subst h2
    obtain ⟨ws, s'', h4, h5, h6, h7⟩ := c119_tuple h.fields ha.fields ha'.fields ht ht' h.plain h.plain' hg.item hg'.item
      h.place h.parsed mode 0 hx he
    obtain ⟨w, h8, h9⟩ := h.thens us ws vs h5 h1
    refine ⟨w, s'', ?_, h9, h6, h7⟩
    rw [h4]
    dsimp only
    rw [h8]

theorem flatUnnamed_one (h : d.TupleGrows d') (ha : d.Accepted) (hg : d.FieldsFine) (ht : d.isTransparent = false)
    (mode : Mode) (s : Stream) : ∃ s', (d.flatUnnamed.parse mode 0 [s]).2 = [s'] := by
  have := ((c30_flattened d ha ht hg mode [] false 0).2 (by rw [h.tuple]; exact fun h => (by cases h)) [s]).2.1
  exact List.length_eq_one_iff.1 this

/-- C119: a tuple structure in parentheses: the extended one reads what it reads, and leaves the same tokens. -/
theorem c119_tuple_item (h : d.TupleGrows d') (ha : d.Accepted) (ha' : d'.Accepted) (hg : d.FieldsFine)
    (hg' : d'.FieldsFine) (ht : d.isTransparent = false) (ht' : d'.isTransparent = false) (mode : Mode) (s : Stream)
    {vs : List V} (hok : (d.dict.parse mode s).1 = .ok vs) :
    ∃ ws, (d'.dict.parse mode s).1 = .ok ws ∧ vs <+: ws ∧ (d'.dict.parse mode s).2.toks = (d.dict.parse mode s).2.toks := by
  unfold StructDef.dict at hok ⊢
  simp only [ht, ht', h.tuple, h.tuple', Bool.false_eq_true, if_false, Dict.mk'] at hok ⊢
  refine ImpEnd.delimited (R := fun a b => a <+: b) (fun c a s' hc he => ?_) .paren s vs hok
  obtain ⟨s1, h1⟩ := flatUnnamed_one h ha hg ht mode c
  simp only [single] at hc
  obtain ⟨h2, h3⟩ := Prod.mk.inj hc
  rw [h1] at h3
  simp only [List.headD_cons] at h3
  subst h3
  obtain ⟨ws, s'', h4, h5, h6, -⟩ := h.inline ha ha' hg hg' ht ht' mode (Prod.ext h2 h1) he
  exact ⟨ws, s'', by simp only [single, h4, List.headD_cons], h5, h6⟩

/-- No field that is parsed and has no default comes after one with a default, as macros/types/struct.rs:537-556 asks of
tuple structures. -/
def NoGap (fields : List (Field V)) : Prop :=
  ∀ (i j : Nat) f g, i < j → fields[i]? = some f → f.Plain → f.default ≠ none → fields[j]? = some g → g.Plain →
    g.default ≠ none

/-- C119: a tuple structure as a flag. -/
theorem c119_tuple_flag (h : d.TupleGrows d') (ha : d.Accepted) (ha' : d'.Accepted) (hg : d.FieldsFine)
    (hg' : d'.FieldsFine) (ht : d.isTransparent = false) (ht' : d'.isTransparent = false)
    (hd : NoGap d'.fields) (sp : Span) {vs : List V} (hok : d.dict.flag sp = .ok vs) :
    ∃ ws, d'.dict.flag sp = .ok ws ∧ vs <+: ws := by
  unfold StructDef.dict at hok ⊢
  simp only [ht, ht', h.tuple, h.tuple', Bool.false_eq_true, if_false, Dict.mk'] at hok ⊢
  split at hok
  case isFalse => cases hok
  rename_i hc
  rw [if_pos]
  · unfold parseEmpty parse2 at hok ⊢
    obtain ⟨s1, h1⟩ := flatUnnamed_one h ha hg ht .unnamed ⟨[], callSite, none⟩
    cases hx : d.flatUnnamed.parse .unnamed 0 [⟨[], callSite, none⟩] with
    | mk r l =>
      rw [hx] at h1
      dsimp only at h1
      subst h1
      simp only [single, hx, List.headD_cons] at hok
      cases r with
      | err e => cases hok
      | panic => cases hok
      | ok us =>
        have he : AtEnd s1.toks := by
          left
          cases hu : s1.unexp <;> cases hk : s1.toks <;> simp [hu, hk] at hok ⊢
        have hv : us = vs := by
          cases hu : s1.unexp <;> cases hk : s1.toks <;> simp [hu, hk] at hok ⊢
          exact hok
        subst hv
        obtain ⟨ws, s'', h4, h5, h6, h7⟩ := h.inline ha ha' hg hg' ht ht' .unnamed hx he
        rw [h7 rfl] at h4
        exact ⟨ws, by simp only [single, h4, List.headD_cons], h5⟩
  · simp only [Bool.or_eq_true, List.all_eq_true, List.mem_filter] at hc ⊢
    rcases h.fields.target with ⟨h1, h2⟩ | ⟨t, u, h1, h2⟩
    · have h1 : d.default = none := h1
      have h2 : d'.default = none := h2
      refine .inr fun f' hf' => .inr ?_
      obtain ⟨hm, hp⟩ := hf'
      obtain ⟨i, hi⟩ := List.getElem?_of_mem hm
      by_cases hl : i < d.fields.length
      · obtain ⟨f, hf, hfg⟩ := h.fields.at hi hl
        rcases hc with hc | hc
        · rw [h1] at hc; cases hc
        · rcases hc f ⟨List.mem_of_getElem? hf, hfg.isParsable ▸ hp⟩ with hc | hc
          · rw [h.plain f (List.mem_of_getElem? hf)] at hc; cases hc
          · rcases hfg.default with hdf | ⟨-, hdf, -⟩
            · rw [hdf]; exact hc
            · rw [hdf] at hc; cases hc
      · obtain ⟨f, k, hf, hfp, -⟩ := nthField_exists h.parsed
        have hk := (List.getElem?_eq_some_iff.1 hf).1
        have hfl := h.plain f (List.mem_of_getElem? hf)
        have hdf : f.default ≠ none := by
          rcases hc with hc | hc
          · rw [h1] at hc; cases hc
          · rcases hc f ⟨List.mem_of_getElem? hf, hfp⟩ with hc | hc
            · rw [hfl] at hc; cases hc
            · exact fun hn => by rw [hn] at hc; cases hc
        obtain ⟨g, hg1, hg2⟩ := h.fields.kept k f hf
        have hgd : g.default ≠ none := by
          rcases hg2.default with e | ⟨-, e, -⟩
          · rw [e]; exact hdf
          · exact absurd e hdf
        have := hd k i g f' (by omega) hg1 (hg2.plain.2 ⟨hfl, hfp⟩) hgd hi ⟨h.plain' f' hm, hp⟩
        exact Option.isSome_iff_ne_none.2 this
    · have h2 : d'.default = some (t ++ u) := h2
      rw [h2]
      exact .inl rfl

/-- C119: a tuple structure as the value of a named item: after `=`, in parentheses or as a flag. -/
theorem c119_tuple_named (h : d.TupleGrows d') (ha : d.Accepted) (ha' : d'.Accepted) (hg : d.FieldsFine)
    (hg' : d'.FieldsFine) (ht : d.isTransparent = false) (ht' : d'.isTransparent = false)
    (hd : NoGap d'.fields) (n : Str) (sp : Span) (s : Stream) {vs : List V}
    (hok : (d.dict.named n sp s).1 = .ok vs) : ∃ ws, (d'.dict.named n sp s).1 = .ok ws ∧ vs <+: ws ∧
      (d'.dict.named n sp s).2.toks = (d.dict.named n sp s).2.toks := by
  have hp := fun s => c119_tuple_item h ha ha' hg hg' ht ht' (.named sp) s (vs := vs)
  have hf := c119_tuple_flag h ha ha' hg hg' ht ht' hd sp (vs := vs)
  have hi : ImpEnd (fun a b => a <+: b) (single (d.flatUnnamed.parse (.named sp) 0))
      (single (d'.flatUnnamed.parse (.named sp) 0)) := by
    intro c a s' hc he
    obtain ⟨s1, h1⟩ := flatUnnamed_one h ha hg ht (.named sp) c
    simp only [single] at hc
    obtain ⟨h2, h3⟩ := Prod.mk.inj hc
    rw [h1] at h3
    simp only [List.headD_cons] at h3
    subst h3
    obtain ⟨ws, s'', h4, h5, h6, -⟩ := h.inline ha ha' hg hg' ht ht' _ (Prod.ext h2 h1) he
    exact ⟨ws, s'', by simp only [single, h4, List.headD_cons], h5, h6⟩
  unfold StructDef.dict at hok hp hf ⊢
  simp only [ht, ht', h.tuple, h.tuple', Bool.false_eq_true, if_false, Dict.mk'] at hok hp hf ⊢
  unfold parseNamedMetaItem at hok ⊢
  split
  · rename_i he
    rw [if_pos he] at hok
    simp only [Bind.bind, M.bind] at hok ⊢
    cases hx : parsePunct '=' s with
    | mk r s1 =>
      rw [hx] at hok
      cases r with
      | err e => cases hok
      | panic => cases hok
      | ok u => exact hp s1 hok
  · rename_i he
    rw [if_neg he] at hok
    split
    · rename_i he2
      rw [if_pos he2] at hok
      exact hi.delimited .paren s vs hok
    · rename_i he2
      rw [if_neg he2] at hok
      obtain ⟨ws, h1, h2⟩ := hf hok
      exact ⟨ws, h1, h2, rfl⟩

/-! ## Cases -/

/-- `struct (#[deluxe(default)] Option<bool>)` -/
def oldTuple : StructDef (Option Bool) :=
  ⟨.unnamed, [{ plainField [] (optionDict boolDict) with default := some none }], none, none, none, []⟩

/-- `struct (#[deluxe(default)] Option<bool>, #[deluxe(default = Some(true))] Option<bool>)` -/
def newTuple : StructDef (Option Bool) :=
  ⟨.unnamed, [{ plainField [] (optionDict boolDict) with default := some none },
    { plainField [] (optionDict boolDict) with default := some (some true) }], none, none, none, []⟩

omit [Env] in
/-- C119: `oldTuple` grows to `newTuple`. -/
theorem oldTuple_grows : oldTuple.TupleGrows newTuple where
  tuple := rfl
  tuple' := rfl
  fields := by
    refine ⟨fun i f hf => ?_, fun i f' hi hf' => ?_, .inl ⟨rfl, rfl⟩, rfl, rfl, fun h => (by cases h)⟩
    · match i with
      | 0 => cases hf; exact ⟨_, rfl, rfl, rfl, fun k h => h, fun h => (by cases h), .inl rfl⟩
      | n + 1 => cases hf
    · match i with
      | 0 => simp [oldTuple, StructDef.data] at hi
      | 1 => cases hf'; exact ⟨rfl, c119_default rfl rfl rfl rfl⟩
      | n + 2 => cases hf'
  plain := by simp [NoFlat, oldTuple, plainField, Field.isFlat, Field.isFlatten]
  plain' := by simp [NoFlat, newTuple, plainField, Field.isFlat, Field.isFlatten]
  place := by
    intro f hf
    simp only [oldTuple, List.mem_singleton] at hf
    subst hf
    exact fun n sp sp' v h => h
  parsed := by decide
  thens := fun vs ws v hp hv => ⟨ws, rfl, by cases hv; exact hp⟩

/-- C119: the other hypotheses hold of them. -/
example : oldTuple.Accepted ∧ newTuple.Accepted ∧ oldTuple.FieldsFine ∧ newTuple.FieldsFine ∧
    oldTuple.isTransparent = false ∧ newTuple.isTransparent = false ∧ NoGap newTuple.fields := by
  have hb : ∀ {p : Field (Option Bool) → Prop}, (∀ f ∈ oldTuple.fields, p f) ↔
      p { plainField [] (optionDict boolDict) with default := some none } := by
    simp [oldTuple]
  have ha : ∀ {p : Field (Option Bool) → Prop}, (∀ f ∈ newTuple.fields, p f) ↔
      p { plainField [] (optionDict boolDict) with default := some none } ∧
      p { plainField [] (optionDict boolDict) with default := some (some true) } := by
    simp [newTuple]
  have hg := optionDict_good boolDict_good
  exact ⟨⟨⟨hb.2 fun h => (by cases h), fun _ h => (by cases h)⟩, fun h => (by cases h), fun _ => hb.2 ⟨rfl, rfl⟩⟩,
    ⟨⟨ha.2 ⟨fun h => (by cases h), fun h => (by cases h)⟩, fun _ h => (by cases h)⟩, fun h => (by cases h),
      fun _ => ha.2 ⟨⟨rfl, rfl⟩, ⟨rfl, rfl⟩⟩⟩,
    ⟨hb.2 hg, fun h => (by cases h), fun _ => hb.2 fun h => (by cases h)⟩,
    ⟨ha.2 ⟨hg, hg⟩, fun h => (by cases h), fun _ => ha.2 ⟨fun h => (by cases h), fun h => (by cases h)⟩⟩, rfl, rfl,
    fun i j f g _ _ _ _ hg => ha (p := fun g => g.Plain → g.default ≠ none).2
      ⟨fun _ h => (by cases h), fun _ h => (by cases h)⟩ g (List.mem_of_getElem? hg)⟩

/-- C119: `(Some(true),)` before and after the extension. -/
example :
    (oldTuple.dict.parse .unnamed ⟨[.group .paren [.ident "Some".toList 1, .group .paren [.ident "true".toList 3] 2 4,
      .punct ',' false 5] 0 6], 0, none⟩).1 = .ok [some true] ∧
    (newTuple.dict.parse .unnamed ⟨[.group .paren [.ident "Some".toList 1, .group .paren [.ident "true".toList 3] 2 4,
      .punct ',' false 5] 0 6], 0, none⟩).1 = .ok [some true, some true] := ⟨rfl, rfl⟩

/-- C119: the flag before and after the extension. -/
example : oldTuple.dict.flag 1 = .ok [none] ∧ newTuple.dict.flag 1 = .ok [none, some true] := ⟨rfl, rfl⟩

/-- C119 fails for tuple structures without a field that is parsed, used as flags: a new field that may be left out
everywhere else, but has no default, makes the structure refuse the flag it accepted. -/
theorem c119_tuple_flag_violated : ∃ (d d' : StructDef (Option Bool)) (sp : Span), d.shape = .unnamed ∧
    d'.shape = .unnamed ∧ d.data.Grows d'.data ∧ NoGap d'.fields ∧ d.andThens = [] ∧ d'.andThens = [] ∧
    (∃ vs, d.dict.flag sp = .ok vs) ∧ d'.dict.flag sp = .err (flagDisallowedError sp) := by
  refine ⟨⟨.unnamed, [], none, none, none, []⟩, ⟨.unnamed, [plainField [] (optionDict boolDict)], none, none, none, []⟩, 1,
    rfl, rfl, ⟨fun i f hf => (by cases hf), fun i f' hi hf' => ?_, .inl ⟨rfl, rfl⟩, rfl, rfl, fun h => (by cases h)⟩, ?_, rfl,
    rfl, ⟨_, rfl⟩, rfl⟩
  · match i with
    | 0 => cases hf'; exact ⟨rfl, c119_optional ⟨rfl, rfl⟩ rfl rfl fun n sp => ⟨none, none, rfl, rfl⟩⟩
    | n + 1 => cases hf'
  · intro i j f g hij hf _ _ hg
    match j with
    | 0 => omega
    | n + 1 => cases hg

/-- C119 fails for the items in several attributes: `#[t(None)] #[t(,)]` was accepted, as the second one was not looked
at.  With a further field its comma is read as an item. -/
theorem c119_tuple_streams_violated : ∃ (d d' : StructDef (Option Bool)) (l : List Stream), d.TupleGrows d' ∧
    (∃ vs l', d.dict.inline .unnamed l = (.ok vs, l') ∧ (eofAll l').1 = .ok ()) ∧
    ∃ e, (d'.dict.inline .unnamed l).1 = .err e :=
  ⟨oldTuple, newTuple, [⟨[.ident "None".toList 1], 0, none⟩, ⟨[.punct ',' false 2], 0, none⟩], oldTuple_grows,
    ⟨_, _, rfl, rfl⟩, ⟨_, rfl⟩⟩

end

end Deluxe
