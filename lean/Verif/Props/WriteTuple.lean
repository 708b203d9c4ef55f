import Verif.Props.WriteDerive
import Verif.Props.TupleInline
/-!
# C111: Every value can be written — flattened fields of tuple structures

A flattened field of a tuple structure takes several of the items, or all that are left.
-/
namespace Deluxe

variable {V : Type}

/-- What is left to a positional field: a flattened one reads from the items, another one reads one item. -/
def Field.takes (f : Field V) : M Stream V := fun s =>
  if f.isFlat then ((f.flatUnnamed.parse .unnamed 0 [s]).1, (f.flatUnnamed.parse .unnamed 0 [s]).2.headD s)
  else f.item.parse .unnamed s

theorem unflat_takes (f : Field V) : f.unflat.item.parse .unnamed = f.takes := by
  funext s
  cases h : f.isFlat with
  | true => rw [unflat_of_flat h, Field.takes, if_pos h]
  | false => rw [unflat_of_not h, Field.takes, if_neg (by simp [h])]

/-- What follows: nothing, or, if the field took all that it can take, a comma and more. -/
def Follows (full : Bool) (rest : List Tok) : Prop := rest = [] ∨ (full = true ∧ ∃ c r, rest = c :: r ∧ Comma c)

/-- The tokens `t` are items that `p` reads as `b`. With `full` others may follow. -/
structure WritesItems (p : M Stream V) (full : Bool) (b : V) (t : List Tok) : Prop where
  some : t ≠ []
  reads : ∀ rest, Follows full rest → ∀ sc u, ∃ u', p ⟨t ++ rest, sc, u⟩ = (.ok b, ⟨rest, sc, u'⟩)

/-- The items with commas between them. -/
def between : List (List Tok) → List Tok
  | [] => []
  | [t] => t
  | t :: t' :: ts => t ++ comma :: between (t' :: ts)

theorem between_ne {ts : List (List Tok)} (h : ts ≠ []) (hne : ∀ t ∈ ts, t ≠ []) : between ts ≠ [] := by
  match ts, h with
  | [t], _ => exact hne t List.mem_cons_self
  | t :: t' :: ts, _ => simp [between]

/-- Values are read one after the other. -/
theorem readAll_writes (full : Bool) (xs : List (List Tok × V)) : ∀ (ps : List (M Stream V)), xs.length ≤ ps.length →
    (full = true → xs.length = ps.length) →
    (∀ (j : Nat) p x, ps[j]? = some p → xs[j]? = some x →
      WritesItems p (full || decide (j + 1 < xs.length)) x.2 x.1) →
    ∀ rest, Follows full rest → (xs ≠ [] ∨ rest = []) → ∀ sc u,
    ∃ u', readAll ps ⟨between (xs.map (·.1)) ++ rest, sc, u⟩ = some (xs.map (·.2), ⟨rest, sc, u'⟩) := by
  induction xs with
  | nil =>
    intro ps _ _ _ rest _ hne sc u
    rcases hne with h | rfl
    · cases h rfl
    · exact ⟨u, readAll_empty ps rfl⟩
  | cons x xs ih =>
    intro ps hle hfull h rest hr _ sc u
    cases ps with
    | nil => simp at hle
    | cons p ps =>
      have hx := h 0 p x rfl rfl
      have hne : x.1 ≠ [] := hx.some
      cases xs with
      | nil =>
        simp only [List.length_cons, List.length_nil] at hx hfull
        obtain ⟨u', hu⟩ := hx.reads rest (by simpa using hr) sc u
        refine ⟨u', ?_⟩
        show readAll (p :: ps) ⟨x.1 ++ rest, sc, u⟩ = _
        rw [readAll_cons _ _ (by simp [hne]), hu]
        dsimp only
        rcases hr with rfl | ⟨hf, _⟩
        · rw [readMore_empty _ rfl]; rfl
        · have : ps = [] := by
            have := hfull hf
            exact List.length_eq_zero_iff.1 (by omega)
          subst this
          rw [readMore, if_pos (.inr rfl)]
          rfl
      | cons y ys =>
        obtain ⟨u', hu⟩ := hx.reads (comma :: (between ((y :: ys).map (·.1)) ++ rest))
          (.inr ⟨by simp, _, _, rfl, comma_comma⟩) sc u
        obtain ⟨u'', hu'⟩ := ih ps (by simpa using hle) (fun hf => by simpa using hfull hf)
          (fun j p z hp hz => by
            have := h (j + 1) p z hp hz
            simpa using this) rest hr (.inl (by simp)) sc u'
        refine ⟨u'', ?_⟩
        show readAll (p :: ps) ⟨(x.1 ++ comma :: between ((y :: ys).map (·.1))) ++ rest, sc, u⟩ = _
        rw [List.append_assoc, List.cons_append, readAll_cons _ _ (by simp [hne]), hu]
        dsimp only
        have hps : ps ≠ [] := by
          rintro rfl
          simp at hle
        rw [readMore, if_neg (by simp [hps])]
        have hc : parseComma ⟨comma :: (between ((y :: ys).map (·.1)) ++ rest), sc, u'⟩ =
            (.ok (), ⟨between ((y :: ys).map (·.1)) ++ rest, sc, u'⟩) := rfl
        rw [hc]
        dsimp only
        rw [hu']
        rfl

/-- The field of a tuple structure has the value `v` if there are no tokens for it. -/
def LeftOutOf (d : Fields V) (f : Field V) (v : V) : Prop :=
  ∃ b, runTransforms f.transforms b = .ok v ∧
    ((f.isContainer = true ∧ d.obj = some b) ∨
     (f.default = some b ∧ (f.isContainer = true → d.obj = none)) ∨
     (f.isParsable = true ∧ f.default = none ∧
        if f.isFlat then (f.flatUnnamed.parse .unnamed 0 [noToks]).1 = .ok b else f.item.missing [] 0 = .ok b))

theorem LeftOutOf.settles {d : Fields V} (ht : d.target = none) {f : Field V} {v : V} (h : LeftOutOf d f v) :
    Settles d f none v := by
  obtain ⟨b, hb, h⟩ := h
  refine .inl ⟨b, ?_, by rw [unflat_transforms]; exact hb⟩
  rcases h with ⟨h1, h2⟩ | ⟨h1, h2⟩ | ⟨h1, h2, h3⟩
  · exact .container (by rw [unflat_isContainer]; exact h1) h2
  · refine .default ?_ (by rw [unflat_default]; exact h1)
    by_cases hp : f.isParsable = true
    · exact .inl ⟨⟨unflat_isFlat f, by rw [unflat_isParsable]; exact hp⟩, rfl⟩
    · refine .inr ⟨by rw [unflat_isParsable]; simpa using hp, ?_⟩
      rintro ⟨h3, h4⟩
      rw [unflat_isContainer] at h3
      rw [h2 h3] at h4
      cases h4
  · refine .missing ⟨unflat_isFlat f, by rw [unflat_isParsable]; exact h1⟩ rfl (by rw [unflat_default]; exact h2) ht ?_
    rw [Field.absent]
    cases hfl : f.isFlat with
    | true => rw [hfl, if_pos rfl] at h3; rw [unflat_of_flat hfl]; exact h3
    | false => rw [hfl, if_neg (by simp)] at h3; rw [unflat_of_not hfl]; exact h3

/-- The values of a tuple structure for which the first `c` of the fields that are parsed are given, and the others are
right without. `F k full` are the values that can be given for the field `k`, with `full` also if more items follow. -/
def StructDef.WritableItems (d : StructDef V) (F : Nat → Bool → V → Prop) (full : Bool) (c : Nat) (vs : List V) : Prop :=
  ∃ ws, d.andThens.foldlM (fun v f => f v) ws = .ok vs ∧ ws.length = d.fields.length ∧
    c ≤ d.fields.countP (·.isParsable) ∧ (full = true → c = d.fields.countP (·.isParsable)) ∧
    ∀ (k : Nat) f w, d.fields[k]? = some f → ws[k]? = some w →
      if f.isParsable = true ∧ rank d.fields k < c then
        ∃ b, F k (full || decide (rank d.fields k + 1 < c)) b ∧ runTransforms f.transforms b = .ok w
      else LeftOutOf d.data f w

/-- The values `F` can be given for the fields. -/
def ItemsCan (fields : List (Field V)) (F : Nat → Bool → V → Prop) : Prop :=
  ∀ (k : Nat) f, fields[k]? = some f → f.isParsable = true → ∀ full b, F k full b → ∃ t, WritesItems f.takes full b t

section
variable [Env]

/-- C111 for the items of a tuple structure, some of whose fields may be flattened: those that are in parentheses, or stand
among the items of another structure. -/
theorem c111_items {d : StructDef V} {F : Nat → Bool → V → Prop} (hs : d.shape = .unnamed) (hf : TupleFine d.data)
    (hF : ItemsCan d.fields F) {full : Bool} {c : Nat} {vs : List V} (h : d.WritableItems F full c vs) :
    ∃ t, (0 < c → t ≠ []) ∧ ∀ m i rest, Follows full rest → (0 < c ∨ rest = []) → ∀ sc u, ∃ u',
      d.flatUnnamed.parse m i [⟨t ++ rest, sc, u⟩] = (.ok vs, [⟨rest, sc, u'⟩]) := by
  obtain ⟨ws, hw1, hw2, hle, hfull, hw3⟩ := h
  have hget : ∀ {i : Nat} {f : Field V}, d.fields[i]? = some f → ∃ w, ws[i]? = some w := by
    intro i f hf
    have := (List.getElem?_eq_some_iff.1 hf).1
    exact ⟨_, List.getElem?_eq_getElem (by omega)⟩
  obtain ⟨ps, h1, h2⟩ := choose_list (R := fun (j : Nat) (x : List Tok × V) => ∃ f k, NthField d.fields j f k ∧
      WritesItems f.takes (full || decide (j + 1 < c)) x.2 x.1 ∧
      ∀ w, ws[k]? = some w → runTransforms f.transforms x.2 = .ok w) (List.range c) (by
    intro j hj
    have hj : j < c := List.mem_range.1 hj
    obtain ⟨f, k, hk⟩ := nthField_exists (fields := d.fields) (j := j) (by omega)
    obtain ⟨w, hw⟩ := hget hk.1
    have := hw3 k f w hk.1 hw
    rw [if_pos ⟨hk.2.1, by rw [hk.2.2]; exact hj⟩, hk.2.2] at this
    obtain ⟨b, hb, hr⟩ := this
    obtain ⟨t, ht⟩ := hF k f hk.1 hk.2.1 _ b hb
    exact ⟨(t, b), f, k, hk, ht, fun w' hw' => by
      simp only [hw, Option.some.injEq] at hw'
      exact hw' ▸ hr⟩)
  have hlen : ps.length = c := by simpa using congrArg List.length h1
  have hnth : ∀ (j : Nat) (p : (List Tok × V) × Nat), ps[j]? = some p → p.2 = j := by
    intro j p hp
    have := congrArg (·[j]?) h1
    simp only [List.getElem?_map, hp, Option.map_some] at this
    rw [eq_comm, List.getElem?_eq_some_iff] at this
    obtain ⟨_, h⟩ := this
    simpa using h.symm
  have hread : ∀ rest, Follows full rest → (ps.map (·.1) ≠ [] ∨ rest = []) → ∀ sc u, ∃ u',
      readAll (readers (d.fields.map Field.unflat)) ⟨between ((ps.map (·.1)).map (·.1)) ++ rest, sc, u⟩ =
        some ((ps.map (·.1)).map (·.2), ⟨rest, sc, u'⟩) := by
    have hrl : (readers (d.fields.map Field.unflat)).length = d.fields.countP (·.isParsable) := by
      rw [readers_length, unflat_countP]
    refine readAll_writes full (ps.map (·.1)) (readers (d.fields.map Field.unflat)) (by simp only [List.length_map, hlen, hrl]; exact hle)
      (fun hf => by simp only [List.length_map, hlen, hrl]; exact hfull hf) ?_
    intro j p x hp hx
    rw [List.getElem?_map, Option.map_eq_some_iff] at hx
    obtain ⟨q, hq, rfl⟩ := hx
    obtain ⟨f, k, g1, g2, _⟩ := h2 q (List.mem_of_getElem? hq)
    rw [hnth _ _ hq] at g1 g2
    have hpf : p = f.takes := by
      rw [← tupleItem_readers (unflat_noFlat d.fields).noAppendRest hp]
      have g1' : NthField (d.fields.map Field.unflat) j f.unflat k := by
        refine ⟨by rw [List.getElem?_map, g1.1]; rfl, by rw [unflat_isParsable]; exact g1.2.1, ?_⟩
        rw [unflat_rank]; exact g1.2.2
      rw [tupleItem, (nthArm_some (unflat_noFlat d.fields).noAppendRest).2 g1']
      exact unflat_takes f
    rw [hpf]
    simpa [hlen] using g2
  refine ⟨between ((ps.map (·.1)).map (·.1)), fun hc => ?_, fun m i rest hr hne sc u => ?_⟩
  · refine between_ne ?_ ?_
    · intro h
      have := congrArg List.length h
      simp [hlen] at this
      omega
    · intro t ht
      simp only [List.map_map, List.mem_map] at ht
      obtain ⟨q, hq, rfl⟩ := ht
      obtain ⟨f, k, _, g2, _⟩ := h2 q hq
      exact g2.some
  · obtain ⟨u', hu⟩ := hread rest hr (hne.imp (fun hc h => by
      have := congrArg List.length h
      simp [hlen] at this
      omega) id) sc u
    refine ⟨u', ?_⟩
    have hfill : Fills d.data ((ps.map (·.1)).map (·.2)) ws := by
      refine ⟨hw2, fun k f hfk => ?_⟩
      have hfk : d.fields[k]? = some f := hfk
      obtain ⟨w, hw⟩ := hget hfk
      refine ⟨w, hw, ?_⟩
      have hx := hw3 k f w hfk hw
      show Settles d.data f (readFor d.fields _ f k) w
      by_cases hp : f.isParsable = true ∧ rank d.fields k < c
      · have hlt : rank d.fields k < ps.length := by omega
        obtain ⟨f', k', g1, g2, g3⟩ := h2 ps[rank d.fields k] (List.getElem_mem hlt)
        have hj := hnth _ _ (List.getElem?_eq_getElem hlt)
        rw [hj] at g1
        obtain ⟨rfl, rfl⟩ := g1.unique ⟨hfk, hp.1, rfl⟩
        refine .inl ⟨ps[rank d.fields k'].1.2, .item ⟨unflat_isFlat f', by rw [unflat_isParsable]; exact hp.1⟩ ?_, ?_⟩
        · simp [readFor, hp.1, hlt]
        · rw [unflat_transforms]; exact g3 w hw
      · rw [if_neg hp] at hx
        have : readFor d.fields ((ps.map (·.1)).map (·.2)) f k = none := by
          simp only [readFor]
          split
          · rename_i hq
            have : c ≤ rank d.fields k := by
              by_cases hlt : rank d.fields k < c
              · exact absurd ⟨hq, hlt⟩ hp
              · omega
            simp [hlen, this]
          · rfl
        rw [this]
        exact hx.settles hf.target
    have := (unnamedFlat_one hf m i ⟨between ((ps.map (·.1)).map (·.1)) ++ rest, sc, u⟩ ws [⟨rest, sc, u'⟩]).2
      ⟨_, _, hu, rfl, hfill⟩
    simp only [StructDef.flatUnnamed, hs, M.mapRes, this, runAndThens, hw1]

/-- C111 for tuple structures with a field that is parsed, some of which may be flattened. -/
theorem c111_flat_tuple_struct {d : StructDef V} {F : Nat → Bool → V → Prop} (hs : d.shape = .unnamed)
    (ht : d.isTransparent = false) (ha : d.Accepted) (hg : d.FieldsFine) (hf : TupleFine d.data)
    (hF : ItemsCan d.fields F) : CanWrite d.dict (.same fun vs => ∃ c, d.WritableItems F false c vs) := by
  have hin : ∀ m, d.dict.inline m = d.flatUnnamed.parse m 0 := by
    intro m
    unfold StructDef.dict
    rw [ht, hs]; rfl
  refine canWrite_inline (dl := .paren) d.dict_default (d.dict_good ha hg) (fun m s => ⟨m, ?_⟩) fun vs hvs => ?_
  · have : d.dict.inline = fun m => d.flatUnnamed.parse m 0 := funext hin
    rw [this]
    unfold StructDef.dict
    rw [ht, hs]; rfl
  · obtain ⟨c, hc⟩ := hvs
    obtain ⟨t, _, h⟩ := c111_items hs hf hF hc
    refine ⟨t, fun m sc u => ?_⟩
    obtain ⟨u', hu⟩ := h m 0 [] (.inl rfl) (.inr rfl) sc u
    rw [List.append_nil] at hu
    refine ⟨_, by rw [hin]; exact hu, fun s hs => ?_⟩
    rw [List.mem_singleton.1 hs]
    exact .inl rfl

omit [Env] in
theorem Follows.boundary {full : Bool} {rest : List Tok} (h : Follows full rest) : Boundary rest :=
  h.imp id fun h => h.2

omit [Env] in
/-- A field that is not flattened takes one item. -/
theorem c111_one_item {f : Field V} {D : Domain V} (hf : f.isFlat = false) (h : CanWrite f.item D) (full : Bool) {b : V}
    (hb : D.elem b) : ∃ t, WritesItems f.takes full b t := by
  obtain ⟨⟨v, hv⟩, _⟩ := h.elem b hb
  refine ⟨v, hv.some, fun rest hr sc u => ?_⟩
  have : f.takes = f.item.parse .unnamed := funext fun s => by rw [Field.takes, if_neg (by simp [hf])]
  rw [this]
  exact hv.reads .unnamed rfl rest sc hr.boundary u

omit [Env] in
theorem takes_flat {f : Field V} (hf : f.isFlat = true) {s s' : Stream} {b : V}
    (h : f.flatUnnamed.parse .unnamed 0 [s] = (.ok b, [s'])) : f.takes s = (.ok b, s') := by
  rw [Field.takes, if_pos hf, h]; rfl

/-- A flattened tuple structure takes the items of its fields: all of them, or, if none follow, those at the beginning. -/
theorem c111_flattened_items {W : Type} {f : Field V} (hf : f.isFlat = true) {d : StructDef W} {g : List W → V}
    (hin : ∀ m i, f.flatUnnamed.parse m i = (d.flatUnnamed.parse m i).mapRes (Res.map g)) {F : Nat → Bool → W → Prop}
    (hs : d.shape = .unnamed) (hd : TupleFine d.data) (hF : ItemsCan d.fields F) {full : Bool} {c : Nat} {vs : List W}
    (hc : 0 < c) (h : d.WritableItems F full c vs) : ∃ t, WritesItems f.takes full (g vs) t := by
  obtain ⟨t, h1, h2⟩ := c111_items hs hd hF h
  refine ⟨t, h1 hc, fun rest hr sc u => ?_⟩
  obtain ⟨u', hu⟩ := h2 .unnamed 0 rest hr (.inl hc) sc u
  exact ⟨u', takes_flat hf (by rw [hin]; simp only [M.mapRes, hu, Res.map])⟩

omit [Env] in
/-- A flattened `Vec` takes all items that are left. -/
theorem c111_flattened_seq {W : Type} {f : Field V} (hf : f.isFlat = true) {d : Dict W} {D : Domain W} (hd : d.Good)
    (hw : CanWrite d D) {g : List W → V}
    (hin : ∀ m i, f.flatUnnamed.parse m i = ((seqFlat d).parse m i).mapRes (Res.map g)) {l : List W} (hl : ∀ a ∈ l, D.elem a)
    (hne : l ≠ []) : ∃ t, WritesItems f.takes false (g l) t := by
  obtain ⟨ps, h1, h2⟩ := writes_list hw l hl
  refine ⟨withCommas (ps.map (·.1)), ?_, fun rest hr sc u => ?_⟩
  · cases ps with
    | nil => simp at h1; exact absurd h1 hne
    | cons p ps => simp [withCommas]
  · rcases hr with rfl | ⟨h, _⟩
    · rw [List.append_nil]
      obtain ⟨r, l', h3, _, h5, h6⟩ := c23_sequence d (hd.parse _) .unnamed 0 _ _ (items_all (u := u) (elems_items h1 h2 sc))
      rw [h6.1 (errMsgs_oks l), okVals_oks] at h3
      have hl' := (AdvL.length (((seqDict_good hd.parse).inline .unnamed) [⟨withCommas (ps.map (·.1)), sc, u⟩]).2)
      have hsc := ((seqDict_good hd.parse).inline .unnamed [⟨withCommas (ps.map (·.1)), sc, u⟩]).2
      have e : (seqDict d).inline .unnamed [⟨withCommas (ps.map (·.1)), sc, u⟩] = (.ok l, l') := h3
      rw [e] at hl' hsc
      match l', hl', hsc, h3, h5 with
      | [s'], _, hsc, h3, h5 =>
        have ht : s'.toks = [] := h5 s' List.mem_cons_self
        have hs' : s'.scope = sc := by
          cases hsc with
          | cons ha _ => exact ha.scope
        refine ⟨s'.unexp, takes_flat hf ?_⟩
        rw [hin]
        simp only [M.mapRes, h3, Res.map]
        obtain ⟨t, s, un⟩ := s'
        cases ht
        cases hs'
        rfl
    · cases h

omit [Env] in
/-- A number of items, behind which others may follow. -/
theorem posReads_items {α : Type} {p : Nat → M Stream α} {len : Nat} (xs : List (List Tok × α)) : ∀ c, c + xs.length = len →
    xs ≠ [] → (∀ (j : Nat) x, xs[j]? = some x → x.1 ≠ [] ∧ ∀ rest, Boundary rest → ∀ sc,
      ReadsAs (p (c + j)) x.1 rest sc (.ok x.2)) → ∀ rest, Boundary rest → ∀ sc u, ∃ rs u',
    PosReadsAll (fun i => recover (p i)) len c [⟨between (xs.map (·.1)) ++ rest, sc, u⟩] rs none len [⟨rest, sc, u'⟩] ∧
      rs.map (·.1) = (xs.map (·.2)).map .ok := by
  intro c hc hne h rest hr sc u
  suffices H : ∃ rs u', PosReads (fun i => recover (p i)) len c ⟨between (xs.map (·.1)) ++ rest, sc, u⟩ rs none len
      (decide (rest ≠ [])) ⟨rest, sc, u'⟩ ∧ rs.map (·.1) = (xs.map (·.2)).map .ok by
    obtain ⟨rs, u', h1, h2⟩ := H
    refine ⟨rs, u', ?_, h2⟩
    by_cases h0 : rest = []
    · rw [decide_eq_false (by simp [h0])] at h1
      have := PosReadsAll.next h1 .nil
      rwa [List.append_nil] at this
    · rw [decide_eq_true h0] at h1
      exact .full h1
  induction xs generalizing c u with
  | nil => cases hne rfl
  | cons x xs ih =>
    obtain ⟨hx, hread⟩ := h 0 x rfl
    cases xs with
    | nil =>
      obtain ⟨u', hu⟩ := hread rest hr sc u
      refine ⟨[(.ok x.2, ⟨between ([x].map (·.1)) ++ rest, sc, u⟩, ⟨rest, sc, u'⟩)], u', ?_, rfl⟩
      simp only [List.length_cons, List.length_nil] at hc
      refine .last (s1 := ⟨rest, sc, u'⟩) (by simp [between, hx]) (by omega) ?_ (.inr (by omega)) ?_
      · show recover (p c) ⟨x.1 ++ rest, sc, u⟩ = _
        rw [recover]
        rw [Nat.add_zero] at hu
        rw [hu]
      · by_cases h0 : rest = []
        · rw [decide_eq_false (by simp [h0])]
          have : len = c + 1 := by omega
          rw [this]
          exact .done h0
        · rw [decide_eq_true h0]
          have : len = c + 1 := by omega
          subst this
          exact .full h0 (Nat.le_refl _)
    | cons y ys =>
      obtain ⟨u', hu⟩ := hread (comma :: (between ((y :: ys).map (·.1)) ++ rest)) (.inr ⟨_, _, rfl, comma_comma⟩) sc u
      obtain ⟨rs, u'', h1, h2⟩ := ih (c + 1) (by simp only [List.length_cons] at hc ⊢; omega) (by simp)
        (fun j z hz => by
          have := h (j + 1) z hz
          rwa [show c + (j + 1) = c + 1 + j by omega] at this) u'
      simp only [List.length_cons] at hc
      refine ⟨(.ok x.2, ⟨between ((x :: y :: ys).map (·.1)) ++ rest, sc, u⟩,
        ⟨comma :: (between ((y :: ys).map (·.1)) ++ rest), sc, u'⟩) :: rs, u'', .more (s1 := ⟨comma :: (between ((y :: ys).map (·.1)) ++ rest), sc, u'⟩)
        (by simp [between, hx]) (by omega) ?_ rfl comma_comma h1, by rw [List.map_cons, h2]; rfl⟩
      show recover (p c) ⟨(x.1 ++ comma :: between ((y :: ys).map (·.1))) ++ rest, sc, u⟩ = _
      rw [List.append_assoc, List.cons_append, recover]
      rw [Nat.add_zero] at hu
      rw [hu]

/-- A flattened array takes as many items as it is long. -/
theorem c111_flattened_array {W : Type} {f : Field V} (hf : f.isFlat = true) {n : Nat} {d : Dict W} {D : Domain W}
    (hw : CanWrite d D) {g : List W → V}
    (hin : ∀ m i, f.flatUnnamed.parse m i = ((arrayFlat n d).parse m i).mapRes (Res.map g)) {l : List W} (hl : ∀ a ∈ l, D.elem a)
    (hn : l.length = n) (hne : l ≠ []) (full : Bool) : ∃ t, WritesItems f.takes full (g l) t := by
  obtain ⟨ps, h1, h2⟩ := writes_list hw l hl
  have hlen : ps.length = n := by rw [← hn, ← h1, List.length_map]
  have hps : ps ≠ [] := by rintro rfl; exact hne h1.symm
  refine ⟨between (ps.map (·.1)), between_ne (by simp [hps]) ?_, fun rest hr sc u => ?_⟩
  · intro t ht
    obtain ⟨p, hp, rfl⟩ := List.mem_map.1 ht
    exact (h2 p hp).some
  · obtain ⟨rs, u', h3, h4⟩ := posReads_items (p := fun _ => d.parse .unnamed) (len := n) ps 0 (by omega) hps
      (fun j x hx => ⟨(h2 x (List.mem_of_getElem? hx)).some, fun rest hr sc =>
        (h2 x (List.mem_of_getElem? hx)).reads .unnamed rfl rest sc hr⟩) rest hr.boundary sc u
    obtain ⟨r, h5, h6⟩ := arrayFlat_reads n d .unnamed 0 h3
    rw [h4, h1, okVals_oks, errMsgs_oks] at h6
    rw [h6.1 (by simp [fatalMsgs])] at h5
    exact ⟨u', takes_flat hf (by rw [hin]; simp only [M.mapRes, h5, Res.map])⟩

/-- A flattened tuple takes an item for each component. -/
theorem c111_flattened_tuple {W : Type} {f : Field V} (hf : f.isFlat = true) {ds : List (Dict W)} {D : Nat → Domain W}
    (hw : ∀ (i : Nat) d, ds[i]? = some d → CanWrite d (D i)) {g : List W → V}
    (hin : ∀ m i, f.flatUnnamed.parse m i = ((tupleFlat ds).parse m i).mapRes (Res.map g)) {l : List W}
    (hn : l.length = ds.length) (hl : ∀ (i : Nat) a, l[i]? = some a → (D i).elem a) (hne : l ≠ []) (full : Bool) :
    ∃ t, WritesItems f.takes full (g l) t := by
  obtain ⟨ps, h1, h2⟩ := choose_list (R := fun (x : W × Nat) v => ∀ d, ds[x.2]? = some d → Writes d false x.1 v) l.zipIdx (by
    rintro ⟨a, i⟩ hx
    have hx' : l[i]? = some a := by simpa [List.mem_zipIdx_iff_getElem?] using hx
    have hlt : i < ds.length := hn ▸ (List.getElem?_eq_some_iff.1 hx').1
    obtain ⟨⟨v, hv⟩, _⟩ := (hw i ds[i] (List.getElem?_eq_getElem hlt)).elem a (hl i a hx')
    refine ⟨v, fun d hd => ?_⟩
    simp only [List.getElem?_eq_getElem hlt, Option.some.injEq] at hd
    exact hd ▸ hv)
  have hlen : ps.length = ds.length := by rw [← hn, ← List.length_zipIdx (l := l), ← h1, List.length_map]
  have hps : ps ≠ [] := by
    rintro rfl
    have : l.length = 0 := by rw [hn, ← hlen]; rfl
    exact hne (List.length_eq_zero_iff.1 this)
  have hwr : ∀ (j : Nat) (p : List Tok × (W × Nat)), ps[j]? = some p → ∃ d, ds[j]? = some d ∧ Writes d false p.2.1 p.1 ∧
      component ds j = d.parse .unnamed := by
    intro j p hp
    have hlt : j < ds.length := hlen ▸ (List.getElem?_eq_some_iff.1 hp).1
    have hj := congrArg (·[j]?) h1
    simp only [List.getElem?_map, hp, Option.map_some] at hj
    have hj2 : p.2.2 = j := by
      have := hj.symm
      rw [List.getElem?_zipIdx, Option.map_eq_some_iff] at this
      obtain ⟨a, _, ha⟩ := this
      rw [← ha]; simp
    have hd := List.getElem?_eq_getElem hlt
    exact ⟨_, hd, h2 p (List.mem_of_getElem? hp) _ (by rw [hj2]; exact hd), by simp only [component, hd]⟩
  refine ⟨between (ps.map (·.1)), between_ne (by simp [hps]) ?_, fun rest hr sc u => ?_⟩
  · intro t ht
    obtain ⟨p, hp, rfl⟩ := List.mem_map.1 ht
    obtain ⟨j, hj⟩ := List.getElem?_of_mem hp
    obtain ⟨_, _, hw, _⟩ := hwr j p hj
    exact hw.some
  · obtain ⟨rs, u', h3, h4⟩ := posReads_items (p := component ds) (len := ds.length) (ps.map fun p => (p.1, p.2.1)) 0
      (by rw [List.length_map, hlen]; omega) (by simp [hps])
      (fun j x hx => by
        rw [List.getElem?_map, Option.map_eq_some_iff] at hx
        obtain ⟨p, hp, rfl⟩ := hx
        obtain ⟨d, _, hw, hcm⟩ := hwr j p hp
        refine ⟨hw.some, fun rest hr sc => ?_⟩
        rw [Nat.zero_add, hcm]
        exact hw.reads .unnamed rfl rest sc hr) rest hr.boundary sc u
    rw [List.map_map, show ((·.1) ∘ fun p : List Tok × (W × Nat) => (p.1, p.2.1)) = (·.1) from rfl] at h3
    obtain ⟨r, h5, h6⟩ := tupleFlat_reads ds .unnamed 0 h3
    have hvals : (ps.map fun p => (p.1, p.2.1)).map (·.2) = l := by
      rw [List.map_map, show ((·.2) ∘ fun p : List Tok × (W × Nat) => (p.1, p.2.1)) = Prod.fst ∘ (·.2) from rfl, ← List.map_map,
        h1, List.zipIdx_map_fst]
    rw [h4, hvals, okVals_oks, errMsgs_oks] at h6
    rw [h6.1 (by simp [fatalMsgs])] at h5
    exact ⟨u', takes_flat hf (by rw [hin]; simp only [M.mapRes, h5, Res.map])⟩

/-! ## Example -/

/-- The values that can be given for a field `bool` and one `Option<bool>`. -/
def boolOrOpt (k : Nat) (_ : Bool) (v : List Bool) : Prop := if k = 0 then ∃ b, v = [b] else ∃ o : Option Bool, v = o.toList

omit [Env] in
theorem boolField_takes (full : Bool) (b : Bool) : ∃ t, WritesItems boolField.takes full [b] t :=
  c111_one_item (D := Domain.image (.same fun _ => True) fun b => [b]) rfl (c111_convert _ c111_bool) full ⟨b, trivial, rfl⟩

omit [Env] in
theorem optField_takes (full : Bool) (o : Option Bool) : ∃ t, WritesItems optField.takes full o.toList t :=
  c111_one_item (D := Domain.image (Domain.same fun _ => True).option Option.toList) rfl
    (c111_convert _ (c111_option c111_bool)) full ⟨o, fun _ _ => trivial, rfl⟩

/-- C111: each value of `struct Outer(bool, #[deluxe(flatten)] Inner, Option<bool>);` with `struct Inner(bool, Option<bool>);`
can be written by four items. -/
example (a b : Bool) (o o' : Option Bool) : ∃ t, t ≠ [] ∧ ∀ m sc u, ∃ u',
    tupleOuter.flatUnnamed.parse m 0 [⟨t, sc, u⟩] = (.ok [[a], b :: o.toList, o'.toList], [⟨[], sc, u'⟩]) := by
  have hinner : ∃ t, WritesItems (tupleField tupleInner).takes true (b :: o.toList) t := by
    have := c111_flattened_items (f := tupleField tupleInner) (d := ⟨.unnamed, [boolField, optField], none, none, none, []⟩)
      (g := List.flatten) (F := boolOrOpt) (full := true) (c := 2) (vs := [[b], o.toList]) rfl (fun m i => by
        funext s
        show _ = M.mapRes _ (M.mapRes _ _) s
        simp only [M.mapRes, runAndThens_nil]
        rfl) rfl
      tupleInline_demo.fine' (fun k f hk _ full v hv => by
        match k with
        | 0 => cases hk; obtain ⟨b, rfl⟩ := hv; exact boolField_takes full b
        | 1 => cases hk; obtain ⟨o, rfl⟩ := hv; exact optField_takes full o
        | k + 2 => cases hk) (by decide) ⟨[[b], o.toList], rfl, rfl, by decide, fun _ => by decide, fun k f w hk hw => ?_⟩
    · simpa using this
    · match k with
      | 0 => cases hk; cases hw; exact (if_pos ⟨rfl, by decide⟩).mpr ⟨_, ⟨b, rfl⟩, rfl⟩
      | 1 => cases hk; cases hw; exact (if_pos ⟨rfl, by decide⟩).mpr ⟨_, ⟨o, rfl⟩, rfl⟩
      | k + 2 => cases hk
  obtain ⟨t, h1, h2⟩ := c111_items (d := tupleOuter) (full := false) (c := 3) (vs := [[a], b :: o.toList, o'.toList])
    (F := fun k full v => if k = 0 then ∃ b, v = [b] else if k = 1 then full = true ∧ v = b :: o.toList else
      ∃ o : Option Bool, v = o.toList) rfl
    (tupleInline_demo.outer (tupleField_flattens _)) (fun k f hk _ full v hv => by
        match k with
        | 0 => cases hk; obtain ⟨b, rfl⟩ := hv; exact boolField_takes full b
        | 1 => cases hk; obtain ⟨rfl, rfl⟩ := hv; exact hinner
        | 2 => cases hk; obtain ⟨o, rfl⟩ := hv; exact optField_takes full o
        | k + 3 => cases hk)
    ⟨[[a], b :: o.toList, o'.toList], rfl, rfl, Nat.le_refl 3, fun _ => rfl, fun k f w hk hw => by
      match k with
      | 0 => cases hk; cases hw; exact (if_pos ⟨rfl, (by decide : 0 < 3)⟩).mpr ⟨_, ⟨a, rfl⟩, rfl⟩
      | 1 => cases hk; cases hw; exact (if_pos ⟨rfl, (by decide : 1 < 3)⟩).mpr ⟨_, ⟨rfl, rfl⟩, rfl⟩
      | 2 => cases hk; cases hw; exact (if_pos ⟨rfl, (by decide : 2 < 3)⟩).mpr ⟨_, ⟨o', rfl⟩, rfl⟩
      | k + 3 => cases hk⟩
  refine ⟨t, h1 (by decide), fun m sc u => ?_⟩
  have := h2 m 0 [] (.inl rfl) (.inr rfl) sc u
  rwa [List.append_nil] at this

end
end Deluxe
