import Verif.Props.WriteDerive
import Verif.Props.AppendField
import Verif.Props.RestField
/-!
# C111: Every value can be written — structures with flattened, append and rest fields

A flat field reads all items of the structure and looks for those with its own keys. So its value is written by items
among others, and the items of all fields can be written one after the other if no key belongs to two fields.
-/
namespace Deluxe

variable {V : Type}

/-! ## Items among others -/

/-- An item: the key `segs`, its tokens `pt` and the tokens `vt` after it. -/
structure Piece where
  segs : List Str
  pt : List Tok
  vt : List Tok

def Piece.key (p : Piece) : Str := keyString p.segs

def Piece.toks (p : Piece) : List Tok := p.pt ++ p.vt

/-- The tokens are those of an item with this key. -/
structure Piece.Fine (p : Piece) : Prop where
  path : ∃ lead, PathToks lead p.segs p.pt
  start : ¬ StartsColon2 p.vt
  noComma : NoComma p.vt

/-- The items, a comma after each. -/
def pieceToks (ps : List Piece) : List Tok := withCommas (ps.map Piece.toks)

open Classical in
/-- The items with a key in `K` among others. -/
noncomputable def piecesOf (K : Str → Prop) (qs : List Piece) : List Piece := qs.filter fun q => decide (K q.key)

/-- The items `ps` write the value `b` for the parser: it only looks at items with a key in `K`, and if those are `ps`,
the value is `b`, whatever other items there are before, between and after them. -/
structure WritesAmong {β : Type} (p : M (List Stream) β) (K : Str → Prop) (b : β) (ps : List Piece) : Prop where
  fine : ∀ q ∈ ps, q.Fine
  mine : ∀ q ∈ ps, K q.key
  reads : ∀ qs, (∀ q ∈ qs, q.Fine) → piecesOf K qs = ps → ∀ sc u, (p [⟨pieceToks qs, sc, u⟩]).1 = .ok b

theorem mem_piecesOf {K : Str → Prop} {qs : List Piece} {q : Piece} : q ∈ piecesOf K qs ↔ q ∈ qs ∧ K q.key := by
  simp [piecesOf]

theorem piecesOf_cons_mine {K : Str → Prop} {q : Piece} {qs : List Piece} (h : K q.key) :
    piecesOf K (q :: qs) = q :: piecesOf K qs := by
  simp [piecesOf, h]

theorem piecesOf_cons_other {K : Str → Prop} {q : Piece} {qs : List Piece} (h : ¬ K q.key) :
    piecesOf K (q :: qs) = piecesOf K qs := by
  simp [piecesOf, h]

theorem piecesOf_all {K : Str → Prop} {qs : List Piece} (h : ∀ q ∈ qs, K q.key) : piecesOf K qs = qs := by
  simpa [piecesOf, List.filter_eq_self] using h

theorem piecesOf_none {K : Str → Prop} {qs : List Piece} (h : ∀ q ∈ qs, ¬ K q.key) : piecesOf K qs = [] := by
  simpa [piecesOf, List.filter_eq_nil_iff] using h

theorem piecesOf_append (K : Str → Prop) (a b : List Piece) : piecesOf K (a ++ b) = piecesOf K a ++ piecesOf K b := by
  simp [piecesOf]

theorem piecesOf_sub {K L : Str → Prop} (h : ∀ k, K k → L k) (qs : List Piece) :
    piecesOf K (piecesOf L qs) = piecesOf K qs := by
  simp only [piecesOf, List.filter_filter]
  refine List.filter_congr fun q _ => ?_
  by_cases hk : K q.key
  · simp [hk, h _ hk]
  · simp [hk]

/-- The items of one of several parsers, if those of all are written one after the other. -/
theorem piecesOf_flatMap {n : Nat} {K : Nat → Str → Prop} {ps : Nat → List Piece} (h : ∀ i, i < n → ∀ q ∈ ps i, K i q.key)
    (hd : ∀ i j k, i < n → j < n → i ≠ j → K i k → ¬ K j k) {i : Nat} (hi : i < n) :
    piecesOf (K i) ((List.range n).flatMap ps) = ps i := by
  have key : ∀ m, m ≤ n → piecesOf (K i) ((List.range m).flatMap ps) = if i < m then ps i else [] := by
    intro m
    induction m with
    | zero => intro _; simp [piecesOf]
    | succ m ih =>
      intro hm
      rw [List.range_succ, List.flatMap_append, piecesOf_append, ih (by omega)]
      simp only [List.flatMap_cons, List.flatMap_nil, List.append_nil]
      by_cases h1 : i = m
      · subst h1
        rw [if_neg (by omega), if_pos (by omega), piecesOf_all (h i hi)]
        rfl
      · have h2 : piecesOf (K i) (ps m) = [] :=
          piecesOf_none fun q hq => hd m i _ (by omega) hi (Ne.symm h1) (h m (by omega) q hq)
        rw [h2, List.append_nil]
        by_cases h3 : i < m
        · rw [if_pos h3, if_pos (by omega)]
        · rw [if_neg h3, if_neg (by omega)]
  rw [key n (Nat.le_refl _), if_pos hi]

variable [Env]

theorem Piece.Fine.keyToks {p : Piece} (h : p.Fine) : KeyToks p.segs (pathSpan p.pt) p.toks p.vt := by
  obtain ⟨lead, hl⟩ := h.path
  exact .mk hl h.start

omit [Env] in
/-- What the items mean, if each of them means something. -/
theorem pieces_items {β : Type} {seg : List Tok → List Tok → Span → β → Prop} {sc : Span} (R : Piece → β → Prop)
    (qs : List Piece) (h : ∀ q ∈ qs, ∃ b, R q b) (hs : ∀ q b, q ∈ qs → R q b → ∀ rest, Boundary rest → seg q.toks rest sc b) :
    ∃ l : List (β × Piece), l.map (·.2) = qs ∧ (∀ x ∈ l, R x.2 x.1) ∧ Items seg sc (pieceToks qs) (l.map (·.1)) := by
  obtain ⟨l, h1, h2⟩ := choose_list qs h
  refine ⟨l, h1, h2, ?_⟩
  have := items_withCommas (seg := seg) (sc := sc) (l.map fun x => (x.2.toks, x.1)) (by
    intro x hx rest hr
    obtain ⟨y, hy, rfl⟩ := List.mem_map.1 hx
    exact hs _ _ (h1 ▸ List.mem_map_of_mem hy) (h2 y hy) rest hr)
  rw [List.map_map, List.map_map] at this
  have e : pieceToks qs = withCommas (l.map (Prod.fst ∘ fun x => (x.2.toks, x.1))) := by
    rw [pieceToks, ← h1, List.map_map]; rfl
  rw [e]
  exact this

/-! ## Fields -/

/-- The items `ps`, with keys in `K`, give the field `f` at position `i` the value `v`: an item with a key that only `f`
takes; no items, if the field is right when it is left out; or items that its own parser finds among others. -/
inductive FieldWrites (d : Fields V) (allowed : List Str) (pre : Str) (f : Field V) (i : Nat) (v : V) :
    (Str → Prop) → List Piece → Prop
  | item {p : Piece} {b : V} : p.Fine → Owns d.fields pre p.key f i → WritesItem f.item b p.vt →
      runTransforms f.transforms b = .ok v → FieldWrites d allowed pre f i v (fun k => Owns d.fields pre k f i) [p]
  | leftOut : f.flatParsable = false → WhenLeftOut d f i v →
      FieldWrites d allowed pre f i v (fun k => Owns d.fields pre k f i) []
  | flat {K ps b} : f.flatParsable = true → (∀ span, WritesAmong (f.flatCall pre span allowed) K b ps) →
      runTransforms f.transforms b = .ok v → FieldWrites d allowed pre f i v K ps

omit [Env] in
theorem FieldWrites.fine {d : Fields V} {allowed pre f i v K ps} (h : FieldWrites d allowed pre f i v K ps) :
    ∀ q ∈ ps, q.Fine ∧ K q.key := by
  cases h with
  | item h1 h2 => intro q hq; rw [List.mem_singleton] at hq; subst hq; exact ⟨h1, h2⟩
  | leftOut => intro q hq; cases hq
  | flat _ h => intro q hq; exact ⟨(h 0).fine q hq, (h 0).mine q hq⟩

omit [Env] in
theorem owns_plain {fields : List (Field V)} {pre key : Str} {f : Field V} {i : Nat} (h : Owns fields pre key f i) :
    f.Plain := by
  obtain ⟨_, _, _, h, _⟩ := h
  exact h

omit [Env] in
theorem owns_get {fields : List (Field V)} {pre key : Str} {f : Field V} {i : Nat} (h : Owns fields pre key f i) :
    fields[i]? = some f := by
  obtain ⟨_, _, h, _⟩ := h
  exact h

omit [Env] in
theorem plain_not_flat {f : Field V} (h : f.Plain) : f.flatParsable = false := by simp [Field.flatParsable, h.1]

omit [Env] in
/-- A field that owns a key has it among its keys. -/
theorem FieldWrites.owned {d : Fields V} {allowed pre f i v K ps} (h : FieldWrites d allowed pre f i v K ps) {key : Str}
    (ho : Owns d.fields pre key f i) : K key ∧ ∀ q ∈ ps, ∃ b, WritesItem f.item b q.vt ∧ runTransforms f.transforms b = .ok v := by
  cases h with
  | item h1 h2 h3 h4 =>
    refine ⟨ho, fun q hq => ?_⟩
    rw [List.mem_singleton] at hq
    subst hq
    exact ⟨_, h3, h4⟩
  | leftOut => exact ⟨ho, fun q hq => by cases hq⟩
  | flat h => rw [plain_not_flat (owns_plain ho)] at h; cases h

omit [Env] in
theorem owners_le {bs : List (SItem V)} {l : List (SItem V × Piece)} (hl : l.map (·.1) = bs)
    (K : Nat → Str → Prop) (ho : ∀ x ∈ l, ∀ i n sp v, x.1 = .field i n sp v → K i x.2.key)
    (h1 : ∀ i, (piecesOf (K i) (l.map (·.2))).length ≤ 1 ∨ i ∉ owners bs) : (owners bs).Nodup := by
  induction l generalizing bs with
  | nil => subst hl; exact List.nodup_nil
  | cons x l ih =>
    obtain ⟨b, q⟩ := x
    subst hl
    have hmem : ∀ (l : List (SItem V × Piece)) i, i ∈ owners (l.map (·.1)) → ∃ x ∈ l, ∃ n sp v, x.1 = .field i n sp v := by
      intro l i hi
      induction l with
      | nil => cases hi
      | cons y l ihl =>
        obtain ⟨c, p⟩ := y
        cases c with
        | other key sp =>
          obtain ⟨x, hx, h⟩ := ihl hi
          exact ⟨x, List.mem_cons_of_mem _ hx, h⟩
        | field j n sp w =>
          rcases List.mem_cons.1 hi with rfl | hi
          · exact ⟨_, List.mem_cons_self, n, sp, w, rfl⟩
          · obtain ⟨x, hx, h⟩ := ihl hi
            exact ⟨x, List.mem_cons_of_mem _ hx, h⟩
    have rest : (owners (l.map (·.1))).Nodup := by
      refine ih rfl (fun x hx => ho x (List.mem_cons_of_mem _ hx)) fun i => ?_
      rcases h1 i with h | h
      · left
        refine Nat.le_trans ?_ h
        by_cases hk : K i q.key
        · rw [List.map_cons, piecesOf_cons_mine hk]; simp
        · rw [List.map_cons, piecesOf_cons_other hk]; exact Nat.le_refl _
      · right
        intro hi
        apply h
        cases b with
        | other => exact hi
        | field => exact List.mem_cons_of_mem _ hi
    cases b with
    | other key sp => exact rest
    | field j n sp w =>
      refine List.nodup_cons.2 ⟨fun hj => ?_, rest⟩
      rcases h1 j with h | h
      · have hkj : K j q.key := ho _ List.mem_cons_self j n sp w rfl
        obtain ⟨x, hx, n', sp', w', he⟩ := hmem l j hj
        have : x.2 ∈ piecesOf (K j) (l.map (·.2)) :=
          mem_piecesOf.2 ⟨List.mem_map_of_mem hx, ho x (List.mem_cons_of_mem _ hx) j n' sp' w' he⟩
        rw [List.map_cons, piecesOf_cons_mine hkj] at h
        have := List.length_pos_of_mem this
        simp only [List.length_cons] at h
        omega
      · exact h (by simp [owners])

omit [Env] in
theorem given_of_mem {i : Nat} {bs : List (SItem V)} (P : Except SynErr V → Prop)
    (hP : ∀ n sp x, .field i n sp x ∈ bs → P x) {n sp x} (h : .field i n sp x ∈ bs) : ∃ y, given i bs = some y ∧ P y := by
  induction bs with
  | nil => cases h
  | cons b bs ih =>
    cases b with
    | other k sp' =>
      refine ih (fun n sp x hx => hP n sp x (List.mem_cons_of_mem _ hx)) ?_
      rcases List.mem_cons.1 h with h | h
      · cases h
      · exact h
    | field j m sp' y =>
      by_cases hj : j = i
      · subst hj
        exact ⟨y, by simp [given], hP _ _ _ List.mem_cons_self⟩
      · simp only [given, if_neg hj]
        refine ih (fun n sp x hx => hP n sp x (List.mem_cons_of_mem _ hx)) ?_
        rcases List.mem_cons.1 h with h | h
        · cases h; exact absurd rfl hj
        · exact h

/-- The fields of a structure are written by items `ps i` with keys in `K i`, and no key belongs to two of them. -/
structure FieldsWrite (d : Fields V) (allowed : List Str) (pre : Str) (vs : List V) (K : Nat → Str → Prop)
    (ps : Nat → List Piece) : Prop where
  length : vs.length = d.fields.length
  field : ∀ (i : Nat) f v, d.fields[i]? = some f → vs[i]? = some v → FieldWrites d allowed pre f i v (K i) (ps i)
  apart : ∀ i j k, i < d.fields.length → j < d.fields.length → i ≠ j → K i k → ¬ K j k

omit [Env] in
theorem FieldsWrite.mine {d : Fields V} {allowed pre vs K ps} (h : FieldsWrite d allowed pre vs K ps) :
    ∀ i, i < d.fields.length → ∀ q ∈ ps i, q.Fine ∧ K i q.key := by
  intro i hi
  have hv : i < vs.length := by rw [h.length]; exact hi
  exact (h.field i _ _ (List.getElem?_eq_getElem hi) (List.getElem?_eq_getElem hv)).fine

/-- The items of all fields are read as the values of the fields, whatever other items there are. -/
theorem namedFlat_among {d : Fields V} (ha : Accepted d) (ht : d.transparent = false) (hg : FieldsGood d.fields)
    {allowed : List Str} (mode : Mode) {pre : Str} (validate : Bool) {vs : List V} {K : Nat → Str → Prop} {ps : Nat → List Piece}
    (h : FieldsWrite d allowed pre vs K ps) (qs : List Piece) (hq : ∀ q ∈ qs, q.Fine)
    (hp : piecesOf (fun k => ∃ i, i < d.fields.length ∧ K i k) qs = (List.range d.fields.length).flatMap ps)
    (hk : (!d.allowUnknown && validate) = true → ∀ q ∈ qs, (∀ f i, ¬ Owns d.fields pre q.key f i) → q.key ∈ allowed)
    (sc : Span) (u : Option Span) : (namedFlat d allowed mode pre validate [⟨pieceToks qs, sc, u⟩]).1 = .ok vs := by
  have hget : ∀ {i : Nat} {f : Field V}, d.fields[i]? = some f → ∃ v, vs[i]? = some v := by
    intro i f hf
    have := (List.getElem?_eq_some_iff.1 hf).1
    exact ⟨_, List.getElem?_eq_getElem (by rw [h.length]; exact this)⟩
  have hlt : ∀ {i : Nat} {f : Field V}, d.fields[i]? = some f → i < d.fields.length :=
    fun hf => (List.getElem?_eq_some_iff.1 hf).1
  have hown : ∀ {i : Nat}, i < d.fields.length → piecesOf (K i) qs = ps i := by
    intro i hi
    rw [← piecesOf_sub (K := K i) (L := fun k => ∃ i, i < d.fields.length ∧ K i k) (fun k hk => ⟨i, hi, hk⟩), hp]
    exact piecesOf_flatMap (fun i hi q hq => (h.mine i hi q hq).2) h.apart hi
  let R : Piece → SItem V → Prop := fun q b =>
    (∃ f i x, Owns d.fields pre q.key f i ∧ WritesItem f.item x q.vt ∧
      (∀ v, vs[i]? = some v → runTransforms f.transforms x = .ok v) ∧
      b = .field i (f.idents.headD []) (pathSpan q.pt) (.ok x)) ∨
    ((∀ f i, ¬ Owns d.fields pre q.key f i) ∧ b = .other q.key (pathSpan q.pt))
  obtain ⟨l, hl1, hl2, hl3⟩ := pieces_items (seg := StructSeg d.fields pre) (sc := sc) R qs (by
      intro q hqm
      by_cases ho : ∃ f i, Owns d.fields pre q.key f i
      · obtain ⟨f, i, ho⟩ := ho
        have hf := owns_get ho
        obtain ⟨v, hv⟩ := hget hf
        obtain ⟨h1, h2⟩ := (h.field i f v hf hv).owned ho
        have hm : q ∈ ps i := by rw [← hown (hlt hf)]; exact mem_piecesOf.2 ⟨hqm, h1⟩
        obtain ⟨b, h3, h4⟩ := h2 q hm
        exact ⟨_, .inl ⟨f, i, b, ho, h3, fun v' hv' => by rw [hv] at hv'; cases hv'; exact h4, rfl⟩⟩
      · exact ⟨_, .inr ⟨fun f i ho' => ho ⟨f, i, ho'⟩, rfl⟩⟩) (by
      intro q b hqm hR rest hr
      rcases hR with ⟨f, i, x, h1, h2, _, rfl⟩ | ⟨h1, rfl⟩
      · exact .field (hq q hqm).keyToks h1 (h2.reads _ _ _ _ hr)
      · exact .other (hq q hqm).keyToks h1 (hq q hqm).noComma)
  have hfield : ∀ x ∈ l, ∀ i n sp v, x.1 = .field i n sp v → ∃ f, d.fields[i]? = some f ∧ Owns d.fields pre x.2.key f i ∧
      ∃ y, v = .ok y ∧ ∀ w, vs[i]? = some w → runTransforms f.transforms y = .ok w := by
    intro x hx i n sp v he
    rcases hl2 x hx with ⟨f, i', y, h1, _, h3, h4⟩ | ⟨_, h4⟩
    · rw [h4] at he
      cases he
      exact ⟨f, owns_get h1, h1, y, rfl, h3⟩
    · rw [h4] at he; cases he
  have hKof : ∀ x ∈ l, ∀ i n sp v, x.1 = .field i n sp v → K i x.2.key := by
    intro x hx i n sp v he
    obtain ⟨f, hf, ho, _⟩ := hfield x hx i n sp v he
    obtain ⟨v, hv⟩ := hget hf
    exact ((h.field i f v hf hv).owned ho).1
  refine (c31_struct d ha ht hg allowed mode pre validate (items_all (u := u) hl3) vs).2 ⟨⟨?_, ?_, ?_⟩, h.length, ?_⟩
  · refine owners_le rfl K hKof fun i => ?_
    by_cases hi : i ∈ owners (l.map (·.1))
    · left
      obtain ⟨n, sp, x, hx⟩ := mem_owners.1 hi
      obtain ⟨y, hy, he⟩ := List.mem_map.1 hx
      obtain ⟨f, hf, ho, _⟩ := hfield y hy i n sp x he
      obtain ⟨v, hv⟩ := hget hf
      rw [hl1, hown (hlt hf)]
      have := h.field i f v hf hv
      generalize K i = K' at this
      generalize ps i = ps' at this
      cases this with
      | item => simp
      | leftOut => simp
      | flat hfl => rw [plain_not_flat (owns_plain ho)] at hfl; cases hfl
    · exact .inr hi
  · intro i n sp x hx
    obtain ⟨y, hy, he⟩ := List.mem_map.1 hx
    obtain ⟨_, _, _, z, hz, _⟩ := hfield y hy i n sp x he
    exact ⟨z, hz⟩
  · intro key sp hx hv
    obtain ⟨y, hy, he⟩ := List.mem_map.1 hx
    rcases hl2 y hy with ⟨f, i', z, h1, _, h3, h4⟩ | ⟨h3, h4⟩
    · rw [h4] at he; cases he
    · rw [h4] at he
      cases he
      exact hk hv _ (hl1 ▸ List.mem_map_of_mem hy) h3
  · intro i f hf
    obtain ⟨v, hv⟩ := hget hf
    refine ⟨v, hv, ?_⟩
    have hKi := hown (hlt hf)
    have hw := h.field i f v hf hv
    generalize hK' : K i = K' at hw hKi
    generalize hps : ps i = ps' at hw hKi
    cases hw with
    | @item p b h1 h2 h3 h4 =>
      have hm : p ∈ qs := (mem_piecesOf.1 (hKi ▸ List.mem_singleton.2 rfl : p ∈ piecesOf _ qs)).1
      rw [← hl1] at hm
      obtain ⟨x, hx, rfl⟩ := List.mem_map.1 hm
      rcases hl2 x hx with ⟨f', i', y, g1, _, g3, g4⟩ | ⟨g3, _⟩
      · have hi : i' = i := by
          have e1 := hKof x hx i' _ _ _ g4
          have e2 : K i x.2.key := by rw [hK']; exact h2
          by_cases hne : i' = i
          · exact hne
          · exact absurd e2 (h.apart i' i _ (hlt (owns_get g1)) (hlt hf) hne e1)
        subst hi
        obtain ⟨y', e1, e2⟩ := given_of_mem (i := i') (bs := l.map (·.1))
          (fun x => ∃ y, x = .ok y ∧ runTransforms f.transforms y = .ok v) (by
            intro n sp x hx
            obtain ⟨z, hz, he⟩ := List.mem_map.1 hx
            obtain ⟨f2, hf2, _, y, hy1, hy2⟩ := hfield z hz i' n sp x he
            rw [hf] at hf2
            cases hf2
            exact ⟨y, hy1, hy2 v hv⟩) (List.mem_map.2 ⟨x, hx, g4⟩)
        obtain ⟨y2, rfl, e3⟩ := e2
        exact .inl ⟨y2, .item (owns_plain h2) e1, e3⟩
      · exact absurd h2 (g3 f i)
    | leftOut h1 h2 =>
      have : given i (l.map (·.1)) = none := by
        refine given_none fun hi => ?_
        obtain ⟨n, sp, x, hx⟩ := mem_owners.1 hi
        obtain ⟨y, hy, he⟩ := List.mem_map.1 hx
        have := hKof y hy i n sp x he
        rw [hK'] at this
        have : y.2 ∈ piecesOf (fun k => Owns d.fields pre k f i) qs :=
          mem_piecesOf.2 ⟨hl1 ▸ List.mem_map_of_mem hy, this⟩
        rw [hKi] at this
        cases this
      show Ends d f (given i (l.map (·.1))) _ _ i v
      rw [this]
      exact (h2 _ _).noFlat h1
    | @flat K' ps' b h1 h2 h3 =>
      refine .inl ⟨b, .flat h1 ?_, h3⟩
      simp only [flatOut]
      split
      · exact (h2 _).reads qs hq hKi _ _
      · exact (h2 _).reads qs hq hKi _ _

/-! ## Structures -/

/-- The values with the property can be written by items with a key in `K`, which the parser finds among others. -/
def CanWriteAmong {β : Type} (p : Span → M (List Stream) β) (K : Str → Prop) (P : β → Prop) : Prop :=
  ∀ b, P b → ∃ ps, ∀ span, WritesAmong (p span) K b ps

/-- `GivenByItem` with a prefix before the names. -/
def GivenUnder (fields : List (Field V)) (pre : Str) (D : Domain V) (f : Field V) (i : Nat) (v : V) : Prop :=
  (∃ lead segs pt, PathToks lead segs pt ∧ Owns fields pre (keyString segs) f i) ∧
    ∃ b, D.item b ∧ runTransforms f.transforms b = .ok v

/-- The flat fields can be given the values `P i` by items with keys in `K i`, and no key belongs to two fields. -/
structure FlatCan (fields : List (Field V)) (allowed : List Str) (pre : Str) (K : Nat → Str → Prop) (P : Nat → V → Prop) :
    Prop where
  can : ∀ (i : Nat) f, fields[i]? = some f → f.flatParsable = true →
    CanWriteAmong (fun span => f.flatCall pre span allowed) (K i) (P i)
  apart : ∀ (i j : Nat) f g k, fields[i]? = some f → fields[j]? = some g → f.flatParsable = true → g.flatParsable = true →
    i ≠ j → K i k → ¬ K j k
  plain : ∀ (i j : Nat) f g k, fields[i]? = some f → f.flatParsable = true → K i k → ¬ Owns fields pre k g j

/-- The values of the fields can be written: each field can be given by items or is right when it is left out. -/
def FieldsWritable (d : Fields V) (pre : Str) (D : Nat → Domain V) (P : Nat → V → Prop) (ws : List V) : Prop :=
  ws.length = d.fields.length ∧
    ∀ (i : Nat) f w, d.fields[i]? = some f → ws[i]? = some w →
      if f.flatParsable = true then ∃ b, P i b ∧ runTransforms f.transforms b = .ok w
      else GivenUnder d.fields pre (D i) f i w ∨ WhenLeftOut d f i w

/-- The values of a structure with named fields that can be written: those that the functions on the structure make of
fields which can be written. -/
def StructDef.WritableFlat (d : StructDef V) (pre : Str) (D : Nat → Domain V) (P : Nat → V → Prop) (vs : List V) : Prop :=
  ∃ ws, d.andThens.foldlM (fun v f => f v) ws = .ok vs ∧ FieldsWritable d.data pre D P ws

/-- The keys of a structure: those of its fields. -/
def FieldClaims (fields : List (Field V)) (pre : Str) (K : Nat → Str → Prop) (i : Nat) (k : Str) : Prop :=
  ∃ f, fields[i]? = some f ∧ if f.flatParsable = true then K i k else Owns fields pre k f i

omit [Env] in
theorem fieldsWritable_writes {d : Fields V} {D : Nat → Domain V} {P : Nat → V → Prop} {K : Nat → Str → Prop} {pre : Str}
    {allowed : List Str} (hc : ∀ (i : Nat) f, d.fields[i]? = some f → f.flatParsable = false → CanWrite f.item (D i))
    (hF : FlatCan d.fields allowed pre K P) {ws : List V} (h : FieldsWritable d pre D P ws) :
    ∃ ps, FieldsWrite d allowed pre ws (FieldClaims d.fields pre K) ps ∧
      ∀ (i : Nat) f w, d.fields[i]? = some f → ws[i]? = some w → f.flatParsable = false →
        GivenUnder d.fields pre (D i) f i w → ps i ≠ [] := by
  obtain ⟨h2, h3⟩ := h
  have key : ∀ i, ∃ ps : List Piece, ∀ f v, d.fields[i]? = some f → ws[i]? = some v →
      FieldWrites d allowed pre f i v (FieldClaims d.fields pre K i) ps ∧
        (f.flatParsable = false → GivenUnder d.fields pre (D i) f i v → ps ≠ []) := by
    intro i
    by_cases hi : i < d.fields.length
    · have hf := List.getElem?_eq_getElem hi
      have hw := List.getElem?_eq_getElem (l := ws) (i := i) (by omega)
      generalize d.fields[i] = f at hf
      generalize ws[i]'(by omega) = w at hw
      have h4 := h3 i f w hf hw
      by_cases hfl : f.flatParsable = true
      · rw [if_pos hfl] at h4
        obtain ⟨b, hb, hr⟩ := h4
        obtain ⟨ps, hps⟩ := hF.can i f hf hfl b hb
        refine ⟨ps, fun f' v' hf' hv' => ?_⟩
        rw [hf] at hf'; cases hf'
        rw [hw] at hv'; cases hv'
        have e : FieldClaims d.fields pre K i = K i := by
          funext k
          refine propext ⟨?_, fun hk => ⟨f, hf, by rw [if_pos hfl]; exact hk⟩⟩
          rintro ⟨f', hf', hk⟩
          rw [hf] at hf'; cases hf'
          rw [if_pos hfl] at hk
          exact hk
        rw [e]
        exact ⟨.flat hfl hps hr, fun h => by rw [hfl] at h; cases h⟩
      · rw [if_neg hfl] at h4
        have hfl : f.flatParsable = false := by simpa using hfl
        have e : FieldClaims d.fields pre K i = fun k => Owns d.fields pre k f i := by
          funext k
          refine propext ⟨?_, fun hk => ⟨f, hf, by rw [hfl]; exact hk⟩⟩
          rintro ⟨f', hf', hk⟩
          rw [hf] at hf'; cases hf'
          rw [hfl] at hk
          exact hk
        rw [e]
        by_cases hgu : GivenUnder d.fields pre (D i) f i w
        · obtain ⟨⟨lead, segs, pt, hpt, ho⟩, b, hb, hr⟩ := hgu
          obtain ⟨vt, hvt⟩ := (hc i f hf hfl).item b hb
          refine ⟨[⟨segs, pt, vt⟩], fun f' v' hf' hv' => ?_⟩
          rw [hf] at hf'; cases hf'
          rw [hw] at hv'; cases hv'
          exact ⟨.item ⟨⟨lead, hpt⟩, hvt.start, hvt.noComma⟩ ho hvt hr, fun _ _ => by simp⟩
        · refine ⟨[], fun f' v' hf' hv' => ?_⟩
          rw [hf] at hf'; cases hf'
          rw [hw] at hv'; cases hv'
          exact ⟨.leftOut hfl (h4.resolve_left hgu), fun _ h => absurd h hgu⟩
    · exact ⟨[], fun f v hf => absurd (List.getElem?_eq_some_iff.1 hf).1 hi⟩
  refine ⟨fun i => Classical.choose (key i), ⟨h2, fun i f v hf hv => (Classical.choose_spec (key i) f v hf hv).1, ?_⟩,
    fun i f w hf hw => (Classical.choose_spec (key i) f w hf hw).2⟩
  rintro i j k _ _ hne ⟨f, hf, hk⟩ ⟨g, hg, hk'⟩
  by_cases hfl : f.flatParsable = true
  · rw [if_pos hfl] at hk
    by_cases hgl : g.flatParsable = true
    · rw [if_pos hgl] at hk'
      exact hF.apart i j f g k hf hg hfl hgl hne hk hk'
    · rw [if_neg hgl] at hk'
      exact hF.plain i j f g k hf hfl hk hk'
  · rw [if_neg hfl] at hk
    by_cases hgl : g.flatParsable = true
    · rw [if_pos hgl] at hk'
      exact hF.plain j i g f k hg hgl hk' hk
    · rw [if_neg hgl] at hk'
      obtain ⟨a, ha1, ha2, ha3, ha4, ha5⟩ := hk
      obtain ⟨b, hb1, hb2, hb3, hb4, hb5⟩ := hk'
      have : a = b := by rw [ha1] at hb1; exact List.append_cancel_left hb1
      subst this
      rcases Nat.lt_trichotomy i j with hlt | rfl | hlt
      · exact hb5 i f hlt ha2 ha3 ha4
      · exact hne rfl
      · exact ha5 j g hlt hb2 hb3 hb4

omit [Env] in
theorem writableFlat_writes {d : StructDef V} {D : Nat → Domain V} {P : Nat → V → Prop} {K : Nat → Str → Prop} {pre : Str}
    {allowed : List Str} (hc : ∀ (i : Nat) f, d.fields[i]? = some f → f.flatParsable = false → CanWrite f.item (D i))
    (hF : FlatCan d.fields allowed pre K P) {vs : List V} (h : d.WritableFlat pre D P vs) :
    ∃ ws ps, d.andThens.foldlM (fun v f => f v) ws = .ok vs ∧
      FieldsWrite d.data allowed pre ws (FieldClaims d.fields pre K) ps := by
  obtain ⟨ws, h1, h2⟩ := h
  obtain ⟨ps, h3, _⟩ := fieldsWritable_writes (d := d.data) hc hF h2
  exact ⟨ws, ps, h1, h3⟩

/-- C111 for a structure that is flattened into another, with or without a prefix, and may itself have flattened, append
and rest fields: its values can be written by items among those of the other structure. -/
theorem c111_among {d : StructDef V} {D : Nat → Domain V} {P : Nat → V → Prop} {K : Nat → Str → Prop} {pre : Str}
    (hs : d.shape = .named) (ht : d.isTransparent = false) (ha : d.Accepted) (hg : d.FieldsFine)
    (hc : ∀ (i : Nat) f, d.fields[i]? = some f → f.flatParsable = false → CanWrite f.item (D i))
    (hF : FlatCan d.fields (Field.fieldNames d.fields) pre K P) :
    CanWriteAmong (fun span => d.flatNamed.parse (.named span) pre false)
      (fun k => ∃ i, i < d.fields.length ∧ FieldClaims d.fields pre K i k) (d.WritableFlat pre D P) := by
  intro vs hvs
  obtain ⟨ws, ps, h1, h2⟩ := writableFlat_writes hc hF hvs
  refine ⟨(List.range d.fields.length).flatMap ps, fun span => ⟨?_, ?_, ?_⟩⟩
  · intro q hq
    obtain ⟨i, hi, hq⟩ := List.mem_flatMap.1 hq
    exact (h2.mine i (List.mem_range.1 hi) q hq).1
  · intro q hq
    obtain ⟨i, hi, hq⟩ := List.mem_flatMap.1 hq
    exact ⟨i, List.mem_range.1 hi, (h2.mine i (List.mem_range.1 hi) q hq).2⟩
  · intro qs hq hp sc u
    have := namedFlat_among ha.fields ht (hg.good hs) (.named span) false h2 qs hq hp (by simp) sc u
    simp only [StructDef.flatNamed, M.mapRes, this, runAndThens, h1]

/-- C111 for structures with named fields, flattened, append and rest fields among them. -/
theorem c111_flat_struct {d : StructDef V} {D : Nat → Domain V} {P : Nat → V → Prop} {K : Nat → Str → Prop}
    (hs : d.shape = .named) (ht : d.isTransparent = false) (ha : d.Accepted) (hg : d.FieldsFine) (he : FlatEnds d.fields)
    (hc : ∀ (i : Nat) f, d.fields[i]? = some f → f.flatParsable = false → CanWrite f.item (D i))
    (hF : FlatCan d.fields (Field.fieldNames d.fields) [] K P)
    (hk : d.acceptsAll = true ∨ ∀ (i : Nat) f k, d.fields[i]? = some f → f.flatParsable = true → K i k →
      k ∈ Field.fieldNames d.fields) : CanWrite d.dict (.same (d.WritableFlat [] D P)) := by
  refine canWrite_inline (dl := .brace) d.dict_default (d.dict_good ha hg) (fun m s => ⟨m, ?_⟩) fun vs hvs => ?_
  · have : d.dict.inline = fun m => d.flatNamed.parse m [] (!d.acceptsAll) := funext (d.inline_named hs ht)
    rw [this]
    unfold StructDef.dict
    rw [ht, hs]; rfl
  · obtain ⟨ws, ps, h1, h2⟩ := writableFlat_writes hc hF hvs
    refine ⟨pieceToks ((List.range d.fields.length).flatMap ps), fun m sc u => ?_⟩
    have hmem : ∀ q ∈ (List.range d.fields.length).flatMap ps, q.Fine ∧ ∃ i, i < d.fields.length ∧
        FieldClaims d.fields [] K i q.key := by
      intro q hq
      obtain ⟨i, hi, hq⟩ := List.mem_flatMap.1 hq
      exact ⟨(h2.mine i (List.mem_range.1 hi) q hq).1, i, List.mem_range.1 hi, (h2.mine i (List.mem_range.1 hi) q hq).2⟩
    have h9 := namedFlat_among ha.fields ht (hg.good hs) m (!d.acceptsAll) h2 _ (fun q hq => (hmem q hq).1)
      (piecesOf_all fun q hq => (hmem q hq).2) (by
        intro hv q hq hno
        rcases hk with hk | hk
        · simp [hk] at hv
        · obtain ⟨_, i, _, f, hf, hc⟩ := hmem q hq
          by_cases hfl : f.flatParsable = true
          · rw [if_pos hfl] at hc
            exact hk i f _ hf hfl hc
          · rw [if_neg hfl] at hc
            exact absurd hc (hno f i)) sc u
    rw [d.inline_named hs ht]
    refine ⟨(namedFlat d.data (Field.fieldNames d.fields) m [] (!d.acceptsAll) [⟨pieceToks ((List.range d.fields.length).flatMap ps), sc, u⟩]).2, ?_,
      fun s hs' => .inl ?_⟩
    · simp only [StructDef.flatNamed, M.mapRes, h9, runAndThens, h1]
    · exact namedFlat_left d.data (hg.good hs) he _ _ _ _ (Prod.ext h9 rfl) s hs'

/-! ## Flat fields -/

/-- The prefix that a flattened structure gets in a structure with the prefix `pre`. -/
def flattenPrefix (pre : Str) : Option Str → Str
  | some p => joinPrefix pre p
  | none => []

omit [Env] in
/-- A flattened structure: what can be written for the structure under the prefix. -/
theorem c111_flatten {α : Type} {f : Field V} {p : Option Str} (hf : f.Flattens p) {q : Mode → Str → Bool → M (List Stream) α}
    {g : α → V} (hp : ∀ m pre c l, (f.flatNamed.parse m pre c l).1 = (q m pre c l).1.map g) {pre : Str} {allowed : List Str}
    {K : Str → Prop} {P : α → Prop}
    (h : CanWriteAmong (fun span => q (.named span) (flattenPrefix pre p) false) K P) :
    CanWriteAmong (fun span => f.flatCall pre span allowed) K fun b => ∃ a, P a ∧ g a = b := by
  rintro _ ⟨a, ha, rfl⟩
  obtain ⟨ps, hps⟩ := h a ha
  refine ⟨ps, fun span => ⟨(hps span).fine, (hps span).mine, fun qs hq hpq sc u => ?_⟩⟩
  have := (hps span).reads qs hq hpq sc u
  cases p <;> simp only [Field.flatCall, hf.append, hf.rest, hf.flatten, Option.bind, Bool.false_eq_true, if_false, hp] <;>
    exact congrArg (Res.map g) this

/-- The values of the items with the names of an append field. -/
theorem append_items {α : Type} {vd : Dict α} {D : Domain α} (h : CanWrite vd D) {names : List Str} {lead : Bool}
    {segs : List Str} {pt : List Tok} (hpt : PathToks lead segs pt) (hk : keyString segs ∈ names) (vals : List α)
    (hv : ∀ a ∈ vals, D.item a) : ∃ ps : List Piece, (∀ q ∈ ps, q.Fine) ∧ (∀ q ∈ ps, q.key ∈ names) ∧
      ∀ qs, (∀ q ∈ qs, q.Fine) → piecesOf (· ∈ names) qs = ps → ∀ sc u, ∃ rs,
        ItemsAll (NamedSeg names vd.named) [⟨pieceToks qs, sc, u⟩] rs ∧ (rs.filterMap id).map (·.1) = vals.map .ok := by
  obtain ⟨l, h1, h2⟩ := choose_list (R := fun (a : α) (vt : List Tok) => WritesItem vd a vt) vals fun a ha => h.item a (hv a ha)
  refine ⟨l.map fun x => ⟨segs, pt, x.1⟩, ?_, ?_, ?_⟩
  · intro q hq
    obtain ⟨x, hx, rfl⟩ := List.mem_map.1 hq
    exact ⟨⟨lead, hpt⟩, (h2 x hx).start, (h2 x hx).noComma⟩
  · intro q hq
    obtain ⟨x, hx, rfl⟩ := List.mem_map.1 hq
    exact hk
  · intro qs hq hp sc u
    have key : ∀ (qs : List Piece) (l : List (List Tok × α)), (∀ q ∈ qs, q.Fine) →
        piecesOf (· ∈ names) qs = l.map (fun x => ⟨segs, pt, x.1⟩) → (∀ x ∈ l, WritesItem vd x.2 x.1) →
        ∃ rs, Items (NamedSeg names vd.named) sc (pieceToks qs) rs ∧
          (rs.filterMap id).map (·.1) = (l.map (·.2)).map .ok := by
      intro qs
      induction qs with
      | nil =>
        intro l _ hl _
        cases l with
        | nil => exact ⟨[], .nil, rfl⟩
        | cons x l => simp [piecesOf] at hl
      | cons q qs ih =>
        intro l hq hl hw
        have e : pieceToks (q :: qs) = q.toks ++ comma :: pieceToks qs := by simp [pieceToks, withCommas]
        have hb : Boundary (comma :: pieceToks qs) := .inr ⟨comma, _, rfl, comma_comma⟩
        by_cases hm : q.key ∈ names
        · rw [piecesOf_cons_mine hm] at hl
          cases l with
          | nil => cases hl
          | cons x l =>
            simp only [List.map_cons, List.cons.injEq] at hl
            obtain ⟨rfl, hl⟩ := hl
            obtain ⟨rs, g1, g2⟩ := ih l (fun q hq' => hq q (List.mem_cons_of_mem _ hq')) hl
              (fun x hx => hw x (List.mem_cons_of_mem _ hx))
            rw [e]
            refine ⟨_, .cons comma_comma (.mine (hq _ List.mem_cons_self).keyToks hm
              ((hw x List.mem_cons_self).reads _ _ _ _ hb)) g1, ?_⟩
            simp only [List.filterMap_cons, id, List.map_cons, g2]
        · rw [piecesOf_cons_other hm] at hl
          obtain ⟨rs, g1, g2⟩ := ih l (fun q hq' => hq q (List.mem_cons_of_mem _ hq')) hl hw
          rw [e]
          refine ⟨_, .cons comma_comma (.other (hq _ List.mem_cons_self).keyToks hm (hq _ List.mem_cons_self).noComma) g1, ?_⟩
          simp only [List.filterMap_cons, id, g2]
    obtain ⟨rs, g1, g2⟩ := key qs l hq hp fun x hx => h2 x hx
    rw [h1] at g2
    exact ⟨rs, items_all g1, g2⟩

/-- An append field with a list: all lists of writable values. -/
theorem c111_append {α : Type} {f : Field V} (hf : f.append = some true) {vd : Dict α} {g : List α → V}
    (hp : ∀ names l, (f.appendP names l).1 = (seqAppend vd names l).1.map g) (hv : vd.Good) {D : Domain α} (h : CanWrite vd D)
    {pre : Str} (hpre : IsPrefix pre) {lead : Bool} {segs : List Str} {pt : List Tok} (hpt : PathToks lead segs pt)
    (hk : keyString segs ∈ f.keys pre) (allowed : List Str) :
    CanWriteAmong (fun span => f.flatCall pre span allowed) (· ∈ f.keys pre)
      fun b => ∃ vals, (∀ a ∈ vals, D.item a) ∧ g vals = b := by
  rintro _ ⟨vals, hvals, rfl⟩
  obtain ⟨ps, h1, h2, h3⟩ := append_items h hpt hk vals hvals
  refine ⟨ps, fun span => ⟨h1, h2, fun qs hq hpq sc u => ?_⟩⟩
  obtain ⟨rs, h4, h5⟩ := h3 qs hq hpq sc u
  obtain ⟨r, l', h6, -, h7, -⟩ := c26_append_sequence vd hv.named (f.keys pre) _ rs h4
  rw [h5, okVals_ok] at h7
  simp only [Field.flatCall, hf, Option.getD_some, if_true, hp, joinPaths_keys hpre, h6, h7 ((errMsgs_eq_nil _).2 (by simp))]
  rfl

/-- An append field with a set: all sets of writable values. -/
theorem c111_append_set {α : Type} [DecidableEq α] {f : Field V} (hf : f.append = some true) {vd : Dict α} {g : List α → V}
    (hp : ∀ names l, (f.appendP names l).1 = (setAppend vd names l).1.map g) (hv : vd.Good) {D : Domain α} (h : CanWrite vd D)
    {pre : Str} (hpre : IsPrefix pre) {lead : Bool} {segs : List Str} {pt : List Tok} (hpt : PathToks lead segs pt)
    (hk : keyString segs ∈ f.keys pre) (allowed : List Str) :
    CanWriteAmong (fun span => f.flatCall pre span allowed) (· ∈ f.keys pre)
      fun b => ∃ vals, vals.Nodup ∧ (∀ a ∈ vals, D.item a) ∧ g vals = b := by
  rintro _ ⟨vals, hn, hvals, rfl⟩
  obtain ⟨ps, h1, h2, h3⟩ := append_items h hpt hk vals hvals
  refine ⟨ps, fun span => ⟨h1, h2, fun qs hq hpq sc u => ?_⟩⟩
  obtain ⟨rs, h4, h5⟩ := h3 qs hq hpq sc u
  obtain ⟨r, l', h6, -, h7, -⟩ := c26_append_set vd hv.named (f.keys pre) _ rs h4
  have hno : setMsgs [] (rs.filterMap id) = [] := by
    refine (setMsgs_eq_nil _ _).2 ⟨fun x hx => ?_, by rw [h5, okVals_ok]; exact hn, by simp⟩
    have : x.1 ∈ vals.map Except.ok := by rw [← h5]; exact List.mem_map_of_mem hx
    obtain ⟨a, _, ha⟩ := List.mem_map.1 this
    exact ⟨a, ha.symm⟩
  rw [h5, okVals_ok] at h7
  simp only [Field.flatCall, hf, Option.getD_some, if_true, hp, joinPaths_keys hpre, h6, h7 hno]
  rfl

/-- The type of keys of a rest map reads every path, and its string is that of the path. -/
def ReadsPaths {κ : Type} (kd : Dict κ) (keyStr : κ → Str) : Prop :=
  ∀ lead segs pt, PathToks lead segs pt → ∃ k, keyStr k = keyString segs ∧
    ∀ rest sc, ¬ StartsColon2 rest → ReadsTo (kd.parse .unnamed) pt rest sc k

/-- The key can be written as a path that is not one of the names. -/
def WritesPath {κ : Type} (kd : Dict κ) (keyStr : κ → Str) (names : List Str) (k : κ) : Prop :=
  ∃ lead segs pt, PathToks lead segs pt ∧ keyStr k = keyString segs ∧ keyString segs ∉ names ∧
    ∀ rest sc, ¬ StartsColon2 rest → ReadsTo (kd.parse .unnamed) pt rest sc k

omit [Env] in
theorem startsColon2_append {vt rest : List Tok} (h : ¬ StartsColon2 vt) (hb : Boundary rest) :
    ¬ StartsColon2 (vt ++ rest) := by
  rintro ⟨a, j, b, r, he⟩
  cases vt with
  | nil =>
    rcases hb with rfl | ⟨c, r', rfl, hc⟩
    · cases he
    · obtain ⟨_, _, rfl⟩ := hc
      cases he
  | cons x vt =>
    cases vt with
    | nil =>
      rcases hb with rfl | ⟨c, r', rfl, hc⟩
      · cases he
      · obtain ⟨_, _, rfl⟩ := hc
        cases he
    | cons y vt =>
      simp only [List.cons_append, List.cons.injEq] at he
      obtain ⟨rfl, rfl, _⟩ := he
      exact h ⟨a, j, b, vt, rfl⟩

/-- A rest field with a map: all maps with different keys that are paths but none of the excluded names. -/
theorem c111_rest {κ ν : Type} [DecidableEq κ] {f : Field V} (hf : f.rest = some true) (hfa : f.append.getD false = false)
    {kd : Dict κ} {keyStr : κ → Str} {vd : Dict ν} {g : List (κ × ν) → V} {allowed : List Str}
    (hp : ∀ l, (f.restP allowed l).1 = (mapRest kd keyStr vd allowed l).1.map g)
    (hkd : Good (kd.parse .unnamed)) (hr : ReadsPaths kd keyStr) (hv : vd.Good) {D : Domain ν} (h : CanWrite vd D) (pre : Str) :
    CanWriteAmong (fun span => f.flatCall pre span allowed) (· ∉ allowed)
      fun b => ∃ l : List (κ × ν), (l.map (·.1)).Nodup ∧ (∀ x ∈ l, WritesPath kd keyStr allowed x.1 ∧ D.item x.2) ∧ g l = b := by
  rintro _ ⟨l, hn, hl, rfl⟩
  obtain ⟨m, h1, h2⟩ := choose_list (R := fun (x : κ × ν) (q : Piece) => (∃ lead, PathToks lead q.segs q.pt) ∧
      keyStr x.1 = q.key ∧ q.key ∉ allowed ∧ (∀ rest sc, ¬ StartsColon2 rest → ReadsTo (kd.parse .unnamed) q.pt rest sc x.1) ∧
      WritesItem vd x.2 q.vt) l (by
    intro x hx
    obtain ⟨⟨lead, segs, pt, g1, g2, g3, g4⟩, hd⟩ := hl x hx
    obtain ⟨vt, hvt⟩ := h.item x.2 hd
    exact ⟨⟨segs, pt, vt⟩, ⟨lead, g1⟩, g2, g3, g4, hvt⟩)
  refine ⟨m.map (·.1), fun span => ⟨?_, ?_, fun qs hq hpq sc u => ?_⟩⟩
  · intro q hq
    obtain ⟨x, hx, rfl⟩ := List.mem_map.1 hq
    obtain ⟨g1, _, _, _, g5⟩ := h2 x hx
    exact ⟨g1, g5.start, g5.noComma⟩
  · intro q hq
    obtain ⟨x, hx, rfl⟩ := List.mem_map.1 hq
    exact (h2 x hx).2.2.1
  · have key : ∀ (qs : List Piece) (m : List (Piece × (κ × ν))), (∀ q ∈ qs, q.Fine) →
        piecesOf (· ∉ allowed) qs = m.map (·.1) → (∀ x ∈ m, keyStr x.2.1 = x.1.key ∧
          (∀ rest sc, ¬ StartsColon2 rest → ReadsTo (kd.parse .unnamed) x.1.pt rest sc x.2.1) ∧ WritesItem vd x.2.2 x.1.vt) →
        ∃ es, Items (RestSeg (kd.parse .unnamed) keyStr vd.named allowed) sc (pieceToks qs) es ∧
          (es.filterMap id).map (fun e => (e.1, e.2.1)) = m.map fun x => (x.2.1, Except.ok x.2.2) := by
      intro qs
      induction qs with
      | nil =>
        intro m _ hm _
        cases m with
        | nil => exact ⟨[], .nil, rfl⟩
        | cons x m => simp [piecesOf] at hm
      | cons q qs ih =>
        intro m hq hm hw
        have e : pieceToks (q :: qs) = q.toks ++ comma :: pieceToks qs := by simp [pieceToks, withCommas]
        have hb : Boundary (comma :: pieceToks qs) := .inr ⟨comma, _, rfl, comma_comma⟩
        have hfq := hq q List.mem_cons_self
        have hno := startsColon2_append hfq.start hb
        by_cases hin : q.key ∈ allowed
        · rw [piecesOf_cons_other (by simpa using hin)] at hm
          obtain ⟨es, g1, g2⟩ := ih m (fun q hq' => hq q (List.mem_cons_of_mem _ hq')) hm hw
          obtain ⟨lead, hpt⟩ := hfq.path
          obtain ⟨k, hk1, hk2⟩ := hr lead q.segs q.pt hpt
          rw [e]
          refine ⟨_, .cons comma_comma (.excluded (kt := q.pt) (vt := q.vt) rfl (hk2 _ sc hno)
            (by rw [hk1]; exact hin) hfq.noComma) g1, ?_⟩
          simp only [List.filterMap_cons, id, g2]
        · rw [piecesOf_cons_mine hin] at hm
          cases m with
          | nil => cases hm
          | cons x m =>
            simp only [List.map_cons, List.cons.injEq] at hm
            obtain ⟨rfl, hm⟩ := hm
            obtain ⟨es, g1, g2⟩ := ih m (fun q hq' => hq q (List.mem_cons_of_mem _ hq')) hm
              (fun x hx => hw x (List.mem_cons_of_mem _ hx))
            obtain ⟨w1, w2, w3⟩ := hw x List.mem_cons_self
            rw [e]
            refine ⟨_, .cons comma_comma (.entry (.mk (kt := x.1.pt) (vt := x.1.vt) rfl (w2 _ sc hno)
              (w3.reads _ _ _ _ hb)) (by rw [w1]; exact hin)) g1, ?_⟩
            simp only [List.filterMap_cons, id, List.map_cons, g2]
    obtain ⟨es, g1, g2⟩ := key qs m hq hpq fun x hx => ⟨(h2 x hx).2.1, (h2 x hx).2.2.2.1, (h2 x hx).2.2.2.2⟩
    obtain ⟨r, l', h3, h4, -⟩ := c27_rest kd keyStr vd hkd hv.named allowed _ es (items_all (u := u) g1)
    have g2' : (es.filterMap id).map (fun e => (e.1, e.2.1)) = l.map fun x => (x.1, Except.ok x.2) := by
      rw [g2, ← h1, List.map_map]; rfl
    have hok : ∀ x ∈ es.filterMap id, ∃ a, x.2.1 = .ok a := by
      intro x hx
      have : (x.1, x.2.1) ∈ l.map fun x => (x.1, Except.ok (ε := SynErr) x.2) := by
        rw [← g2']; exact List.mem_map_of_mem (f := fun e : κ × Except SynErr ν × Span => (e.1, e.2.1)) hx
      obtain ⟨a, _, ha⟩ := List.mem_map.1 this
      exact ⟨a.2, (congrArg Prod.snd ha).symm⟩
    have hkeys : (es.filterMap id).map (·.1) = l.map (·.1) := by
      have := congrArg (List.map Prod.fst) g2'
      simpa [List.map_map, Function.comp_def] using this
    have hpairs : ∀ (es : List (κ × Except SynErr ν × Span)) (l : List (κ × ν)),
        es.map (fun e => (e.1, e.2.1)) = l.map (fun x => (x.1, Except.ok x.2)) → okPairs es = l := by
      intro es
      induction es with
      | nil => intro l hl; cases l <;> simp_all [okPairs]
      | cons e es ih =>
        intro l hl
        cases l with
        | nil => simp at hl
        | cons x l =>
          obtain ⟨k, y, sp⟩ := e
          simp only [List.map_cons, List.cons.injEq, Prod.mk.injEq] at hl
          obtain ⟨⟨rfl, rfl⟩, hl⟩ := hl
          simp [okPairs, ih l hl]
    have h5 := (h4 hok).2.1 ((mapMsgs_eq_nil _ _).2 ⟨hok, by rw [hkeys]; exact hn, by simp⟩)
    rw [hpairs _ _ g2'] at h5
    simp only [Field.flatCall, hf, hfa, Option.getD_some, Bool.false_eq_true, if_false, if_true, hp, h3, h5]
    rfl

/-! ## What flat fields leave -/

omit [Env] in
theorem streams_left {κ : Type} {step : M (κ × Stream) Unit} {k k' : κ} {l l' : List Stream}
    (h : forStreams (itemLoop step) (k, l) = (.ok (), (k', l'))) : ∀ s ∈ l', s.toks = [] :=
  (items_sound (by simp) h).empty (fun _ _ _ _ h => h.empty rfl) rfl

omit [Env] in
theorem runAcc_left {γ : Type} {init v : γ} {step : M (Acc γ × Stream) Unit} {l l' : List Stream}
    (h : runAcc init (forStreams (itemLoop step)) l = (.ok v, l')) : ∀ s ∈ l', s.toks = [] := by
  unfold runAcc at h
  split at h
  · rename_i acc l1 h1
    have h2 := congrArg Prod.snd h
    simp only at h2
    subst h2
    exact streams_left h1
  · cases h
  · cases h

omit [Env] in
theorem runAccPush_left {γ : Type} {init v : γ} {step : M (Acc γ × Stream) Unit} {l l' : List Stream}
    (h : runAccPush init (forStreams (itemLoop step)) l = (.ok v, l')) : ∀ s ∈ l', s.toks = [] := by
  unfold runAccPush at h
  split at h
  · rename_i acc l1 h1
    have h2 := congrArg Prod.snd h
    simp only at h2
    subst h2
    exact streams_left h1
  · have h1 := Errors.intoResult_ok (congrArg Prod.fst h)
    simp [Errors.toList_pushSyn, SynErr.toList] at h1
  · cases h

/-- An append field with a list that succeeds has read everything. -/
theorem seqAppend_left {α : Type} (vd : Dict α) (names : List Str) {l l' : List Stream} {v : List α}
    (h : seqAppend vd names l = (.ok v, l')) : ∀ s ∈ l', s.toks = [] := by
  rw [seqAppend, parseStruct_eq] at h
  exact runAccPush_left h

/-- An append field with a set. -/
theorem setAppend_left {α : Type} [DecidableEq α] (vd : Dict α) (names : List Str) {l l' : List Stream} {v : List α}
    (h : setAppend vd names l = (.ok v, l')) : ∀ s ∈ l', s.toks = [] := by
  rw [setAppend, parseStruct_eq] at h
  exact runAcc_left h

/-- A rest field with a map. -/
theorem mapRest_left {κ ν : Type} [DecidableEq κ] (kd : Dict κ) (keyStr : κ → Str) (vd : Dict ν) (names : List Str)
    {l l' : List Stream} {v : List (κ × ν)} (h : mapRest kd keyStr vd names l = (.ok v, l')) : ∀ s ∈ l', s.toks = [] :=
  runAcc_left h

/-- A flattened structure. -/
theorem flatNamed_left {d : StructDef V} (hs : d.shape = .named) (hg : d.FieldsFine) (he : FlatEnds d.fields) {mode : Mode}
    {pre : Str} {validate : Bool} {l l' : List Stream} {v : List V} (h : d.flatNamed.parse mode pre validate l = (.ok v, l')) :
    ∀ s ∈ l', s.toks = [] := by
  simp only [StructDef.flatNamed, M.mapRes] at h
  cases hn : namedFlat d.data (Field.fieldNames d.fields) mode pre validate l with
  | mk r l1 =>
    rw [hn] at h
    have h2 := congrArg Prod.snd h
    simp only at h2
    subst h2
    cases r with
    | ok w => exact namedFlat_left d.data (hg.good hs) he _ _ _ _ hn
    | err e => simp [runAndThens] at h
    | panic => simp [runAndThens] at h

end Deluxe
