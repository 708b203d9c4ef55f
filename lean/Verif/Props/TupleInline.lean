import Verif.Lemmas.TupleFlat
import Verif.Props.Inline
/-!
# C84: a flattened tuple structure is read like its fields written out
-/
namespace Deluxe

variable {V : Type}

/-- What a flattened field takes from the tuple structure it flattens. -/
def FlattensTuple [Env] (f : Field V) (inner : Fields V) (g : List V → V) : Prop :=
  ∀ mode index, f.flatUnnamed.parse mode index = (unnamedFlat inner mode index).mapRes (Res.map g)

/-- What the theorem below asks of the two structures: the outer one has the fields `A`, `f`, `B`, where `f` is
flattened and has neither default nor transforms; neither structure has a default.  (The inner one has a field that is
parsed, see `TupleFine`.) -/
structure TupleInlines (d inner : Fields V) (A B : List (Field V)) (f : Field V) : Prop where
  fields : d.fields = A ++ f :: B
  flat : f.Flattens none
  default : f.default = none
  transforms : f.transforms = []
  missing : ∀ n sp, f.item.missing n sp ≠ .panic
  fine : TupleFine (d.inlined inner A B)
  fine' : TupleFine inner
  obj : ∀ x ∈ inner.fields, x.isContainer = true → inner.obj = d.obj

/-! ## Reading -/

theorem readAll_pre (ps : List (M Stream V)) (s : Stream) : ∃ pre : Option (List V × Stream),
    (∀ x, pre = some x → x.1.length ≤ ps.length ∧ (x.1.length < ps.length → x.2.toks = [])) ∧
    ∀ qs, qs ≠ [] → readAll (ps ++ qs) s =
      pre.bind fun x => (readAll qs x.2).map fun y => (x.1 ++ y.1, y.2) := by
  cases ps with
  | nil =>
    refine ⟨some ([], s), fun x hx => ?_, fun qs _ => ?_⟩
    · cases hx; simp
    · simp
  | cons p ps =>
    refine ⟨(readAll (p :: ps) s).bind fun x => if x.2.toks = [] then some x else
      match parseComma x.2 with
      | (.ok (), s2) => some (x.1, s2)
      | _ => none, fun x hx => ?_, fun qs hqs => ?_⟩
    · rw [Option.bind_eq_some_iff] at hx
      obtain ⟨⟨xs, s1⟩, h1, h2⟩ := hx
      have hl := readAll_length h1
      simp only at h2
      split at h2
      · cases h2; exact hl
      · rename_i hne
        have : xs.length = (p :: ps).length := by
          rcases Nat.lt_or_ge xs.length (p :: ps).length with h | h
          · exact absurd (hl.2 h) hne
          · omega
        split at h2
        · cases h2
          exact ⟨hl.1, fun h => by simp only at h; omega⟩
        · cases h2
    · rw [readAll_append (by simp)]
      cases readAll (p :: ps) s with
      | none => rfl
      | some x =>
        obtain ⟨xs, s1⟩ := x
        simp only [Option.bind_some, readMore]
        by_cases h0 : s1.toks = []
        · rw [if_pos (.inl h0), if_pos h0]; rfl
        · rw [if_neg (by simp [h0, hqs]), if_neg h0]
          generalize parseComma s1 = y
          obtain ⟨r, s2⟩ := y
          cases r <;> rfl

/-! ## The values, part by part -/

/-- The values `vs` of the fields `F` if `r j` was read for the `j`-th parsed one. -/
def FillsPart (d : Fields V) (F : List (Field V)) (r : Nat → Option V) (vs : List V) : Prop :=
  vs.length = F.length ∧ ∀ (k : Nat) f, F[k]? = some f → ∃ v, vs[k]? = some v ∧
    Settles d f (if f.isParsable then r (rank F k) else none) v

theorem fills_part {d : Fields V} {xs vs : List V} : Fills d xs vs ↔ FillsPart d d.fields (xs[·]?) vs := Iff.rfl

theorem rank_append_left {F G : List (Field V)} {k : Nat} (h : k ≤ F.length) : rank (F ++ G) k = rank F k := by
  rw [rank, List.take_append_of_le_length h, rank]

theorem rank_append_right (F G : List (Field V)) (k : Nat) :
    rank (F ++ G) (F.length + k) = F.countP (·.isParsable) + rank G k := by
  rw [rank, List.take_length_add_append, List.countP_append, rank]

theorem fillsPart_append {d : Fields V} {F G : List (Field V)} {r : Nat → Option V} {vs : List V} :
    FillsPart d (F ++ G) r vs ↔ ∃ a b, vs = a ++ b ∧ FillsPart d F r a ∧
      FillsPart d G (fun j => r (F.countP (·.isParsable) + j)) b := by
  constructor
  · rintro ⟨h1, h2⟩
    rw [List.length_append] at h1
    refine ⟨vs.take F.length, vs.drop F.length, (List.take_append_drop ..).symm, ⟨by simp; omega, fun k f hf => ?_⟩,
      ⟨by simp; omega, fun k f hf => ?_⟩⟩
    · have hk := (List.getElem?_eq_some_iff.1 hf).1
      obtain ⟨v, hv, hs⟩ := h2 k f (by rw [List.getElem?_append_left hk, hf])
      rw [rank_append_left (by omega)] at hs
      exact ⟨v, by rw [List.getElem?_take_of_lt hk, hv], hs⟩
    · obtain ⟨v, hv, hs⟩ := h2 (F.length + k) f (by rw [List.getElem?_append_right (by omega), ← hf]; congr 1; omega)
      rw [rank_append_right] at hs
      exact ⟨v, by rw [List.getElem?_drop, hv], hs⟩
  · rintro ⟨a, b, rfl, ⟨h1, h2⟩, ⟨h3, h4⟩⟩
    refine ⟨by simp [h1, h3], fun k f hf => ?_⟩
    by_cases hk : k < F.length
    · rw [List.getElem?_append_left hk] at hf
      obtain ⟨v, hv, hs⟩ := h2 k f hf
      rw [rank_append_left (by omega)]
      exact ⟨v, by rw [List.getElem?_append_left (by omega), hv], hs⟩
    · obtain ⟨j, rfl⟩ := Nat.exists_eq_add_of_le (Nat.le_of_not_lt hk)
      rw [List.getElem?_append_right (by omega), show F.length + j - F.length = j by omega] at hf
      obtain ⟨v, hv, hs⟩ := h4 j f hf
      rw [rank_append_right]
      refine ⟨v, ?_, hs⟩
      rw [List.getElem?_append_right (by omega), ← hv]
      congr 1
      omega

theorem rank_lt_count {F : List (Field V)} {k : Nat} {f : Field V} (hf : F[k]? = some f) (hp : f.isParsable = true) :
    rank F k < F.countP (·.isParsable) := by
  have h1 : rank F k < rank F (k + 1) := rank_lt hf hp (Nat.lt_succ_self k)
  have : rank F (k + 1) ≤ F.countP (·.isParsable) := (List.take_sublist _ _).countP_le
  omega

theorem settles_obj {d d' : Fields V} (ht : d.target = none) (ht' : d'.target = none) {f : Field V}
    (ho : f.isContainer = true → d.obj = d'.obj) {g : Option V} {v : V} (h : Settles d f g v) : Settles d' f g v :=
  ends_congr' ht ht' (by rw [unflat_isContainer]; exact ho) (fun _ => Iff.rfl) h

theorem FillsPart.congr {d d' : Fields V} (ht : d.target = none) (ht' : d'.target = none) {F : List (Field V)}
    {r r' : Nat → Option V} {vs : List V} (ho : ∀ x ∈ F, x.isContainer = true → d.obj = d'.obj)
    (hr : ∀ j, j < F.countP (·.isParsable) → r j = r' j) (h : FillsPart d F r vs) : FillsPart d' F r' vs := by
  refine ⟨h.1, fun k f hf => ?_⟩
  obtain ⟨v, hv, hs⟩ := h.2 k f hf
  refine ⟨v, hv, ?_⟩
  have : (if f.isParsable then r' (rank F k) else none) = if f.isParsable then r (rank F k) else none := by
    split
    · rename_i hp
      exact (hr _ (rank_lt_count hf hp)).symm
    · rfl
  rw [this]
  exact settles_obj ht ht' (ho f (List.mem_of_getElem? hf)) hs

section
variable [Env] {d inner : Fields V} {A B : List (Field V)} {f : Field V} {g : List V → V}

theorem FlattensTuple.parse_ok (hin : FlattensTuple f inner g) (hf : TupleFine inner) (mode : Mode) (i : Nat) (s : Stream)
    (v : V) (l : List Stream) : f.flatUnnamed.parse mode i [s] = (.ok v, l) ↔ ∃ ws xs s', v = g ws ∧ l = [s'] ∧
      readAll (readers (inner.fields.map Field.unflat)) s = some (xs, s') ∧ Fills inner xs ws := by
  rw [hin mode i]
  simp only [M.mapRes]
  have h1 := unnamedFlat_one hf mode i s
  generalize unnamedFlat inner mode i [s] = x at h1
  obtain ⟨r, l'⟩ := x
  simp only [Prod.mk.injEq] at h1 ⊢
  constructor
  · rintro ⟨h2, rfl⟩
    cases r with
    | ok ws =>
      simp only [Res.map, Res.ok.injEq] at h2
      obtain ⟨xs, s', h3, h4, h5⟩ := (h1 ws l').1 ⟨rfl, rfl⟩
      exact ⟨ws, xs, s', h2.symm, h4, h3, h5⟩
    | err _ => simp [Res.map] at h2
    | panic => simp [Res.map] at h2
  · rintro ⟨ws, xs, s', rfl, rfl, h3, h4⟩
    obtain ⟨rfl, rfl⟩ := (h1 ws [s']).2 ⟨xs, s', h3, rfl, h4⟩
    exact ⟨rfl, rfl⟩

omit [Env] in
theorem Field.Flattens.isFlat {p : Option Str} (h : f.Flattens p) : f.isFlat = true := by
  simp [Field.isFlat, Field.isFlatten, h.flatten]

/-- The values of a flattened tuple structure do not depend on its position. -/
theorem FlattensTuple.steady (hin : FlattensTuple f inner g) (hf : TupleFine inner) (hfl : f.isFlat = true) :
    f.Steady where
  missing := fun h => by rw [hfl] at h; cases h
  index := fun _ i j s v l h => by
    have h1 := (hin.parse_ok hf .unnamed i s v l).1 h
    refine ⟨(hin.parse_ok hf .unnamed j s v l).2 h1, ?_⟩
    obtain ⟨_, _, s', _, rfl, _⟩ := h1
    rfl
  empty := fun _ v l h => by
    obtain ⟨_, xs, s', _, rfl, h1, _⟩ := (hin.parse_ok hf .unnamed 0 noToks v l).1 h
    rw [readAll_empty _ (show noToks.toks = [] from rfl)] at h1
    cases h1
    rfl

omit [Env] in
theorem TupleFine.tupleGood (h : TupleFine d) : TupleGood d.fields where
  noAppendRest := h.noAppendRest
  item := fun f hf hp => h.item f hf hp.1
  flat := fun f hf hp i => h.flat f hf (by simp only [Field.flatParsable, Bool.and_eq_true] at hp; exact hp.1) i
  missing := h.missing

/-- The outer structure meets the requirements as well. -/
theorem TupleInlines.outer (hi : TupleInlines d inner A B f) (hin : FlattensTuple f inner g) : TupleFine d := by
  have hmem : ∀ x ∈ d.fields, x = f ∨ x ∈ (d.inlined inner A B).fields := by
    intro x hx
    rw [hi.fields, List.mem_append, List.mem_cons] at hx
    simp only [Fields.inlined, List.mem_append]
    rcases hx with h | h | h
    · exact .inr (.inl h)
    · exact .inl h
    · exact .inr (.inr (.inr h))
  have hfl := hi.flat.isFlat
  exact {
    accepted := by
      refine ⟨fun x hx hp => ?_, fun t ht => ?_⟩
      · rcases hmem x hx with rfl | h
        · rw [hi.flat.parsable] at hp; cases hp
        · exact hi.fine.accepted.filled x h hp
      · have := hi.fine.target
        rw [show (d.inlined inner A B).target = d.target from rfl, ht] at this
        cases this
    transparent := hi.fine.transparent
    target := hi.fine.target
    noAppendRest := fun x hx => by
      rcases hmem x hx with rfl | h
      · exact ⟨hi.flat.append, hi.flat.rest⟩
      · exact hi.fine.noAppendRest x h
    steady := fun x hx => by
      rcases hmem x hx with rfl | h
      · exact hin.steady hi.fine' hfl
      · exact hi.fine.steady x h
    item := fun x hx hn => by
      rcases hmem x hx with rfl | h
      · rw [hfl] at hn; cases hn
      · exact hi.fine.item x h hn
    missing := fun x hx => by
      rcases hmem x hx with rfl | h
      · exact hi.missing
      · exact hi.fine.missing x h
    flat := fun x hx hn => by
      rcases hmem x hx with rfl | h
      · intro i
        rw [hin .unnamed i]
        exact mapRes_good (unnamedFlat_good inner hi.fine'.accepted hi.fine'.transparent hi.fine'.tupleGood _ _)
          (fun r hr => by cases r <;> simp_all [Res.map])
      · exact hi.fine.flat x h hn
    some := by
      rw [hi.fields, List.countP_append, List.countP_cons, if_pos hi.flat.parsable]
      omega }

theorem TupleInlines.absent (hi : TupleInlines d inner A B f) (hin : FlattensTuple f inner g) (v : V) :
    Settles d f none v ↔ ∃ ws, v = g ws ∧ Fills inner [] ws := by
  have hfl := hi.flat.isFlat
  have hab : f.absent = .ok v ↔ ∃ ws, v = g ws ∧ Fills inner [] ws := by
    rw [Field.absent, unflat_of_flat hfl]
    simp only
    have h1 := hin.parse_ok hi.fine' .unnamed 0 noToks
    generalize f.flatUnnamed.parse .unnamed 0 [noToks] = x at h1
    obtain ⟨r, l⟩ := x
    simp only
    constructor
    · rintro rfl
      obtain ⟨ws, xs, s', h2, _, h3, h4⟩ := (h1 v l).1 rfl
      rw [readAll_empty _ (show noToks.toks = [] from rfl)] at h3
      cases h3
      exact ⟨ws, h2, h4⟩
    · rintro ⟨ws, rfl, h⟩
      have := (h1 (g ws) [noToks]).2 ⟨ws, [], noToks, rfl, rfl, readAll_empty _ rfl, h⟩
      cases this
      rfl
  rw [← hab]
  have hp : f.unflat.Plain := ⟨unflat_isFlat f, by rw [unflat_isParsable]; exact hi.flat.parsable⟩
  have hnc : f.unflat.isContainer = false := by
    have := hp.2
    simp only [Field.isParsable, Bool.and_eq_true, Bool.not_eq_true'] at this
    exact this.1
  constructor
  · rintro (⟨b, h1, h2⟩ | ⟨_, t, h, _⟩)
    · rw [unflat_transforms, hi.transforms] at h2
      cases h2
      cases h1 with
      | item _ h => cases h
      | flat _ h => cases h
      | container h _ => rw [hnc] at h; cases h
      | default _ h => rw [unflat_default, hi.default] at h; cases h
      | missing _ _ _ _ h => exact h
    · rw [(hi.outer hin).target] at h; cases h
  · intro h
    refine .inl ⟨v, .missing hp rfl ?_ (hi.outer hin).target h, ?_⟩
    · rw [unflat_default, hi.default]
    · rw [unflat_transforms, hi.transforms]; rfl

theorem TupleInlines.present (hi : TupleInlines d inner A B f) (hin : FlattensTuple f inner g) (x v : V) :
    Settles d f (some x) v ↔ v = x := by
  have hp : f.unflat.Plain := ⟨unflat_isFlat f, by rw [unflat_isParsable]; exact hi.flat.parsable⟩
  have hnc : f.unflat.isContainer = false := by
    have := hp.2
    simp only [Field.isParsable, Bool.and_eq_true, Bool.not_eq_true'] at this
    exact this.1
  constructor
  · rintro (⟨b, h1, h2⟩ | ⟨_, t, h, _⟩)
    · rw [unflat_transforms, hi.transforms] at h2
      cases h2
      cases h1 with
      | item _ h => cases h; rfl
      | flat _ h => cases h
      | container h _ => rw [hnc] at h; cases h
      | default _ h => rw [unflat_default, hi.default] at h; cases h
      | missing _ h => cases h
    · rw [(hi.outer hin).target] at h; cases h
  · rintro rfl
    refine .inl ⟨v, .item hp rfl, ?_⟩
    rw [unflat_transforms, hi.transforms]; rfl

/-- A flattened tuple structure is read like its fields written out in place of that field: on every input of one
attribute or one pair of parentheses the one succeeds exactly if the other does, with the same values, and leaves the
same tokens. -/
theorem c84_inline (hi : TupleInlines d inner A B f) (hin : FlattensTuple f inner g) (mode : Mode) (index : Nat)
    (s : Stream) (vs : List V) (l : List Stream) :
    unnamedFlat d mode index [s] = (.ok vs, l) ↔
      ∃ a ws b, vs = a ++ g ws :: b ∧ a.length = A.length ∧ ws.length = inner.fields.length ∧
        unnamedFlat (d.inlined inner A B) mode index [s] = (.ok (a ++ (ws ++ b)), l) := by
  have hd := hi.outer hin
  have ht := hd.target
  have ht' : (d.inlined inner A B).target = none := ht
  have hin' := hi.fine'
  have hfl := hi.flat.isFlat
  simp only [unnamedFlat_one hd, unnamedFlat_one hi.fine]
  have hRI : readers (inner.fields.map Field.unflat) ≠ [] := by
    intro h
    have h1 := readers_length (inner.fields.map Field.unflat)
    rw [h, unflat_countP] at h1
    have := hin'.some
    simp at h1
    omega
  have hr1 : readers (d.fields.map Field.unflat) = readers (A.map Field.unflat) ++
      (f.unflat.item.parse .unnamed :: readers (B.map Field.unflat)) := by
    rw [hi.fields, List.map_append, List.map_cons, readers_append]
    congr 1
    rw [readers, List.filter_cons, if_pos (by rw [unflat_isParsable]; exact hi.flat.parsable)]
    rfl
  have hr2 : readers ((d.inlined inner A B).fields.map Field.unflat) = readers (A.map Field.unflat) ++
      (readers (inner.fields.map Field.unflat) ++ readers (B.map Field.unflat)) := by
    simp only [Fields.inlined, List.map_append, readers_append]
  rw [hr1, hr2]
  have hnA : (readers (A.map Field.unflat)).length = A.countP (·.isParsable) := by rw [readers_length, unflat_countP]
  have hnI : (readers (inner.fields.map Field.unflat)).length = inner.fields.countP (·.isParsable) := by
    rw [readers_length, unflat_countP]
  obtain ⟨pre, hp1, hp2⟩ := readAll_pre (readers (A.map Field.unflat)) s
  rw [hp2 _ (by simp), hp2 _ (by simp [hRI])]
  cases hpre : pre with
  | none => simp
  | some x =>
    obtain ⟨xa, s1⟩ := x
    obtain ⟨hl1, hl2⟩ := hp1 _ hpre
    simp only at hl1 hl2
    simp only [Option.bind_some]
    -- the values of the outer structure, part by part
    have hvals : ∀ xs : List V, Fills d xs vs ↔ ∃ a v b, vs = a ++ v :: b ∧ FillsPart d A (xs[·]?) a ∧
        Settles d f (xs[A.countP (·.isParsable)]?) v ∧ FillsPart d B (fun j => xs[A.countP (·.isParsable) + (1 + j)]?) b := by
      intro xs
      rw [fills_part, hi.fields, show A ++ f :: B = A ++ ([f] ++ B) from rfl, fillsPart_append]
      simp only [fillsPart_append]
      constructor
      · rintro ⟨a, _, rfl, h1, c, b, rfl, ⟨hc1, hc2⟩, h3⟩
        obtain ⟨v, rfl⟩ := List.length_eq_one_iff.1 hc1
        obtain ⟨v', hv', hs⟩ := hc2 0 f rfl
        cases hv'
        rw [if_pos hi.flat.parsable] at hs
        simp only [rank, List.take_zero, List.countP_nil, Nat.add_zero] at hs
        rw [List.countP_singleton, if_pos hi.flat.parsable] at h3
        exact ⟨a, v, b, rfl, h1, hs, h3⟩
      · rintro ⟨a, v, b, rfl, h1, hs, h3⟩
        refine ⟨a, v :: b, rfl, h1, [v], b, rfl, ⟨rfl, fun k x hx => ?_⟩, ?_⟩
        · cases k with
          | succ k => simp at hx
          | zero =>
            simp only [List.getElem?_cons_zero, Option.some.injEq] at hx
            subst hx
            refine ⟨v, rfl, ?_⟩
            rw [if_pos hi.flat.parsable]
            simpa [rank] using hs
        · rw [List.countP_singleton, if_pos hi.flat.parsable]; exact h3
    have hvals' : ∀ (zs ws a b : List V), a.length = A.length → ws.length = inner.fields.length →
        (Fills (d.inlined inner A B) zs (a ++ (ws ++ b)) ↔ FillsPart d A (zs[·]?) a ∧
          FillsPart inner inner.fields (fun j => zs[A.countP (·.isParsable) + j]?) ws ∧
          FillsPart d B (fun j => zs[A.countP (·.isParsable) + (inner.fields.countP (·.isParsable) + j)]?) b) := by
      intro zs ws a b ha hw
      rw [fills_part, show (d.inlined inner A B).fields = A ++ (inner.fields ++ B) from rfl, fillsPart_append]
      simp only [fillsPart_append]
      constructor
      · rintro ⟨a', c', e1, h1, w', b', rfl, h2, h3⟩
        obtain ⟨rfl, e2⟩ := List.append_inj e1 (by rw [ha, h1.1])
        obtain ⟨rfl, rfl⟩ := List.append_inj e2 (by rw [hw, h2.1])
        exact ⟨h1.congr ht' ht (fun _ _ _ => rfl) (fun _ _ => rfl),
          h2.congr ht' hin'.target (fun x hx hc => (hi.obj x hx hc).symm) (fun _ _ => rfl),
          h3.congr ht' ht (fun _ _ _ => rfl) (fun _ _ => rfl)⟩
      · rintro ⟨h1, h2, h3⟩
        exact ⟨a, ws ++ b, rfl, h1.congr ht ht' (fun _ _ _ => rfl) (fun _ _ => rfl), ws, b, rfl,
          h2.congr hin'.target ht' (fun x hx hc => hi.obj x hx hc) (fun _ _ => rfl),
          h3.congr ht ht' (fun _ _ _ => rfl) (fun _ _ => rfl)⟩
    by_cases h0 : s1.toks = []
    · -- the tokens end before the flattened field
      rw [readAll_empty _ h0, readAll_empty _ h0]
      simp only [Option.map_some, List.append_nil, Option.some.injEq, Prod.mk.injEq]
      have hnone : ∀ j, xa[A.countP (·.isParsable) + j]? = none := fun j =>
        List.getElem?_eq_none (by omega)
      constructor
      · rintro ⟨xs, s', ⟨rfl, rfl⟩, rfl, h⟩
        obtain ⟨a, v, b, rfl, h1, h2, h3⟩ := (hvals _).1 h
        rw [show xa[A.countP (·.isParsable)]? = none from hnone 0, hi.absent hin] at h2
        obtain ⟨ws, rfl, h4⟩ := h2
        refine ⟨a, ws, b, rfl, h1.1, h4.1, xa, s1, ⟨rfl, rfl⟩, rfl, (hvals' _ _ _ _ h1.1 h4.1).2 ⟨h1, ?_, ?_⟩⟩
        · exact (fills_part.1 h4).congr hin'.target hin'.target (fun _ _ _ => rfl) (fun j _ => by rw [hnone]; rfl)
        · exact h3.congr ht ht (fun _ _ _ => rfl) (fun j _ => by rw [hnone, hnone])
      · rintro ⟨a, ws, b, rfl, ha, hw, xs, s', ⟨rfl, rfl⟩, rfl, h⟩
        obtain ⟨h1, h2, h3⟩ := (hvals' _ _ _ _ ha hw).1 h
        refine ⟨xa, s1, ⟨rfl, rfl⟩, rfl, (hvals _).2 ⟨a, g ws, b, rfl, h1, ?_, ?_⟩⟩
        · rw [show xa[A.countP (·.isParsable)]? = none from hnone 0, hi.absent hin]
          exact ⟨ws, rfl, h2.congr hin'.target hin'.target (fun _ _ _ => rfl) (fun j _ => by rw [hnone]; rfl)⟩
        · exact h3.congr ht ht (fun _ _ _ => rfl) (fun j _ => by rw [hnone, hnone])
    · -- the flattened field is reached
      have hla : xa.length = A.countP (·.isParsable) := by
        rcases Nat.lt_or_ge xa.length (readers (A.map Field.unflat)).length with h | h
        · exact absurd (hl2 h) h0
        · omega
      have hI : ∀ (ys xb : List V), (ys.length < inner.fields.countP (·.isParsable) → xb = []) →
          ∀ j, j < inner.fields.countP (·.isParsable) →
          (xa ++ (ys ++ xb))[A.countP (·.isParsable) + j]? = ys[j]? := by
        intro ys xb hxb j hj
        rw [← hla, List.getElem?_append_right (by omega), show xa.length + j - xa.length = j by omega]
        by_cases hy : j < ys.length
        · rw [List.getElem?_append_left hy]
        · rw [hxb (by omega), List.append_nil]
      have hB : ∀ (ys xb : List V), ys.length ≤ inner.fields.countP (·.isParsable) →
          (ys.length < inner.fields.countP (·.isParsable) → xb = []) → ∀ j,
          (xa ++ (ys ++ xb))[A.countP (·.isParsable) + (inner.fields.countP (·.isParsable) + j)]? = xb[j]? := by
        intro ys xb hle hxb j
        rw [← hla, List.getElem?_append_right (by omega), List.getElem?_append_right (by omega)]
        by_cases hy : ys.length < inner.fields.countP (·.isParsable)
        · rw [hxb hy]; simp
        · congr 1; omega
      have hB' : ∀ (x : V) (xb : List V) (j : Nat),
          (xa ++ x :: xb)[A.countP (·.isParsable) + (1 + j)]? = xb[j]? := by
        intro x xb j
        rw [← hla, List.getElem?_append_right (by omega), show xa.length + (1 + j) - xa.length = j + 1 by omega]
        rfl
      have hA : ∀ (C D : List V) (j : Nat), j < A.countP (·.isParsable) → (xa ++ C)[j]? = (xa ++ D)[j]? := by
        intro C D j hj
        rw [List.getElem?_append_left (by omega), List.getElem?_append_left (by omega)]
      have hf0 : ∀ x C, (xa ++ x :: C)[A.countP (·.isParsable)]? = some x := by
        intro x C
        rw [← hla, List.getElem?_append_right (Nat.le_refl _), Nat.sub_self]; rfl
      have hrest : ∀ {ys s2}, readAll (readers (inner.fields.map Field.unflat)) s1 = some (ys, s2) → ∀ {xb s'},
          readMore (readers (B.map Field.unflat)) s2 = some (xb, s') →
          ys.length ≤ inner.fields.countP (·.isParsable) ∧
            (ys.length < inner.fields.countP (·.isParsable) → xb = []) := by
        intro ys s2 h1 xb s' h2
        obtain ⟨h3, h4⟩ := readAll_length h1
        rw [hnI] at h3 h4
        refine ⟨h3, fun h => ?_⟩
        rw [readMore_empty _ (h4 h)] at h2
        cases h2
        rfl
      have hparse : ∀ v s2, f.unflat.item.parse .unnamed s1 = (.ok v, s2) ↔ ∃ ws ys, v = g ws ∧
          readAll (readers (inner.fields.map Field.unflat)) s1 = some (ys, s2) ∧ Fills inner ys ws := by
        intro v s2
        rw [unflat_of_flat hfl]
        simp only
        have h1 := hin.parse_ok hin' .unnamed 0 s1
        generalize f.flatUnnamed.parse .unnamed 0 [s1] = x at h1
        obtain ⟨r, l'⟩ := x
        simp only [Prod.mk.injEq] at h1 ⊢
        constructor
        · rintro ⟨rfl, h2⟩
          obtain ⟨ws, ys, s', rfl, rfl, h3, h4⟩ := (h1 v l').1 ⟨rfl, rfl⟩
          simp only [List.headD_cons] at h2
          subst h2
          exact ⟨ws, ys, rfl, h3, h4⟩
        · rintro ⟨ws, ys, rfl, h3, h4⟩
          obtain ⟨rfl, rfl⟩ := (h1 (g ws) [s2]).2 ⟨ws, ys, s2, rfl, rfl, h3, h4⟩
          exact ⟨rfl, rfl⟩
      have hread : ∀ xs s', readAll (f.unflat.item.parse .unnamed :: readers (B.map Field.unflat)) s1 = some (xs, s') ↔
          ∃ ws ys s2 xb, xs = g ws :: xb ∧ readAll (readers (inner.fields.map Field.unflat)) s1 = some (ys, s2) ∧
            Fills inner ys ws ∧ readMore (readers (B.map Field.unflat)) s2 = some (xb, s') := by
        intro xs s'
        rw [readAll_cons _ _ h0]
        constructor
        · intro h
          cases hx : f.unflat.item.parse .unnamed s1 with
          | mk r s2 =>
            rw [hx] at h
            cases r with
            | err _ => cases h
            | panic => cases h
            | ok v =>
              simp only [Option.map_eq_some_iff] at h
              obtain ⟨⟨xb, s3⟩, h1, h2⟩ := h
              cases h2
              obtain ⟨ws, ys, rfl, h3, h4⟩ := (hparse v s2).1 hx
              exact ⟨ws, ys, s2, xb, rfl, h3, h4, h1⟩
        · rintro ⟨ws, ys, s2, xb, rfl, h1, h2, h3⟩
          rw [(hparse (g ws) s2).2 ⟨ws, ys, rfl, h1, h2⟩]
          simp only [h3, Option.map_some]
      constructor
      · rintro ⟨xs, s', h1, rfl, h2⟩
        rw [Option.map_eq_some_iff] at h1
        obtain ⟨⟨xc, s2⟩, h3, h4⟩ := h1
        cases h4
        obtain ⟨ws, ys, s3, xb, rfl, h5, h6, h7⟩ := (hread _ _).1 h3
        obtain ⟨h8, h9⟩ := hrest h5 h7
        obtain ⟨a, v, b, rfl, k1, k2, k3⟩ := (hvals _).1 h2
        simp only at k1 k2 k3
        rw [hf0, hi.present hin] at k2
        subst k2
        refine ⟨a, ws, b, rfl, k1.1, h6.1, xa ++ (ys ++ xb), s2, ?_, rfl, (hvals' _ _ _ _ k1.1 h6.1).2 ⟨?_, ?_, ?_⟩⟩
        · rw [readAll_append hRI, h5]
          simp only [Option.bind_some, h7, Option.map_some]
        · exact k1.congr ht ht (fun _ _ _ => rfl) (fun j hj => hA _ _ j hj)
        · exact (fills_part.1 h6).congr hin'.target hin'.target (fun _ _ _ => rfl) (fun j hj => (hI ys xb h9 j hj).symm)
        · exact k3.congr ht ht (fun _ _ _ => rfl) (fun j _ => by rw [hB', hB ys xb h8 h9])
      · rintro ⟨a, ws, b, rfl, ha, hw, zs, s', h1, rfl, h2⟩
        rw [Option.map_eq_some_iff] at h1
        obtain ⟨⟨zc, s2⟩, h3, h4⟩ := h1
        cases h4
        rw [readAll_append hRI, Option.bind_eq_some_iff] at h3
        obtain ⟨⟨ys, s3⟩, h5, h6⟩ := h3
        simp only [Option.map_eq_some_iff] at h6
        obtain ⟨⟨xb, s4⟩, h7, h8⟩ := h6
        cases h8
        obtain ⟨h8, h9⟩ := hrest h5 h7
        obtain ⟨k1, k2, k3⟩ := (hvals' _ _ _ _ ha hw).1 h2
        simp only at k1 k2 k3
        have hfi : Fills inner ys ws :=
          k2.congr hin'.target hin'.target (fun _ _ _ => rfl) (fun j hj => hI ys xb h9 j hj)
        refine ⟨xa ++ g ws :: xb, s4, ?_, rfl, (hvals _).2 ⟨a, g ws, b, rfl, ?_, ?_, ?_⟩⟩
        · rw [(hread (g ws :: xb) s4).2 ⟨ws, ys, s3, xb, rfl, h5, hfi, h7⟩]; rfl
        · exact k1.congr ht ht (fun _ _ _ => rfl) (fun j hj => hA _ _ j hj)
        · rw [hf0, hi.present hin]
        · exact k3.congr ht ht (fun _ _ _ => rfl) (fun j _ => by rw [hB', hB ys xb h8 h9])

/-! ## In parentheses -/

omit [Env] in
theorem delimited_rel {α : Type} {F G : M Stream α} {R : α → α → Prop}
    (h : ∀ s v s1, F s = (.ok v, s1) → ∃ w, R v w ∧ G s = (.ok w, s1)) (dl : Delim) (s : Stream) (v : α) (s' : Stream)
    (hF : parseDelimitedWith dl F s = (.ok v, s')) : ∃ w, R v w ∧ parseDelimitedWith dl G s = (.ok w, s') := by
  simp only [parseDelimitedWith, withContent] at hF ⊢
  cases he : enter dl s with
  | error e => rw [he] at hF; cases hF
  | ok x =>
    obtain ⟨c, s2⟩ := x
    rw [he] at hF
    simp only [Bind.bind, M.bind] at hF ⊢
    cases hx : F c with
    | mk r c1 =>
      rw [hx] at hF
      cases r with
      | err _ => cases hF
      | panic => cases hF
      | ok v1 =>
        simp only at hF
        cases hy : parseEof c1 with
        | mk r2 c2 =>
          rw [hy] at hF
          cases r2 with
          | err _ => cases hF
          | panic => cases hF
          | ok u =>
            simp only [Pure.pure, M.pure, Prod.mk.injEq, Res.ok.injEq] at hF
            obtain ⟨rfl, rfl⟩ := hF
            obtain ⟨w, hR, hG⟩ := h c v1 c1 hx
            refine ⟨w, hR, ?_⟩
            simp only [hG, hy]
            rfl

/-- The tuple structure with the fields `A`, those of `inner` and `B`. -/
def StructDef.inlined (d : StructDef V) (inner : Fields V) (A B : List (Field V)) : StructDef V :=
  { d with fields := A ++ (inner.fields ++ B) }

theorem tuple_dict_parse {d : StructDef V} (hs : d.shape = .unnamed) (ht : d.isTransparent = false)
    (hn : d.andThens = []) (mode : Mode) :
    d.dict.parse mode = parseDelimitedWith .paren (single (unnamedFlat d.data mode 0)) := by
  have hrun : ∀ r : Res (List V), runAndThens ([] : List (List V → Except SynErr (List V))) r = r := by
    intro r; cases r <;> rfl
  have : (unnamedFlat d.data mode 0).mapRes (runAndThens d.andThens) = unnamedFlat d.data mode 0 := by
    funext l; simp only [M.mapRes, hn, hrun]
  rw [← this]
  obtain ⟨shape, _, _, _, _, _⟩ := d
  cases hs
  rw [StructDef.dict, if_neg (by rw [ht]; decide)]
  rfl

/-- The same for the value `(a, b, c)` of a field or item whose type is the outer structure. -/
theorem c84_parenthesized {d : StructDef V} (hs : d.shape = .unnamed) (hn : d.andThens = [])
    (ht' : (d.inlined inner A B).isTransparent = false) (hi : TupleInlines d.data inner A B f)
    (hin : FlattensTuple f inner g) (mode : Mode) (s : Stream) (vs : List V) (s' : Stream) :
    d.dict.parse mode s = (.ok vs, s') ↔
      ∃ a ws b, vs = a ++ g ws :: b ∧ a.length = A.length ∧ ws.length = inner.fields.length ∧
        (d.inlined inner A B).dict.parse mode s = (.ok (a ++ (ws ++ b)), s') := by
  have ht : d.isTransparent = false := hi.fine.transparent
  have hdata : (d.inlined inner A B).data = d.data.inlined inner A B := by
    simp only [StructDef.data, Fields.inlined, ht, ht']
    rfl
  have e1 := tuple_dict_parse hs ht hn mode
  have e2 := tuple_dict_parse (d := d.inlined inner A B) hs ht' hn mode
  rw [hdata] at e2
  rw [e1]
  simp only [e2]
  have hsing : ∀ {F : M (List Stream) (List V)} {s v s1}, single F s = (.ok v, s1) ↔
      ∃ l, F [s] = (.ok v, l) ∧ l.headD s = s1 := by
    intro F s v s1
    simp only [single]
    generalize F [s] = x
    obtain ⟨r, l⟩ := x
    simp only [Prod.mk.injEq]
    exact ⟨fun ⟨h1, h2⟩ => ⟨l, ⟨h1, rfl⟩, h2⟩, fun ⟨l', ⟨h1, h2⟩, h3⟩ => ⟨h1, h2 ▸ h3⟩⟩
  constructor
  · intro h
    obtain ⟨w, ⟨a, ws, b, h1, h2, h3, rfl⟩, h5⟩ := delimited_rel (G := single (unnamedFlat (d.data.inlined inner A B) mode 0))
      (R := fun vs w => ∃ a ws b, vs = a ++ g ws :: b ∧ a.length = A.length ∧ ws.length = inner.fields.length ∧
        w = a ++ (ws ++ b)) (fun s v s1 hx => by
        obtain ⟨l, h1, h2⟩ := hsing.1 hx
        obtain ⟨a, ws, b, k1, k2, k3, k4⟩ := (c84_inline hi hin mode 0 s v l).1 h1
        exact ⟨_, ⟨a, ws, b, k1, k2, k3, rfl⟩, hsing.2 ⟨l, k4, h2⟩⟩) _ _ _ _ h
    exact ⟨a, ws, b, h1, h2, h3, h5⟩
  · rintro ⟨a, ws, b, rfl, h2, h3, h⟩
    obtain ⟨w, hw, h5⟩ := delimited_rel (G := single (unnamedFlat d.data mode 0))
      (R := fun w vs => ∀ a ws b, w = a ++ (ws ++ b) → a.length = A.length → ws.length = inner.fields.length →
        vs = a ++ g ws :: b) (fun s v s1 hx => by
        obtain ⟨l, h1, h2⟩ := hsing.1 hx
        have hlen : ∃ a ws b, v = a ++ (ws ++ b) ∧ a.length = A.length ∧ ws.length = inner.fields.length := by
          obtain ⟨_, _, _, _, hf⟩ := (unnamedFlat_one hi.fine mode 0 s v l).1 h1
          have := hf.1
          simp only [Fields.inlined, List.length_append] at this
          exact ⟨v.take A.length, (v.drop A.length).take inner.fields.length,
            (v.drop A.length).drop inner.fields.length, (by rw [List.take_append_drop, List.take_append_drop]),
            by simp; omega, by simp; omega⟩
        obtain ⟨a, ws, b, rfl, k2, k3⟩ := hlen
        refine ⟨a ++ g ws :: b, fun a' ws' b' e1 e2 e3 => ?_,
          hsing.2 ⟨l, (c84_inline hi hin mode 0 s _ l).2 ⟨a, ws, b, rfl, k2, k3, h1⟩, h2⟩⟩
        obtain ⟨rfl, e4⟩ := List.append_inj e1 (by rw [k2, e2])
        obtain ⟨rfl, rfl⟩ := List.append_inj e4 (by rw [k3, e3])
        rfl) _ _ _ _ h
    rw [hw a ws b rfl h2 h3] at h5
    exact h5

/-! ## Examples -/

/-- A field `bool`, a value being the list of the booleans in it -/
def boolField : Field (List Bool) := plainField [] (boolDict.map ([·]))

/-- A field `Option<bool>` -/
def optField : Field (List Bool) := plainField [] ((optionDict boolDict).map Option.toList)

/-- `struct Inner(bool, Option<bool>);` -/
def tupleInner : Fields (List Bool) := ⟨[boolField, optField], none, false, false, none, none, 0⟩

/-- A field `#[deluxe(flatten)] T` where `T` is this tuple structure -/
def tupleField (inner : Fields (List Bool)) : Field (List Bool) :=
  { plainField [] (boolDict.map ([·])) with
    idents := []
    flatten := some ⟨true, none⟩
    flatUnnamed := ⟨some inner.fields.length, fun mode index =>
      (unnamedFlat inner mode index).mapRes (Res.map List.flatten)⟩ }

/-- `struct Outer(bool, #[deluxe(flatten)] Inner, Option<bool>);` -/
def tupleOuter : StructDef (List Bool) where
  shape := .unnamed
  fields := [boolField, tupleField tupleInner, optField]
  default := none
  transparent := none
  allowUnknown := none
  andThens := []

omit [Env] in
theorem tupleFine_demo {d : Fields (List Bool)} (hf : ∀ f ∈ d.fields, f = boolField ∨ f = optField)
    (h1 : d.transparent = false) (h2 : d.target = none) (h3 : 0 < d.fields.countP (·.isParsable)) : TupleFine d where
  accepted := ⟨fun f h hp => by
    rcases hf f h with rfl | rfl <;> simp [boolField, optField, plainField, Field.isParsable, Field.isContainer] at hp,
    fun t ht => by rw [h2] at ht; cases ht⟩
  transparent := h1
  target := h2
  noAppendRest := fun f h => by rcases hf f h with rfl | rfl <;> exact ⟨rfl, rfl⟩
  steady := fun f h => by
    rcases hf f h with rfl | rfl
    · exact ⟨fun _ _ _ _ _ _ h => (by cases h), fun h => (by cases h), fun h => (by cases h)⟩
    · exact ⟨fun _ _ _ _ _ _ h => h, fun h => (by cases h), fun h => (by cases h)⟩
  item := fun f h _ => by
    rcases hf f h with rfl | rfl
    · exact (Dict.map_good _ boolDict_good).parse _
    · exact (Dict.map_good _ (optionDict_good boolDict_good)).parse _
  missing := fun f h n sp => by
    rcases hf f h with rfl | rfl
    · exact (Dict.map_good _ boolDict_good).missing n sp
    · exact (Dict.map_good _ (optionDict_good boolDict_good)).missing n sp
  flat := fun f h hp => by rcases hf f h with rfl | rfl <;> cases hp
  some := h3

theorem tupleInline_demo : TupleInlines tupleOuter.data tupleInner [boolField] [optField] (tupleField tupleInner) where
  fields := rfl
  flat := ⟨rfl, rfl, rfl, rfl⟩
  default := rfl
  transforms := rfl
  missing := fun n sp => (Dict.map_good _ boolDict_good).missing n sp
  fine := tupleFine_demo (fun f h => by
    simp only [Fields.inlined, tupleInner, List.cons_append, List.nil_append, List.mem_cons, List.not_mem_nil,
      or_false] at h
    rcases h with h | h | h | h <;> simp [h]) rfl rfl (Nat.succ_pos _)
  fine' := tupleFine_demo (fun f h => by
    simp only [tupleInner, List.mem_cons, List.not_mem_nil, or_false] at h
    exact h) rfl rfl (Nat.succ_pos _)
  obj := fun x _ _ => rfl

theorem tupleField_flattens (inner : Fields (List Bool)) : FlattensTuple (tupleField inner) inner List.flatten :=
  fun _ _ => rfl

/-- The tokens `true, false, None, Some(true)` -/
def tupleToks : List Tok := [.ident "true".toList 1, .punct ',' false 2, .ident "false".toList 3, .punct ',' false 4,
  .ident "None".toList 5, .punct ',' false 6, .ident "Some".toList 7, .group .paren [.ident "true".toList 8] 9 10]

theorem tuple_result : unnamedFlat (tupleOuter.data.inlined tupleInner [boolField] [optField]) .unnamed 0
    [⟨tupleToks, 11, none⟩] = (.ok [[true], [false], [], [true]], [⟨[], 11, none⟩]) := by rfl

/-- C84: `Outer` reads `true, false, None, Some(true)`, as does `struct Outer(bool, bool, Option<bool>, Option<bool>)`. -/
example : unnamedFlat tupleOuter.data .unnamed 0 [⟨tupleToks, 11, none⟩] =
    (.ok [[true], [false], [true]], [⟨[], 11, none⟩]) :=
  (c84_inline tupleInline_demo (tupleField_flattens _) _ _ _ _ _).2
    ⟨[[true]], [[false], []], [[true]], rfl, rfl, rfl, tuple_result⟩

/-- C84: the same in parentheses. -/
example : tupleOuter.dict.parse .unnamed ⟨[.group .paren tupleToks 10 11], 12, none⟩ =
    (.ok [[true], [false], [true]], ⟨[], 12, none⟩) :=
  (c84_parenthesized rfl rfl rfl tupleInline_demo (tupleField_flattens _) .unnamed _ _ _).2
    ⟨[[true]], [[false], []], [[true]], rfl, rfl, rfl, by rfl⟩

/-- Nothing is given for the field of the inner structure that may be left out, and the last one: `true, false`. -/
example : unnamedFlat tupleOuter.data .unnamed 0 [⟨tupleToks.take 3, 11, none⟩] =
    (.ok [[true], [false], []], [⟨[], 11, none⟩]) :=
  (c84_inline tupleInline_demo (tupleField_flattens _) _ _ _ _ _).2
    ⟨[[true]], [[false], []], [[]], rfl, rfl, rfl, by rfl⟩

/-! ## Where it fails -/

/-- `struct Outer(#[deluxe(flatten)] Inner, bool);` with `struct Inner(bool, bool, bool);` -/
def tupleOuter3 : Fields (List Bool) :=
  ⟨[tupleField ⟨[boolField, boolField, boolField], none, false, false, none, none, 0⟩, boolField],
    none, false, false, none, none, 0⟩

/-- With several attributes it is not so: `#[outer(true, false)] #[outer(true, false)]` is read by
`struct Outer(bool, bool, bool, bool)`, but not if the first three fields are flattened.  The flattened structure goes on
to the second attribute and stops before a comma there, and the outer one reads its next field from that comma
(core/parse_helpers.rs:518-534). -/
theorem c84_attributes_violated : ∃ (d inner : Fields (List Bool)) (A B : List (Field (List Bool)))
    (f : Field (List Bool)) (l : List Stream), TupleInlines d inner A B f ∧ FlattensTuple f inner List.flatten ∧
      (unnamedFlat (d.inlined inner A B) .unnamed 0 l).1 = .ok [[true], [false], [true], [false]] ∧
      ∃ e, (unnamedFlat d .unnamed 0 l).1 = .err e := by
  refine ⟨tupleOuter3, ⟨[boolField, boolField, boolField], none, false, false, none, none, 0⟩, [], [boolField],
    tupleField _, [⟨[.ident "true".toList 1, .punct ',' false 2, .ident "false".toList 3], 4, none⟩,
      ⟨[.ident "true".toList 5, .punct ',' false 6, .ident "false".toList 7], 8, none⟩], ?_, tupleField_flattens _, by rfl,
    _, by rfl⟩
  exact {
    fields := rfl
    flat := ⟨rfl, rfl, rfl, rfl⟩
    default := rfl
    transforms := rfl
    missing := fun n sp => (Dict.map_good _ boolDict_good).missing n sp
    fine := tupleFine_demo (fun f h => by
      simp only [Fields.inlined, List.cons_append, List.nil_append, List.mem_cons, List.not_mem_nil,
        or_false] at h
      rcases h with h | h | h | h <;> simp [h]) rfl rfl (Nat.succ_pos _)
    fine' := tupleFine_demo (fun f h => by
      simp only [List.mem_cons, List.not_mem_nil, or_false] at h
      rcases h with h | h | h <;> simp [h]) rfl rfl (Nat.succ_pos _)
    obj := fun x _ _ => rfl }

/-- Nor if the flattened structure has no parsed field: it then insists that the input has ended
(macros/types/field.rs:973-981), so `struct Outer(bool, #[deluxe(flatten)] Empty, bool)` does not read `true, false`. -/
theorem c84_empty_violated : ∃ (d inner : Fields (List Bool)) (A B : List (Field (List Bool)))
    (f : Field (List Bool)) (s : Stream), d.fields = A ++ f :: B ∧ f.Flattens none ∧ f.default = none ∧
      f.transforms = [] ∧ TupleFine (d.inlined inner A B) ∧ Accepted inner ∧ inner.target = none ∧
      FlattensTuple f inner List.flatten ∧
      (unnamedFlat (d.inlined inner A B) .unnamed 0 [s]).1 = .ok [[true], [false]] ∧
      ∃ e, (unnamedFlat d .unnamed 0 [s]).1 = .err e := by
  refine ⟨⟨[boolField, tupleField ⟨[], none, false, false, none, none, 0⟩, boolField],
    none, false, false, none, none, 0⟩, ⟨[], none, false, false, none, none, 0⟩, [boolField], [boolField],
    tupleField _, ⟨[.ident "true".toList 1, .punct ',' false 2, .ident "false".toList 3], 4, none⟩, rfl,
    ⟨rfl, rfl, rfl, rfl⟩, rfl, rfl, ?_, ⟨fun f h => (by cases h), fun t h => (by cases h)⟩, rfl, fun _ _ => rfl,
    by rfl, _, by rfl⟩
  exact tupleFine_demo (fun f h => by
      simp only [Fields.inlined, List.cons_append, List.nil_append, List.mem_cons, List.not_mem_nil,
        or_false] at h
      rcases h with h | h <;> simp [h]) rfl rfl (Nat.succ_pos _)

/-- Nor for the name alone, without parentheses: `struct Outer(#[deluxe(flatten)] Inner)` with
`struct Inner(Option<bool>)` accepts it, `struct Outer(Option<bool>)` does not (macros/types/field.rs:982-985). -/
theorem c84_flag_violated : ∃ (d : StructDef (List Bool)) (inner : Fields (List Bool)) (f : Field (List Bool)),
    TupleInlines d.data inner [] [] f ∧ FlattensTuple f inner List.flatten ∧ d.shape = .unnamed ∧ d.andThens = [] ∧
      (∀ sp, d.dict.flag sp = .ok [[]]) ∧ ∀ sp, ∃ e, (d.inlined inner [] []).dict.flag sp = .err e := by
  refine ⟨⟨.unnamed, [tupleField ⟨[optField], none, false, false, none, none, 0⟩], none, none, none, []⟩,
    ⟨[optField], none, false, false, none, none, 0⟩, tupleField _, ?_, tupleField_flattens _, rfl, rfl, fun sp => by rfl,
    fun sp => ⟨_, by rfl⟩⟩
  exact {
    fields := rfl
    flat := ⟨rfl, rfl, rfl, rfl⟩
    default := rfl
    transforms := rfl
    missing := fun n sp => (Dict.map_good _ boolDict_good).missing n sp
    fine := tupleFine_demo (fun f h => by
      simp only [Fields.inlined, List.append_nil, List.nil_append, List.mem_cons, List.not_mem_nil,
        or_false] at h
      simp [h]) rfl rfl (Nat.succ_pos _)
    fine' := tupleFine_demo (fun f h => by
      simp only [List.mem_cons, List.not_mem_nil, or_false] at h
      simp [h]) rfl rfl (Nat.succ_pos _)
    obj := fun x _ _ => rfl }

end

end Deluxe
