import Verif.Props.DefText
/-!
# Locations that cover several tokens (C108)
-/
namespace Deluxe

/-- Joining spans as on a nightly compiler: two spans have a join, which covers both. -/
structure Hull [Env] (covers : Span → Span → Prop) : Prop where
  refl : ∀ a, covers a a
  trans : ∀ {a b c}, covers a b → covers b c → covers a c
  join : ∀ a b, ∃ c, Env.join a b = some c ∧ covers c a ∧ covers c b

/-- The spans follow each other: what covers the first and the last covers those between. -/
def InOrder (covers : Span → Span → Prop) (sps : List Span) : Prop :=
  ∀ c a z, sps.head? = some a → sps.getLast? = some z → covers c a → covers c z → ∀ s ∈ sps, covers c s

variable [Env] {covers : Span → Span → Prop}

theorem pathSpan_covers (h : Hull covers) {pt : List Tok} (ho : InOrder covers (pt.map Tok.span)) :
    ∀ t ∈ pt, covers (pathSpan pt) t.span := by
  cases pt with
  | nil => intro t ht; cases ht
  | cons t ts =>
    intro s hs
    cases hl : (ts.map Tok.span).getLast? with
    | none =>
      have : ts = [] := by simpa using hl
      subst this
      rw [List.mem_singleton] at hs
      subst hs
      exact h.refl _
    | some z =>
      obtain ⟨c, h1, h2, h3⟩ := h.join t.span z
      have hp : pathSpan (t :: ts) = c := by simp [pathSpan, hl, h1]
      rw [hp]
      refine ho c t.span z rfl ?_ h2 h3 _ (List.mem_map_of_mem hs)
      rw [List.map_cons, List.getLast?_cons, hl]
      rfl

/-- C108: where spans can be joined, the place of a key, at which all messages about it are located, covers every
token of the key. -/
theorem c108_key (h : Hull covers) {lead : Bool} {segs : List Str} {pt rest : List Tok} {sc : Span} {u : Option Span}
    (hp : PathToks lead segs pt) (hr : ¬ StartsColon2 rest) (ho : InOrder covers (pt.map Tok.span)) :
    ∃ p, parseAnyPath ⟨pt ++ rest, sc, u⟩ = (.ok p, ⟨rest, sc, u⟩) ∧ p.segs = segs ∧
      ∀ t ∈ pt, covers p.span t.span :=
  ⟨_, parseAnyPath_key hp rest sc u hr, rfl, pathSpan_covers h ho⟩

/-- C108: where spans cannot be joined, as on a stable compiler, it is the place of its first token. -/
theorem c108_key_stable (h : ∀ a b, Env.join a b = none) {lead : Bool} {segs : List Str} {t : Tok} {pt rest : List Tok}
    {sc : Span} {u : Option Span} (hp : PathToks lead segs (t :: pt)) (hr : ¬ StartsColon2 rest) :
    ∃ p, parseAnyPath ⟨t :: pt ++ rest, sc, u⟩ = (.ok p, ⟨rest, sc, u⟩) ∧ p.segs = segs ∧ p.span = t.span := by
  refine ⟨_, parseAnyPath_key hp rest sc u hr, rfl, ?_⟩
  simp only [pathSpan, List.map_cons, List.headD_cons, List.tail_cons, h]
  split <;> rfl

theorem foldJoin_covers (h : Hull covers) (l : List Stream) (sp : Span) :
    covers (l.foldl (fun sp t => (Env.join sp t.span).getD sp) sp) sp ∧
    ∀ s ∈ l, covers (l.foldl (fun sp t => (Env.join sp t.span).getD sp) sp) s.span := by
  induction l generalizing sp with
  | nil => exact ⟨h.refl _, fun s hs => by cases hs⟩
  | cons s l ih =>
    obtain ⟨c, h1, h2, h3⟩ := h.join sp s.span
    obtain ⟨i1, i2⟩ := ih c
    rw [List.foldl_cons, h1, Option.getD_some]
    refine ⟨h.trans i1 h2, fun x hx => ?_⟩
    rcases List.mem_cons.1 hx with rfl | hx
    · exact h.trans i1 h3
    · exact i2 x hx

/-- C108: where spans can be joined, the place of several inputs, `inputs_span`, at which missing fields of positional
items and wrong lengths are located, covers the place of each. -/
theorem c108_inputs (h : Hull covers) (l : List Stream) : ∀ s ∈ l, covers (inputsSpan l) s.span := by
  intro s hs
  cases l with
  | nil => cases hs
  | cons t l =>
    obtain ⟨h1, h2⟩ := foldJoin_covers h l t.span
    rcases List.mem_cons.1 hs with rfl | hs
    · exact h1
    · exact h2 s hs

/-- C108: where spans cannot be joined, it is the place of the first input. -/
theorem c108_inputs_stable (h : ∀ a b, Env.join a b = none) (s : Stream) (l : List Stream) :
    inputsSpan (s :: l) = s.span := by
  rw [inputsSpan]
  induction l with
  | nil => rfl
  | cons t l ih => rw [List.foldl_cons, h, Option.getD_none]; exact ih

/-- C108: a key of three segments on a compiler that joins spans: the message about `a::b::c` covers all of it. -/
example : ∃ p, (@parseAnyPath ⟨fun a b => some (max a b), fun _ _ => 0, 0⟩ ⟨[.ident "a".toList 1, .punct ':' true 2,
      .punct ':' false 3, .ident "b".toList 4, .punct ':' true 5, .punct ':' false 6, .ident "c".toList 7] ++ [], 0, none⟩).1 =
      .ok p ∧ p.span = 7 := ⟨_, rfl, rfl⟩

/-- C108: its hypotheses hold there. -/
example : @Hull ⟨fun a b => some (max a b), fun _ _ => 0, 0⟩ (fun c a => a ≤ c) ∧
    InOrder (fun c a => a ≤ c) [1, 2, 3, 4, 5, 6, 7] := by
  refine ⟨@Hull.mk ⟨fun a b => some (max a b), fun _ _ => 0, 0⟩ _ Nat.le_refl (fun h1 h2 => Nat.le_trans h2 h1)
    fun a b => ⟨max a b, rfl, Nat.le_max_left .., Nat.le_max_right ..⟩, ?_⟩
  intro c a z _ hz _ hc s hs
  have hz : z = 7 := by simpa using hz.symm
  subst hz
  have : s ≤ 7 := by
    simp only [List.mem_cons, List.not_mem_nil, or_false] at hs
    rcases hs with rfl | rfl | rfl | rfl | rfl | rfl | rfl <;> decide
  exact Nat.le_trans this hc

end Deluxe
