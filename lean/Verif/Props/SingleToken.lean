import Verif.Props.Primitives
/-!
# C129: types whose values are single tokens are read exactly
-/
namespace Deluxe

/-! ## Specification -/

/-- Exactly one token is read, one of those that mean the value; nothing else is touched. -/
def ReadsToken {α : Type} (d : Dict α) (Means : Tok → α → Prop) : Prop :=
  ∀ m s s' v, d.parse m s = (.ok v, s') ↔ ∃ t rest, s.toks = t :: rest ∧ s' = { s with toks := rest } ∧ Means t v

/-- A bare name is an error, and so is an item left out, with the name of the field. -/
def NeedsValue {α : Type} (d : Dict α) : Prop :=
  (∀ sp, d.flag sp = .err (flagDisallowedError sp)) ∧ ∀ name sp, d.missing name sp = .err (missingFieldError name sp)

/-! ## Theorems -/

/-- **C129** for `u8`: a byte literal, or an integer literal below 256 without sign. -/
theorem c129_u8 : ReadsToken u8Dict (fun t v => ∃ sp, t = .lit (.byte v) sp ∨ (t = .lit (.int v) sp ∧ v < 256)) ∧
    NeedsValue u8Dict := by
  refine ⟨fun m s s' v => ?_, fun _ => rfl, fun _ _ => rfl⟩
  obtain ⟨ts, sc, u⟩ := s
  constructor
  · intro h
    unfold u8Dict Dict.mk' at h
    dsimp only at h
    split at h
    · rename_i b sp rest
      cases h
      exact ⟨_, _, rfl, rfl, sp, .inl rfl⟩
    · rename_i n sp rest
      split at h
      · rename_i hn
        cases h
        exact ⟨_, _, rfl, rfl, sp, .inr ⟨rfl, hn⟩⟩
      · cases h
    · cases h
    · cases h
  · rintro ⟨t, rest, hs, rfl, sp, rfl | ⟨rfl, hn⟩⟩
    · dsimp only at hs
      subst hs
      rfl
    · dsimp only at hs
      subst hs
      unfold u8Dict Dict.mk'
      dsimp only
      rw [if_pos hn]

/-- **C129** for `char`: a character literal. -/
theorem c129_char : ReadsToken charDict (fun t v => ∃ sp, t = .lit (.char v) sp) ∧ NeedsValue charDict := by
  refine ⟨fun m s s' v => ?_, fun _ => rfl, fun _ _ => rfl⟩
  change parseLitChar s = _ ↔ _
  simp only [parseLitChar, expectLit]
  constructor
  · intro h
    split at h
    · rename_i l rest hl
      split at h
      · rename_i a ha
        simp only [Prod.mk.injEq, Res.ok.injEq] at h
        obtain ⟨rfl, rfl⟩ := h
        split at ha <;> simp at ha
        subst ha
        revert hl
        unfold parseLitToks
        split
        · rename_i l' sp r hs
          intro hl
          simp only [Option.some.injEq, Prod.mk.injEq, LitVal.lit.injEq] at hl
          obtain ⟨rfl, rfl⟩ := hl
          exact ⟨_, r, hs, rfl, sp, rfl⟩
        · split
          · simp
          · split <;> simp
        · simp
        · simp
        · simp
      · simp at h
    · simp at h
  · rintro ⟨t, rest, hs, rfl, sp, rfl⟩
    simp [hs, parseLitToks]

/-- **C129** for identifiers: any one, also a keyword. -/
theorem c129_ident : ReadsToken identDict (fun t v => ∃ sp, t = .ident v sp) ∧ NeedsValue identDict := by
  refine ⟨fun m s s' v => ?_, fun _ => rfl, fun _ _ => rfl⟩
  obtain ⟨ts, sc, u⟩ := s
  constructor
  · intro h
    unfold identDict Dict.mk' parseIdentAny at h
    dsimp only at h
    split at h
    · rename_i x sp rest
      cases h
      exact ⟨_, _, rfl, rfl, sp, rfl⟩
    · cases h
  · rintro ⟨t, rest, hs, rfl, sp, rfl⟩
    dsimp only at hs
    subst hs
    rfl

/-- **C129** for `Literal`: any one. -/
theorem c129_literal : ReadsToken literalDict (fun t v => ∃ sp, t = .lit v sp) ∧ NeedsValue literalDict := by
  refine ⟨fun m s s' v => ?_, fun _ => rfl, fun _ _ => rfl⟩
  obtain ⟨ts, sc, u⟩ := s
  constructor
  · intro h
    unfold literalDict Dict.mk' at h
    dsimp only at h
    split at h
    · rename_i x sp rest
      cases h
      exact ⟨_, _, rfl, rfl, sp, rfl⟩
    · cases h
  · rintro ⟨t, rest, hs, rfl, sp, rfl⟩
    dsimp only at hs
    subst hs
    rfl

/-- **C129** for `Punct`: any one except the quote of a lifetime. -/
theorem c129_punct : ReadsToken punctDict (fun t v => ∃ j sp, t = .punct v j sp ∧ v ≠ '\'') ∧ NeedsValue punctDict := by
  refine ⟨fun m s s' v => ?_, fun _ => rfl, fun _ _ => rfl⟩
  obtain ⟨ts, sc, u⟩ := s
  constructor
  · intro h
    unfold punctDict Dict.mk' at h
    dsimp only at h
    split at h
    · rename_i c j sp rest
      split at h
      · cases h
      · rename_i hc
        cases h
        exact ⟨_, _, rfl, rfl, j, sp, rfl, hc⟩
    · cases h
  · rintro ⟨t, rest, hs, rfl, j, sp, rfl, hc⟩
    dsimp only at hs
    subst hs
    unfold punctDict Dict.mk'
    dsimp only
    rw [if_neg hc]

/-- **C129** for `Group`: any one, with its delimiter and its tokens. -/
theorem c129_group : ReadsToken groupDict (fun t v => ∃ a b, t = .group v.1 v.2 a b) ∧ NeedsValue groupDict := by
  refine ⟨fun m s s' v => ?_, fun _ => rfl, fun _ _ => rfl⟩
  obtain ⟨ts, sc, u⟩ := s
  constructor
  · intro h
    unfold groupDict Dict.mk' at h
    dsimp only at h
    split at h
    · rename_i d inner a b rest
      cases h
      exact ⟨_, _, rfl, rfl, a, b, rfl⟩
    · cases h
  · rintro ⟨t, rest, hs, rfl, a, b, rfl⟩
    dsimp only at hs
    subst hs
    rfl

/-- **C129** for `TokenTree`: any token, as itself. -/
theorem c129_tokenTree : ReadsToken tokenTreeDict (fun t v => t = v) ∧ NeedsValue tokenTreeDict := by
  refine ⟨fun m s s' v => ?_, fun _ => rfl, fun _ _ => rfl⟩
  obtain ⟨ts, sc, u⟩ := s
  constructor
  · intro h
    unfold tokenTreeDict Dict.mk' at h
    dsimp only at h
    split at h
    · rename_i t rest
      cases h
      exact ⟨_, _, rfl, rfl, rfl⟩
    · cases h
  · rintro ⟨t, rest, hs, rfl, rfl⟩
    dsimp only at hs
    subst hs
    rfl

/-- **C129.**  Whatever is not read is an error, never a panic. -/
theorem c129_otherwise (m : Mode) (s : Stream) :
    (∀ r, r = (u8Dict.parse m s).1 → (∃ v, r = .ok v) ∨ ∃ e, r = .err e) ∧
    (∀ r, r = (charDict.parse m s).1 → (∃ v, r = .ok v) ∨ ∃ e, r = .err e) ∧
    (∀ r, r = (identDict.parse m s).1 → (∃ v, r = .ok v) ∨ ∃ e, r = .err e) ∧
    (∀ r, r = (literalDict.parse m s).1 → (∃ v, r = .ok v) ∨ ∃ e, r = .err e) ∧
    (∀ r, r = (punctDict.parse m s).1 → (∃ v, r = .ok v) ∨ ∃ e, r = .err e) ∧
    (∀ r, r = (groupDict.parse m s).1 → (∃ v, r = .ok v) ∨ ∃ e, r = .err e) ∧
    (∀ r, r = (tokenTreeDict.parse m s).1 → (∃ v, r = .ok v) ∨ ∃ e, r = .err e) := by
  have key : ∀ {α : Type} (d : Dict α), d.Good → ∀ r, r = (d.parse m s).1 → (∃ v, r = .ok v) ∨ ∃ e, r = .err e := by
    intro α d h r hr
    cases r with
    | ok v => exact .inl ⟨v, rfl⟩
    | err e => exact .inr ⟨e, rfl⟩
    | panic => exact absurd hr.symm (h.parse m s).1
  exact ⟨key _ u8Dict_good, key _ charDict_good, key _ identDict_good, key _ literalDict_good, key _ punctDict_good,
    key _ groupDict_good, key _ tokenTreeDict_good⟩

/-! ## Concrete cases -/

/-- C129: `b'A'` and `65` are the same `u8`, `256` and `-1` are none. -/
example : u8Dict.parse .unnamed ⟨[.lit (.byte 65) 1, .punct ',' false 2], 9, none⟩ =
      (.ok 65, ⟨[.punct ',' false 2], 9, none⟩) ∧
    u8Dict.parse .unnamed ⟨[.lit (.int 65) 1, .punct ',' false 2], 9, none⟩ =
      (.ok 65, ⟨[.punct ',' false 2], 9, none⟩) ∧
    ((u8Dict.parse .unnamed ⟨[.lit (.int 256) 1], 9, none⟩).1 matches .err _) ∧
    ((u8Dict.parse .unnamed ⟨[.punct '-' false 1, .lit (.int 1) 2], 9, none⟩).1 matches .err _) := ⟨rfl, rfl, rfl, rfl⟩

/-- C129: a character; a group is one token with all that is in it. -/
example : charDict.parse .unnamed ⟨[.lit (.char 'x') 1, .ident ['y'] 2], 9, none⟩ =
      (.ok 'x', ⟨[.ident ['y'] 2], 9, none⟩) ∧
    groupDict.parse .unnamed ⟨[.group .paren [.punct ',' false 1] 2 3, .ident ['y'] 4], 9, none⟩ =
      (.ok (.paren, [.punct ',' false 1]), ⟨[.ident ['y'] 4], 9, none⟩) ∧
    ((punctDict.parse .unnamed ⟨[.punct '\'' true 1, .ident ['a'] 2], 9, none⟩).1 matches .err _) ∧
    ((literalDict.parse .unnamed ⟨[.ident "true".toList 1], 9, none⟩).1 matches .err _) := ⟨rfl, rfl, rfl, rfl⟩

end Deluxe
