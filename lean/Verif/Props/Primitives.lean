import Verif.Lemmas.Types
/-!
# C61, C62: spans of `SpannedValue` and primitive values
-/
namespace Deluxe

/-! ## C61 -/

/-- C61, the part that holds.  A bare name gives the span of the name.  Where spans cannot be joined
(the stable compiler), the span of a positional value is that of its first token and the span of a
named value is that of its name. -/
theorem c61_start_partial [Env] {α : Type} (d : Dict α) (w : Spanned α) :
    (∀ sp, (spannedDict d).flag sp = .ok w → w.span = sp) ∧
    ((∀ a b, Env.join a b = none) → ∀ m t rest sc u s',
      (spannedDict d).parse m ⟨t :: rest, sc, u⟩ = (.ok w, s') → w.span = t.span) ∧
    ((∀ a b, Env.join a b = none) → ∀ name sp s s',
      (spannedDict d).named name sp s = (.ok w, s') → w.span = sp) := by
  refine ⟨?_, ?_, ?_⟩
  · intro sp h
    simp only [spannedDict] at h
    cases hd : d.flag sp <;> simp [hd, Res.map] at h
    rw [← h]
  · intro hj m t rest sc u s' h
    simp only [spannedDict] at h
    cases hd : d.parse m ⟨t :: rest, sc, u⟩ with
    | mk r s1 =>
      cases r <;> simp [hd, Res.map, hj] at h
      obtain ⟨rfl, rfl⟩ := h; rfl
  · intro hj name sp s s' h
    simp only [spannedDict] at h
    cases hd : d.named name sp s with
    | mk r s1 =>
      cases r <;> simp [hd, Res.map, hj] at h
      obtain ⟨rfl, rfl⟩ := h; rfl

/-- Spans as positions: joining gives the later one. -/
@[instance_reducible] def positions : Env where
  join a b := some (max a b)
  sim _ _ := 0
  simMin := 0

/-- C61 is false at the end of the value: the span of `true` in `true, x` reaches to the comma. -/
theorem c61_end_violated : ∃ (s s' : Stream) (w : Spanned Bool), s.toks.head?.map Tok.span = some 1 ∧
    (@spannedDict positions Bool boolDict).parse .unnamed s = (.ok w, s') ∧
    s'.toks.head?.map Tok.span = some 2 ∧ w.span = 2 :=
  ⟨⟨[.ident "true".toList 1, .punct ',' false 2, .ident ['x'] 3], 9, none⟩, _, _, rfl, rfl, rfl, rfl⟩

/-- Non-trivial case: a bare `SpannedValue<bool>`. -/
example [Env] : (spannedDict boolDict).flag 7 = .ok ⟨true, 7⟩ := rfl

/-! ## C62 -/

/-- The token of a boolean. -/
def boolName (b : Bool) : Str := if b then "true".toList else "false".toList

/-- C62 for `bool`: exactly the token `true` or `false` is read, as itself; a bare name means true. -/
theorem c62_bool (m : Mode) (s s' : Stream) (b : Bool) :
    (boolDict.parse m s = (.ok b, s') ↔
      ∃ sp rest, s.toks = .ident (boolName b) sp :: rest ∧ s' = { s with toks := rest }) ∧
    ∀ sp, boolDict.flag sp = .ok true := by
  refine ⟨?_, fun _ => rfl⟩
  change parseLitBool s = _ ↔ _
  simp only [parseLitBool, expectLit]
  constructor
  · intro h
    split at h
    · rename_i l rest hl
      split at h
      · rename_i a ha
        simp only [Prod.mk.injEq, Res.ok.injEq] at h
        obtain ⟨rfl, rfl⟩ := h
        split at ha <;> simp at ha
        subst ha
        revert hl
        unfold parseLitToks
        split
        · simp
        · rename_i x sp r hs
          split
          · rename_i hx
            intro hl
            simp only [Option.some.injEq, Prod.mk.injEq, LitVal.bool.injEq] at hl
            obtain ⟨rfl, rfl⟩ := hl
            exact ⟨sp, r, by rw [hs, hx]; rfl, rfl⟩
          · split
            · rename_i hx
              intro hl
              simp only [Option.some.injEq, Prod.mk.injEq, LitVal.bool.injEq] at hl
              obtain ⟨rfl, rfl⟩ := hl
              exact ⟨sp, r, by rw [hs, hx]; rfl, rfl⟩
            · simp
        · simp
        · simp
        · simp
      · simp at h
    · simp at h
  · rintro ⟨sp, rest, hs, rfl⟩
    cases b <;> simp [hs, parseLitToks, boolName]

/-- C62 for strings: exactly one string literal is read and its value is the result. -/
theorem c62_string (m : Mode) (s s' : Stream) (v : Str) :
    stringDict.parse m s = (.ok v, s') ↔
      ∃ sp rest, s.toks = .lit (.str v) sp :: rest ∧ s' = { s with toks := rest } := by
  change parseLitStr s = _ ↔ _
  simp only [parseLitStr, expectLit]
  constructor
  · intro h
    split at h
    · rename_i l rest hl
      split at h
      · rename_i a ha
        simp only [Prod.mk.injEq, Res.ok.injEq] at h
        obtain ⟨rfl, rfl⟩ := h
        split at ha <;> simp at ha
        subst ha
        revert hl
        unfold parseLitToks
        split
        · rename_i l' sp r hs
          intro hl
          simp only [Option.some.injEq, Prod.mk.injEq, LitVal.lit.injEq] at hl
          obtain ⟨rfl, rfl⟩ := hl
          exact ⟨sp, r, hs, rfl⟩
        · split
          · simp
          · split <;> simp
        · simp
        · simp
        · simp
      · simp at h
    · simp at h
  · rintro ⟨sp, rest, hs, rfl⟩
    simp [hs, parseLitToks]

/-- The tokens of an integer: a literal, or `-` and a literal. -/
inductive IntToks : Bool × Nat → List Tok → Prop
  | pos {n sp} : IntToks (false, n) [.lit (.int n) sp]
  | neg {n j a b} : IntToks (true, n) [.punct '-' j a, .lit (.int n) b]

/-- C62 for integers: exactly one integer, with or without sign, is read, and it is accepted exactly
when it fits the type. -/
theorem c62_int {α : Type} (conv : Bool × Nat → Option α) (m : Mode) (s s' : Stream) (v : α) :
    (intDict conv).parse m s = (.ok v, s') ↔
      ∃ n ts rest, IntToks n ts ∧ s.toks = ts ++ rest ∧ s' = { s with toks := rest } ∧
        conv n = some v := by
  have key : ∀ n s', parseLitInt s = (.ok n, s') ↔
      ∃ ts rest, IntToks n ts ∧ s.toks = ts ++ rest ∧ s' = { s with toks := rest } := by
    intro n s'
    simp only [parseLitInt, expectLit]
    constructor
    · intro h
      split at h
      · rename_i l rest hl
        split at h
        · rename_i a ha
          simp only [Prod.mk.injEq, Res.ok.injEq] at h
          obtain ⟨rfl, rfl⟩ := h
          revert hl
          unfold parseLitToks
          split
          · rename_i l' sp r hs
            intro hl
            simp only [Option.some.injEq, Prod.mk.injEq] at hl
            obtain ⟨rfl, rfl⟩ := hl
            cases l' <;> simp at ha
            subst ha
            exact ⟨_, r, .pos, hs, rfl⟩
          · split
            · rintro ⟨⟩; simp at ha
            · split
              · rintro ⟨⟩; simp at ha
              · simp
          · rename_i hs
            rintro ⟨⟩
            simp at ha
            subst ha
            exact ⟨_, _, .neg, hs, rfl⟩
          · rintro ⟨⟩; simp at ha
          · simp
        · simp at h
      · simp at h
    · rintro ⟨ts, rest, h1, h2, rfl⟩
      cases h1 <;> simp [h2, parseLitToks]
  simp only [intDict, Dict.mk']
  cases h : parseLitInt s with
  | mk r s1 =>
    cases r with
    | ok n =>
      obtain ⟨ts, rest, h1, h2, rfl⟩ := (key n s1).1 h
      simp only
      constructor
      · intro h3
        cases hc : conv n with
        | none => simp [hc] at h3
        | some a =>
          simp only [hc, Prod.mk.injEq, Res.ok.injEq] at h3
          obtain ⟨rfl, rfl⟩ := h3
          exact ⟨n, ts, rest, h1, h2, rfl, hc⟩
      · rintro ⟨n', ts', rest', h1', h2', rfl, hc⟩
        have := (key n' _).2 ⟨ts', rest', h1', h2', rfl⟩
        rw [h] at this
        simp only [Prod.mk.injEq, Res.ok.injEq] at this
        obtain ⟨rfl, h5⟩ := this
        simp only [hc]
        rw [h5]
    | err e =>
      simp only
      constructor
      · simp
      · rintro ⟨n', ts', rest', h1', h2', rfl, hc⟩
        have := (key n' _).2 ⟨ts', rest', h1', h2', rfl⟩
        rw [h] at this
        simp at this
    | panic =>
      simp only
      constructor
      · simp
      · rintro ⟨n', ts', rest', h1', h2', rfl, hc⟩
        have := (key n' _).2 ⟨ts', rest', h1', h2', rfl⟩
        rw [h] at this
        simp at this

/-- C62: a bare name is an error for strings and integers, and an omitted primitive is an error that
names the field. -/
theorem c62_bare_and_missing {α : Type} (conv : Bool × Nat → Option α) (name : Str) (sp : Span) :
    stringDict.flag sp = .err (flagDisallowedError sp) ∧
    (intDict conv).flag sp = .err (flagDisallowedError sp) ∧
    boolDict.missing name sp = .err (missingFieldError name sp) ∧
    stringDict.missing name sp = .err (missingFieldError name sp) ∧
    (intDict conv).missing name sp = .err (missingFieldError name sp) :=
  ⟨rfl, rfl, rfl, rfl, rfl⟩

/-- Non-trivial case: `-5` as a signed number. -/
example : (intDict fun n => some (if n.1 then -(n.2 : Int) else n.2)).parse .unnamed
    ⟨[.punct '-' false 1, .lit (.int 5) 2, .punct ',' false 3], 9, none⟩ =
    (.ok (-5), ⟨[.punct ',' false 3], 9, none⟩) := rfl

end Deluxe
