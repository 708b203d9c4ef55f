import Verif.Lemmas.Progress
/-!
# Invariant rule for the positional loop
-/
namespace Deluxe

/-- What is known after a (partial) run of the positional loop: no panic, streams moved forward, and
the invariant holds for the number of calls made. -/
structure TupleInv {κ β : Type} (I : Nat → κ → Prop) (len : Nat) (count : β → Nat)
    (l : List Stream) (r : Res β × (κ × List Stream)) : Prop where
  noPanic : r.1 ≠ .panic
  adv : AdvL r.2.2 l
  ok : ∀ b, r.1 = .ok b → count b ≤ len ∧ I (count b) r.2.1
  err : ∀ e, r.1 = .err e → ∃ c, c ≤ len ∧ I c r.2.1

variable {κ : Type}

/-- One round of the positional loop. -/
theorem tupleLoop_cons (func : Nat → M (κ × List Stream) Unit) (rem c : Nat) (k : κ) (s : Stream)
    (rest : List Stream) :
    tupleLoop func rem c (k, s :: rest) =
      if s.isEmpty then (.ok (c, false), (k, s :: rest))
      else match rem with
        | 0 => (.ok (c, true), (k, s :: rest))
        | rem + 1 =>
          match func c (k, s :: rest) with
          | (.ok (), st1) =>
            if (st1.2.headD s).isEmpty || rem == 0 then tupleLoop func rem (c + 1) st1
            else match onHead parseComma st1 with
              | (.ok (), st2) => tupleLoop func rem (c + 1) st2
              | (.err e, st2) => (.err e, st2)
              | (.panic, st2) => (.panic, st2)
          | (.err e, st1) => (.err e, st1)
          | (.panic, st1) => (.panic, st1) := by
  cases rem with
  | zero =>
    simp only [tupleLoop]
    cases s.isEmpty <;> rfl
  | succ rem =>
    simp only [tupleLoop]
    split
    · rfl
    · simp only [Bind.bind, M.bind, M.get]
      cases h : func c (k, s :: rest) with
      | mk r st1 =>
        cases r with
        | ok a =>
          simp only
          split
          · rfl
          · refine Eq.trans (M.bind_apply _ _ _) ?_
            cases h2 : onHead parseComma st1 with
            | mk rc sc => cases rc <;> rfl
        | err e => rfl
        | panic => rfl

theorem tupleLoop_nil (func : Nat → M (κ × List Stream) Unit) (rem c : Nat) (k : κ) :
    tupleLoop func rem c (k, []) = (.ok (c, false), (k, [])) := by
  cases rem <;> rfl

theorem tupleLoop_inv {func : Nat → M (κ × List Stream) Unit} {I : Nat → κ → Prop} {len : Nat}
    (hf : ∀ c k s rest, c < len → I c k → s.isEmpty = false →
      TupleInv (β := Unit) I len (fun _ => c + 1) (s :: rest) (func c (k, s :: rest))) :
    ∀ (rem c : Nat) (k : κ) (l : List Stream), c + rem = len → I c k →
      TupleInv I len (fun b : Nat × Bool => b.1) l (tupleLoop func rem c (k, l)) := by
  intro rem
  induction rem with
  | zero =>
    intro c k l hc hi
    cases l with
    | nil =>
      rw [tupleLoop_nil]
      exact ⟨by simp, .refl _, fun b hb => by cases hb; exact ⟨by omega, hi⟩, fun e he => by cases he⟩
    | cons s rest =>
      rw [tupleLoop_cons]
      split <;>
      exact ⟨by simp, .refl _, fun b hb => by cases hb; exact ⟨by simp; omega, hi⟩,
        fun e he => by cases he⟩
  | succ rem ih =>
    intro c k l hc hi
    cases l with
    | nil =>
      rw [tupleLoop_nil]
      exact ⟨by simp, .refl _, fun b hb => by cases hb; exact ⟨by omega, hi⟩, fun e he => by cases he⟩
    | cons s rest =>
      rw [tupleLoop_cons]
      split
      · exact ⟨by simp, .refl _, fun b hb => by cases hb; exact ⟨by simp; omega, hi⟩,
          fun e he => by cases he⟩
      · rename_i hne
        simp only
        have h := hf c k s rest (by omega) hi (by simpa using hne)
        cases hfc : func c (k, s :: rest) with
        | mk r st1 =>
          rw [hfc] at h
          obtain ⟨k1, l1⟩ := st1
          cases r with
          | ok a =>
            simp only
            obtain ⟨h1, h2⟩ := h.ok () rfl
            split
            · have := ih (c + 1) k1 l1 (by omega) h2
              exact ⟨this.noPanic, this.adv.trans h.adv, this.ok, this.err⟩
            · have hadv := h.adv
              cases l1 with
              | nil => cases hadv
              | cons s1 rest1 =>
                have hg := onHead_good parseComma_good k1 s1 rest1
                have hk : (onHead parseComma (k1, s1 :: rest1)).2.1 = k1 := rfl
                cases hoh : onHead parseComma (k1, s1 :: rest1) with
                | mk rc st2 =>
                  rw [hoh] at hg hk
                  obtain ⟨k2, l2⟩ := st2
                  simp only at hk
                  subst hk
                  cases rc with
                  | ok a =>
                    simp only
                    have := ih (c + 1) k2 l2 (by omega) h2
                    exact ⟨this.noPanic, this.adv.trans (hg.2.trans hadv), this.ok, this.err⟩
                  | err e =>
                    exact ⟨by simp, hg.2.trans hadv, fun b hb => (by cases hb),
                      fun e he => ⟨c + 1, by omega, h2⟩⟩
                  | panic => exact absurd rfl hg.1
          | err e => exact ⟨by simp, h.adv, fun b hb => (by cases hb), fun _ _ => h.err e rfl⟩
          | panic => exact absurd rfl h.noPanic

theorem parseTupleStruct_inv {func : Nat → M (κ × List Stream) Unit} {I : Nat → κ → Prop} {len : Nat}
    (hf : ∀ c k s rest, c < len → I c k → s.isEmpty = false →
      TupleInv (β := Unit) I len (fun _ => c + 1) (s :: rest) (func c (k, s :: rest)))
    (k : κ) (l : List Stream) (hi : I 0 k) :
    TupleInv I len (fun c : Nat => c) l (parseTupleStruct func len (k, l)) := by
  show TupleInv I len (fun c : Nat => c) l (parseTupleStruct.go func len l.length 0 (k, l))
  suffices h : ∀ (n c : Nat) (k : κ) (l : List Stream), c ≤ len → I c k →
      TupleInv I len (fun c : Nat => c) l (parseTupleStruct.go func len n c (k, l)) from
    h _ _ _ _ (Nat.zero_le _) hi
  intro n
  induction n with
  | zero =>
    intro c k l hc hi
    exact ⟨by simp [parseTupleStruct.go], .refl _, fun b hb => by
      simp only [parseTupleStruct.go, Res.ok.injEq] at hb; subst hb; exact ⟨hc, hi⟩,
      fun e he => by simp [parseTupleStruct.go] at he⟩
  | succ n ih =>
    intro c k l hc hi
    have h := tupleLoop_inv hf (len - c) c k l (by omega) hi
    simp only [parseTupleStruct.go]
    cases ht : tupleLoop func (len - c) c (k, l) with
    | mk r st =>
      rw [ht] at h
      obtain ⟨k1, l1⟩ := st
      cases r with
      | ok b =>
        obtain ⟨c1, b⟩ := b
        obtain ⟨h1, h2⟩ := h.ok _ rfl
        cases b with
        | true =>
          exact ⟨by simp, h.adv, fun b hb => by cases hb; exact ⟨h1, h2⟩, fun e he => by cases he⟩
        | false =>
          cases l1 with
          | nil =>
            exact ⟨by simp, h.adv, fun b hb => by cases hb; exact ⟨h1, h2⟩, fun e he => by cases he⟩
          | cons s1 rest1 =>
            have hadv := h.adv
            cases hadv with
            | cons ha hr =>
              have := ih c1 k1 rest1 h1 h2
              exact ⟨this.noPanic, .cons ha (this.adv.trans hr), this.ok, this.err⟩
      | err e => exact ⟨by simp, h.adv, fun b hb => (by cases hb), fun _ _ => h.err e rfl⟩
      | panic => exact absurd rfl h.noPanic

/-- Without an invariant: the positional loop is good if the callback is. -/
theorem parseTupleStruct_good {func : Nat → M (κ × List Stream) Unit} {len : Nat}
    (hf : ∀ c, Good (func c)) : Good (parseTupleStruct func len) := by
  rintro ⟨k, l⟩
  have := parseTupleStruct_inv (I := fun _ _ => True) (len := len) (func := func)
    (fun c k s rest hc _ _ => ⟨(hf c _).1, (hf c _).2, fun _ _ => ⟨hc, trivial⟩,
      fun _ _ => ⟨0, Nat.zero_le _, trivial⟩⟩) k l trivial
  exact ⟨this.noPanic, this.adv⟩

end Deluxe
