import Verif.Props.Tokens
/-!
# Progress: streams only move forward, parsers do not panic

`Adv s' s` says that `s'` is a later state of the buffer `s`.  `Good m` says that `m` never panics and
only moves its streams forward.
-/
namespace Deluxe

/-- `s'` is a later state of the same buffer: what remains is a suffix, the end position is the same,
and an unexpected token once recorded stays recorded. -/
structure Adv (s' s : Stream) : Prop where
  toks : s'.toks <:+ s.toks
  scope : s'.scope = s.scope
  unexp : s.unexp.isSome → s'.unexp = s.unexp

theorem Adv.refl (s : Stream) : Adv s s := ⟨List.suffix_refl _, rfl, fun _ => rfl⟩

theorem Adv.trans {a b c : Stream} (h1 : Adv a b) (h2 : Adv b c) : Adv a c :=
  ⟨h1.toks.trans h2.toks, h1.scope.trans h2.scope, fun h => by
    have := h2.unexp h
    rw [← this, h1.unexp (by rw [this]; exact h)]⟩

theorem Adv.length {a b : Stream} (h : Adv a b) : a.toks.length ≤ b.toks.length := h.toks.length_le

theorem Adv.toks_of (s : Stream) {ts : List Tok} (h : ts <:+ s.toks) : Adv { s with toks := ts } s :=
  ⟨h, rfl, fun _ => rfl⟩

theorem Adv.tail (s : Stream) : Adv { s with toks := s.toks.tail } s :=
  .toks_of s (List.tail_suffix _)

/-- Pointwise `Adv` on lists of buffers. -/
inductive AdvL : List Stream → List Stream → Prop
  | nil : AdvL [] []
  | cons {a b as bs} : Adv a b → AdvL as bs → AdvL (a :: as) (b :: bs)

theorem AdvL.refl : (l : List Stream) → AdvL l l
  | [] => .nil
  | s :: l => .cons (.refl s) (AdvL.refl l)

theorem AdvL.trans {a b c : List Stream} (h1 : AdvL a b) (h2 : AdvL b c) : AdvL a c := by
  induction h1 generalizing c with
  | nil => exact h2
  | cons h h1 ih => cases h2 with
    | cons h' h2 => exact .cons (h.trans h') (ih h2)

theorem AdvL.length {a b : List Stream} (h : AdvL a b) : a.length = b.length := by
  induction h <;> simp [*]

/-- States with a notion of "later". -/
class Prog (σ : Type) where
  le : σ → σ → Prop
  refl : ∀ s, le s s
  trans : ∀ {a b c}, le a b → le b c → le a c

instance : Prog Stream := ⟨Adv, Adv.refl, Adv.trans⟩
instance : Prog (List Stream) := ⟨AdvL, AdvL.refl, AdvL.trans⟩
instance {κ σ : Type} [Prog σ] : Prog (κ × σ) :=
  ⟨fun a b => Prog.le a.2 b.2, fun s => Prog.refl s.2, fun h1 h2 => Prog.trans h1 h2⟩

/-- The computation never panics (nor loops forever) and only moves forward. -/
def Good {σ α : Type} [Prog σ] (m : M σ α) : Prop := ∀ s, (m s).1 ≠ .panic ∧ Prog.le (m s).2 s

section
variable {σ α β κ : Type} [Prog σ]

theorem Good.pure (a : α) : Good (pure a : M σ α) := fun s => ⟨by simp [Pure.pure, M.pure], Prog.refl s⟩

theorem Good.bind {m : M σ α} {f : α → M σ β} (hm : Good m) (hf : ∀ a, Good (f a)) :
    Good (m >>= f) := by
  intro s
  obtain ⟨h1, h2⟩ := hm s
  simp only [Bind.bind, M.bind]
  cases h : m s with
  | mk r s' =>
    rw [h] at h1 h2
    cases r with
    | ok a => exact ⟨(hf a s').1, Prog.trans (hf a s').2 h2⟩
    | err e => exact ⟨by simp, h2⟩
    | panic => simp at h1

theorem Good.fail (e : SynErr) : Good (M.fail e : M σ α) := fun s => ⟨by simp [M.fail], Prog.refl s⟩

theorem Good.get : Good (M.get : M σ σ) := fun s => ⟨by simp [M.get], Prog.refl s⟩

theorem Good.lift {r : Res α} (h : r ≠ .panic) : Good (M.lift r : M σ α) := fun s => ⟨h, Prog.refl s⟩

theorem Good.onSnd {m : M σ α} (hm : Good m) : Good (M.onSnd m : M (κ × σ) α) :=
  fun st => ⟨(hm st.2).1, (hm st.2).2⟩

theorem Good.map {m : M σ α} (f : α → β) (hm : Good m) : Good (m.map f) := by
  intro s
  obtain ⟨h1, h2⟩ := hm s
  simp only [M.map]
  refine ⟨?_, h2⟩
  cases h : (m s).1 <;> simp [Res.map, h] at *

end

/-! ## Token level helpers -/

theorem parsePunct_good (c : Char) : Good (parsePunct c) := by
  intro s
  unfold parsePunct
  split
  · rename_i t rest h
    split
    · exact ⟨by simp, .toks_of s (by rw [h]; exact List.suffix_cons _ _)⟩
    · exact ⟨by simp, .refl s⟩
  · exact ⟨by simp, .refl s⟩

theorem parseComma_good : Good parseComma := parsePunct_good ','

theorem parseNothing_good : Good parseNothing := fun s => ⟨by simp [parseNothing], Adv.refl s⟩

theorem parseEof_good : Good parseEof := by
  intro s
  have h4 := c04_eof s
  by_cases hs : AtEnd s.toks
  · rw [h4.1 hs]; exact ⟨by simp, .toks_of s (List.nil_suffix)⟩
  · obtain ⟨t, rest, _, _, h3⟩ | ⟨c, t, r, _, h, h3⟩ := h4.2 hs
    · rw [h3]; exact ⟨by simp, .refl s⟩
    · rw [h3]; exact ⟨by simp, .toks_of s (by rw [h]; exact List.suffix_cons _ _)⟩

theorem enter_adv {d : Delim} {s c s' : Stream} (h : enter d s = .ok (c, s')) :
    (∃ inner sp close rest, s.toks = .group d inner sp close :: rest ∧ c = ⟨inner, close, s.unexp⟩ ∧
      s' = { s with toks := rest }) := by
  unfold enter at h
  split at h
  · rename_i d' inner sp close rest ht
    split at h
    · rename_i hd
      simp only [Except.ok.injEq, Prod.mk.injEq] at h
      obtain ⟨rfl, rfl⟩ := h
      exact ⟨inner, sp, close, rest, by rw [ht, hd], rfl, rfl⟩
    · simp at h
  · simp at h

theorem withContent_good {α} (d : Delim) {f : M Stream α} (hf : Good f) : Good (withContent d f) := by
  intro s
  unfold withContent
  split
  · exact ⟨by simp, .refl s⟩
  · rename_i c s' he
    obtain ⟨inner, sp, close, rest, h1, rfl, rfl⟩ := enter_adv he
    obtain ⟨g1, g2⟩ := hf ⟨inner, close, s.unexp⟩
    refine ⟨g1, ⟨by rw [h1]; exact List.suffix_cons _ _, rfl, fun hu => ?_⟩⟩
    have := g2.unexp hu
    simp only [Stream.dropChild]
    rw [this]
    simp only at hu ⊢
    cases hx : s.unexp with
    | none => rw [hx] at hu; simp at hu
    | some x => rfl

theorem parseDelimitedWith_good {α} (d : Delim) {f : M Stream α} (hf : Good f) :
    Good (parseDelimitedWith d f) :=
  withContent_good d (hf.bind fun _ => parseEof_good.bind fun _ => .pure _)

theorem single_good {α} {f : M (List Stream) α} (hf : Good f) : Good (single f) := by
  intro s
  obtain ⟨h1, h2⟩ := hf [s]
  unfold single
  generalize f [s] = r at h1 h2
  obtain ⟨r, l⟩ := r
  cases h2 with
  | cons h h2 => exact ⟨h1, h⟩

theorem parse2_ne_panic {α} {f : M Stream α} (hf : Good f) (ts : List Tok) : parse2 f ts ≠ .panic := by
  unfold parse2
  have := (hf ⟨ts, callSite, none⟩).1
  split
  · split
    · simp
    · split <;> simp
  · simp
  · rename_i h; rw [h] at this; simp at this

theorem parseEmpty_ne_panic {α} {f : M Stream α} (hf : Good f) (sp : Span) :
    parseEmpty sp f ≠ .panic := by
  unfold parseEmpty
  split
  · simp
  · exact parse2_ne_panic hf []

theorem parseFirst_good {α} {f : Mode → M Stream α} (hf : ∀ m, Good (f m)) (m : Mode) :
    Good (parseFirst f m) := by
  intro l
  cases l with
  | nil => exact ⟨parseEmpty_ne_panic (hf m) _, .nil⟩
  | cons s rest =>
    have := ((hf m).bind fun ret => parseEof_good.bind fun _ => Good.pure ret) s
    exact ⟨this.1, .cons this.2 (.refl rest)⟩

theorem parseAnyPath_good [Env] : Good parseAnyPath := by
  intro s
  have hlead : (leadColon s.toks).2 <:+ s.toks := by
    unfold leadColon
    split
    · rename_i a j b rest h; rw [h]; exact ⟨[.punct ':' true a, .punct ':' j b], rfl⟩
    · exact List.suffix_refl _
  have hp : (pathLoop (leadColon s.toks).2).2.2 <:+ s.toks := by
    obtain ⟨pre, h⟩ := pathLoop_suffix (leadColon s.toks).2
    exact List.IsSuffix.trans ⟨pre, h.symm⟩ hlead
  unfold parseAnyPath
  generalize leadColon s.toks = lc at *
  obtain ⟨lead, toks⟩ := lc
  simp only at *
  generalize pathLoop toks = pl at *
  obtain ⟨segs, tr, toks'⟩ := pl
  simp only at *
  split
  · exact ⟨by simp, .toks_of s hp⟩
  · split
    · exact ⟨by simp, .toks_of s hp⟩
    · exact ⟨by simp, .toks_of s hp⟩

/-- A path consumes at least one token. -/
theorem parseAnyPath_lt [Env] {s s' : Stream} {p : Path} (h : parseAnyPath s = (.ok p, s')) :
    s'.toks.length < s.toks.length := by
  obtain ⟨pt, h1, h2, _⟩ := c07_path_sound s s' p h
  have : pt ≠ [] := by
    rintro rfl
    generalize p.leading = ld, p.segs = ss at h1
    cases h1 with
    | plain h => cases h
  rw [h2, List.length_append]
  have := List.length_pos_iff.2 this
  omega

theorem skipToks_suffix (ts : List Tok) : skipToks ts <:+ ts := by
  obtain ⟨pre, h, _⟩ := skipToks_spec ts
  exact ⟨pre, h.symm⟩

theorem skipMetaItem_adv (s : Stream) : Adv (skipMetaItem s) s := .toks_of s (skipToks_suffix _)

theorem skipAll_adv (l : List Stream) : AdvL (skipAll l) l := by
  induction l with
  | nil => exact .nil
  | cons s l ih => exact .cons (.toks_of s List.nil_suffix) ih

/-! ## Loops -/

theorem parseComma_ok {s s' : Stream} (h : parseComma s = (.ok (), s')) :
    ∃ c, Comma c ∧ s.toks = c :: s'.toks ∧ s'.scope = s.scope ∧ s'.unexp = s.unexp := by
  unfold parseComma parsePunct at h
  split at h
  · rename_i t rest ht
    split at h
    · rename_i hp
      simp only [Prod.mk.injEq, true_and] at h
      subst h
      exact ⟨t, (isComma_iff t).1 hp, ht, rfl, rfl⟩
    · simp at h
  · simp at h

theorem parseComma_comma {c : Tok} (hc : Comma c) (rest : List Tok) (sc : Span) (u : Option Span) :
    parseComma ⟨c :: rest, sc, u⟩ = (.ok (), ⟨rest, sc, u⟩) := by
  have : c.isPunct ',' = true := (isComma_iff c).2 hc
  simp [parseComma, parsePunct, this]

theorem parseComma_noComma {t : Tok} (ht : ¬ Comma t) (rest : List Tok) (sc : Span)
    (u : Option Span) :
    parseComma ⟨t :: rest, sc, u⟩ =
      (.err (.new t.span (.expectedPunct [','])), ⟨t :: rest, sc, u⟩) := by
  have : t.isPunct ',' = false := (isComma_eq_false_iff t).2 ht
  simp [parseComma, parsePunct, this, Stream.span]

theorem M.bind_apply {σ α β : Type} (m : M σ α) (f : α → M σ β) (s : σ) :
    M.bind m f s = match m s with
      | (.ok a, s') => f a s'
      | (.err e, s') => (.err e, s')
      | (.panic, s') => (.panic, s') := rfl

/-- One round of the item loop. -/
theorem itemLoop_succ {κ : Type} (step : M (κ × Stream) Unit) (n : Nat) (st : κ × Stream) :
    itemLoop step (n + 1) st =
      if st.2.isEmpty then (.ok (), st)
      else match step st with
        | (.ok (), st1) =>
          if st1.2.isEmpty then itemLoop step n st1
          else match parseComma st1.2 with
            | (.ok (), s2) => itemLoop step n (st1.1, s2)
            | (.err e, s2) => (.err e, (st1.1, s2))
            | (.panic, s2) => (.panic, (st1.1, s2))
        | (.err e, st1) => (.err e, st1)
        | (.panic, st1) => (.panic, st1) := by
  simp only [itemLoop, Bind.bind, M.bind, M.get]
  split
  · rfl
  · cases h : step st with
    | mk r st1 =>
      cases r with
      | ok a =>
        simp only
        split
        · rfl
        · cases hc : parseComma st1.2 with
          | mk rc sc =>
            have h2 : M.onSnd parseComma st1 = (rc, (st1.1, sc)) := by simp only [M.onSnd, hc]
            refine Eq.trans (M.bind_apply _ _ _) ?_
            rw [h2]
            cases rc <;> rfl
      | err e => rfl
      | panic => rfl

theorem itemLoop_good {κ : Type} {step : M (κ × Stream) Unit} (hs : Good step) :
    ∀ (n : Nat) (st : κ × Stream), st.2.toks.length < n →
      (itemLoop step n st).1 ≠ .panic ∧ Adv (itemLoop step n st).2.2 st.2 := by
  intro n
  induction n with
  | zero => intro st h; omega
  | succ n ih =>
    intro st h
    rw [itemLoop_succ]
    split
    · exact ⟨by simp, .refl _⟩
    · rename_i hne
      obtain ⟨g1, g2⟩ := hs st
      split
      · rename_i st1 hst
        rw [hst] at g1 g2
        have hl := Adv.length g2
        split
        · rename_i hem
          have h0 : 0 < st.2.toks.length := by
            apply List.length_pos_iff.2
            simpa [Stream.isEmpty] using hne
          have h1 : st1.2.toks = [] := by simpa [Stream.isEmpty] using hem
          obtain ⟨i1, i2⟩ := ih st1 (by rw [h1]; simp; omega)
          exact ⟨i1, i2.trans g2⟩
        · split
          · rename_i sc hc
            obtain ⟨c, _, h1, h2, h3⟩ := parseComma_ok hc
            have hadv : Adv sc st1.2 :=
              ⟨by rw [h1]; exact List.suffix_cons _ _, h2, fun _ => h3⟩
            obtain ⟨i1, i2⟩ := ih (st1.1, sc) (by
              have := congrArg List.length h1
              simp only [List.length_cons] at this hl ⊢; omega)
            exact ⟨i1, i2.trans (hadv.trans g2)⟩
          · rename_i hc
            have := (parseComma_good st1.2).2
            rw [hc] at this
            exact ⟨by simp, Adv.trans this g2⟩
          · rename_i hc
            have := (parseComma_good st1.2).1
            rw [hc] at this
            simp at this
      · rename_i hst
        rw [hst] at g2
        exact ⟨by simp, g2⟩
      · rename_i hst
        rw [hst] at g1
        simp at g1

theorem forStreams_good {κ : Type} {body : Nat → M (κ × Stream) Unit}
    (hb : ∀ (n : Nat) (st : κ × Stream), st.2.toks.length < n →
      (body n st).1 ≠ .panic ∧ Adv (body n st).2.2 st.2) : Good (forStreams body) := by
  rintro ⟨k, l⟩
  show (forStreams.go body k l).1 ≠ .panic ∧ AdvL (forStreams.go body k l).2.2 l
  induction l generalizing k with
  | nil => exact ⟨by simp [forStreams.go], .nil⟩
  | cons s l ih =>
    rw [forStreams.go]
    obtain ⟨g1, g2⟩ := hb (s.toks.length + 1) (k, s) (by simp)
    split
    · rename_i k' s' h
      rw [h] at g2
      exact ⟨(ih k').1, .cons g2 (ih k').2⟩
    · rename_i r k' s' h hne
      rw [hne] at g1 g2
      exact ⟨g1, .cons g2 (.refl l)⟩

/-- The named-field loop is the item loop whose step reads a path and calls the callback. -/
theorem structLoop_eq [Env] {κ : Type} (func : Str → Span → M (κ × Stream) Unit) (n : Nat) :
    structLoop func n =
      itemLoop (do let path ← M.onSnd parseAnyPath; func (keyString path.segs) path.span) n := by
  induction n with
  | zero => rfl
  | succ n ih =>
    funext st
    simp only [structLoop, itemLoop, ih, Bind.bind, M.bind]
    split
    · rfl
    · cases h : M.onSnd parseAnyPath st with
      | mk r st1 => cases r <;> rfl

theorem parseStruct_good [Env] {κ : Type} {func : Str → Span → M (κ × Stream) Unit}
    (hf : ∀ k sp, Good (func k sp)) : Good (parseStruct func) := by
  refine forStreams_good fun n st h => ?_
  rw [structLoop_eq]
  exact itemLoop_good (parseAnyPath_good.onSnd.bind fun p => hf _ _) n st h

theorem onHead_good {κ α : Type} {m : M Stream α} (hm : Good m) (k : κ) (s : Stream)
    (rest : List Stream) :
    (onHead m (k, s :: rest)).1 ≠ .panic ∧ AdvL (onHead m (k, s :: rest)).2.2 (s :: rest) :=
  ⟨(hm s).1, .cons (hm s).2 (.refl rest)⟩

end Deluxe
