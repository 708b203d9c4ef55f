import Verif.Lemmas.Progress
/-!
# Runs of the item loops as relations
-/
namespace Deluxe

/-- Runs of the item loop on one stream: captured state and stream before, outcome, state and stream
after. -/
inductive ItemRun {κ : Type} (step : M (κ × Stream) Unit) :
    κ → Stream → Res Unit → κ → Stream → Prop
  | done {k s} : s.toks = [] → ItemRun step k s (.ok ()) k s
  | last {k s k1 s1} : s.toks ≠ [] → step (k, s) = (.ok (), (k1, s1)) → s1.toks = [] →
      ItemRun step k s (.ok ()) k1 s1
  | more {k s k1 s1 c rest r k2 s2} : s.toks ≠ [] → step (k, s) = (.ok (), (k1, s1)) →
      s1.toks = c :: rest → Comma c → ItemRun step k1 { s1 with toks := rest } r k2 s2 →
      ItemRun step k s r k2 s2
  | failItem {k s k1 s1 e} : s.toks ≠ [] → step (k, s) = (.err e, (k1, s1)) →
      ItemRun step k s (.err e) k1 s1
  | failSep {k s k1 s1 t rest} : s.toks ≠ [] → step (k, s) = (.ok (), (k1, s1)) →
      s1.toks = t :: rest → ¬ Comma t →
      ItemRun step k s (.err (.new t.span (.expectedPunct [',']))) k1 s1

/-- A run over several streams: each in turn, until one fails. -/
inductive StreamsRun {κ : Type} (run : κ → Stream → Res Unit → κ → Stream → Prop) :
    κ → List Stream → Res Unit → κ → List Stream → Prop
  | nil {k} : StreamsRun run k [] (.ok ()) k []
  | cons {k s k1 s1 rest r k2 rest'} : run k s (.ok ()) k1 s1 → StreamsRun run k1 rest r k2 rest' →
      StreamsRun run k (s :: rest) r k2 (s1 :: rest')
  | fail {k s e k1 s1 rest} : run k s (.err e) k1 s1 →
      StreamsRun run k (s :: rest) (.err e) k1 (s1 :: rest)

variable {κ : Type}

theorem isEmpty_iff (s : Stream) : s.isEmpty = true ↔ s.toks = [] := by
  simp [Stream.isEmpty]

theorem isEmpty_false_iff (s : Stream) : s.isEmpty = false ↔ s.toks ≠ [] := by
  simp [Stream.isEmpty]

theorem itemLoop_sound (step : M (κ × Stream) Unit) : ∀ (n : Nat) (k : κ) (s : Stream) (r : Res Unit)
    (k' : κ) (s' : Stream), r ≠ .panic → itemLoop step n (k, s) = (r, (k', s')) →
    ItemRun step k s r k' s' := by
  intro n
  induction n with
  | zero => intro k s r k' s' hr h; simp [itemLoop, M.panic] at h; exact absurd h.1.symm hr
  | succ n ih =>
    intro k s r k' s' hr h
    rw [itemLoop_succ] at h
    split at h
    · rename_i he
      simp only [Prod.mk.injEq] at h
      obtain ⟨rfl, rfl, rfl⟩ := h
      exact .done ((isEmpty_iff _).1 he)
    · rename_i he
      have hne : s.toks ≠ [] := fun h0 => he ((isEmpty_iff _).2 h0)
      split at h
      · rename_i st1 hst
        obtain ⟨k1, s1⟩ := st1
        split at h
        · rename_i he1
          have h0 := (isEmpty_iff s1).1 he1
          cases n with
          | zero => simp [itemLoop, M.panic] at h; exact absurd h.1.symm hr
          | succ n =>
            rw [itemLoop_succ, if_pos he1] at h
            simp only [Prod.mk.injEq] at h
            obtain ⟨rfl, rfl, rfl⟩ := h
            exact .last hne hst h0
        · rename_i he1
          split at h
          · rename_i s2 hc
            obtain ⟨c, hcc, h1, h2, h3⟩ := parseComma_ok hc
            refine .more hne hst h1 hcc ?_
            have : ({ s1 with toks := s2.toks } : Stream) = s2 := by
              cases s2; simp_all
            rw [this]
            exact ih _ _ _ _ _ hr h
          · rename_i e s2 hc
            simp only [Prod.mk.injEq] at h
            obtain ⟨rfl, rfl, rfl⟩ := h
            cases ht : s1.toks with
            | nil => exact absurd ((isEmpty_iff s1).2 ht) he1
            | cons t rest =>
              by_cases hco : Comma t
              · have := parseComma_comma hco rest s1.scope s1.unexp
                rw [← ht] at this
                rw [hc] at this; simp at this
              · have := parseComma_noComma hco rest s1.scope s1.unexp
                rw [← ht] at this
                rw [hc] at this
                simp only [Prod.mk.injEq, Res.err.injEq] at this
                obtain ⟨rfl, h2⟩ := this
                rw [h2]
                exact .failSep hne hst ht hco
          · simp only [Prod.mk.injEq] at h; exact absurd h.1.symm hr
      · rename_i e st1 hst
        simp only [Prod.mk.injEq] at h
        obtain ⟨rfl, rfl⟩ := h
        exact .failItem hne hst
      · simp only [Prod.mk.injEq] at h; exact absurd h.1.symm hr

/-- The step never gives tokens back. -/
def Shrinks (step : M (κ × Stream) Unit) : Prop :=
  ∀ k s, (step (k, s)).2.2.toks.length ≤ s.toks.length

theorem itemLoop_complete {step : M (κ × Stream) Unit} (hs : Shrinks step) {k s r k' s'}
    (h : ItemRun step k s r k' s') : ∀ n, s.toks.length < n →
    itemLoop step n (k, s) = (r, (k', s')) := by
  induction h with
  | done h0 =>
    intro n hn
    cases n with
    | zero => omega
    | succ n => rw [itemLoop_succ, if_pos ((isEmpty_iff _).2 h0)]
  | @last k s k1 s1 hne hst h0 =>
    intro n hn
    cases n with
    | zero => omega
    | succ n =>
      rw [itemLoop_succ, if_neg (by simpa [isEmpty_iff] using hne), hst]
      simp only
      rw [if_pos ((isEmpty_iff _).2 h0)]
      cases n with
      | zero => simp only [Nat.zero_add] at hn; exact absurd (List.length_eq_zero_iff.1 (by omega)) hne
      | succ n => rw [itemLoop_succ, if_pos ((isEmpty_iff _).2 h0)]
  | @more k s k1 s1 c rest r k2 s2 hne hst h1 hc _ ih =>
    intro n hn
    cases n with
    | zero => omega
    | succ n =>
      have hl := hs k s
      rw [hst] at hl
      simp only [h1, List.length_cons] at hl
      rw [itemLoop_succ, if_neg (by simpa [isEmpty_iff] using hne), hst]
      simp only
      rw [if_neg (by simp [isEmpty_iff, h1])]
      have := parseComma_comma hc rest s1.scope s1.unexp
      rw [← h1] at this
      rw [this]
      exact ih n (by simp only; omega)
  | @failItem k s k1 s1 e hne hst =>
    intro n hn
    cases n with
    | zero => omega
    | succ n => rw [itemLoop_succ, if_neg (by simpa [isEmpty_iff] using hne), hst]
  | @failSep k s k1 s1 t rest hne hst h1 hc =>
    intro n hn
    cases n with
    | zero => omega
    | succ n =>
      rw [itemLoop_succ, if_neg (by simpa [isEmpty_iff] using hne), hst]
      simp only
      rw [if_neg (by simp [isEmpty_iff, h1])]
      have := parseComma_noComma hc rest s1.scope s1.unexp
      rw [← h1] at this
      rw [this]

theorem forStreams_sound {body : Nat → M (κ × Stream) Unit}
    {run : κ → Stream → Res Unit → κ → Stream → Prop}
    (hb : ∀ n k s r k' s', r ≠ .panic → body n (k, s) = (r, (k', s')) → run k s r k' s')
    {k : κ} {l : List Stream} {r : Res Unit} {k' : κ} {l' : List Stream} (hr : r ≠ .panic)
    (h : forStreams body (k, l) = (r, (k', l'))) : StreamsRun run k l r k' l' := by
  change forStreams.go body k l = (r, (k', l')) at h
  induction l generalizing k l' with
  | nil =>
    simp only [forStreams.go, Prod.mk.injEq] at h
    obtain ⟨rfl, rfl, rfl⟩ := h
    exact .nil
  | cons s l ih =>
    rw [forStreams.go] at h
    split at h
    · rename_i k1 s1 hst
      simp only at h
      cases hg : forStreams.go body k1 l with
      | mk r2 st2 =>
        obtain ⟨k2, l2⟩ := st2
        rw [hg] at h
        simp only [Prod.mk.injEq] at h
        obtain ⟨rfl, rfl, rfl⟩ := h
        exact .cons (hb _ _ _ _ _ _ (by simp) hst) (ih hg)
    · rename_i r1 k1 s1 hno hst
      simp only [Prod.mk.injEq] at h
      obtain ⟨rfl, rfl, rfl⟩ := h
      cases r1 with
      | ok a => exact (hno rfl).elim
      | err e => exact .fail (hb _ _ _ _ _ _ (by simp) hst)
      | panic => exact absurd rfl hr

theorem forStreams_complete {body : Nat → M (κ × Stream) Unit}
    {run : κ → Stream → Res Unit → κ → Stream → Prop}
    (hb : ∀ k s r k' s', run k s r k' s' → body (s.toks.length + 1) (k, s) = (r, (k', s')))
    {k : κ} {l : List Stream} {r : Res Unit} {k' : κ} {l' : List Stream}
    (h : StreamsRun run k l r k' l') : forStreams body (k, l) = (r, (k', l')) := by
  show forStreams.go body k l = (r, (k', l'))
  induction h with
  | nil => rfl
  | cons h1 _ ih => rw [forStreams.go, hb _ _ _ _ _ h1]; simp only [ih]
  | fail h1 => rw [forStreams.go, hb _ _ _ _ _ h1]

theorem items_sound {step : M (κ × Stream) Unit} {k : κ} {l : List Stream} {r : Res Unit} {k' : κ}
    {l' : List Stream} (hr : r ≠ .panic) (h : forStreams (itemLoop step) (k, l) = (r, (k', l'))) :
    StreamsRun (ItemRun step) k l r k' l' :=
  forStreams_sound (fun n k s r k' s' => itemLoop_sound step n k s r k' s') hr h

theorem items_complete {step : M (κ × Stream) Unit} (hs : Shrinks step) {k : κ} {l : List Stream}
    {r : Res Unit} {k' : κ} {l' : List Stream} (h : StreamsRun (ItemRun step) k l r k' l') :
    forStreams (itemLoop step) (k, l) = (r, (k', l')) :=
  forStreams_complete (fun _ _ _ _ _ h => itemLoop_complete hs h _ (Nat.lt_succ_self _)) h

/-- A successful run leaves nothing. -/
theorem ItemRun.empty {step : M (κ × Stream) Unit} {k s r k' s'} (h : ItemRun step k s r k' s')
    (hr : r = .ok ()) : s'.toks = [] := by
  induction h with
  | done h => exact h
  | last _ _ h => exact h
  | more _ _ _ _ _ ih => exact ih hr
  | failItem => cases hr
  | failSep => cases hr

theorem StreamsRun.empty {run : κ → Stream → Res Unit → κ → Stream → Prop}
    (hrun : ∀ k s k' s', run k s (.ok ()) k' s' → s'.toks = []) {k l r k' l'}
    (h : StreamsRun run k l r k' l') (hr : r = .ok ()) : ∀ s ∈ l', s.toks = [] := by
  induction h with
  | nil => simp
  | cons h1 _ ih =>
    intro s hs
    rcases List.mem_cons.1 hs with rfl | hs
    · exact hrun _ _ _ _ h1
    · exact ih hr s hs
  | fail => cases hr

/-- The step of the named-field loop. -/
def keyStep [Env] (func : Str → Span → M (κ × Stream) Unit) : M (κ × Stream) Unit := do
  let path ← M.onSnd parseAnyPath
  func (keyString path.segs) path.span

theorem parseStruct_eq [Env] (func : Str → Span → M (κ × Stream) Unit) :
    parseStruct func = forStreams (itemLoop (keyStep func)) := by
  unfold parseStruct
  congr 1
  funext n
  exact structLoop_eq func n

theorem keyStep_eq [Env] (func : Str → Span → M (κ × Stream) Unit) (k : κ) (s : Stream) :
    keyStep func (k, s) = match parseAnyPath s with
      | (.ok p, s1) => func (keyString p.segs) p.span (k, s1)
      | (.err e, s1) => (.err e, (k, s1))
      | (.panic, s1) => (.panic, (k, s1)) := by
  simp only [keyStep, Bind.bind, M.bind, M.onSnd]
  cases parseAnyPath s with
  | mk r s1 => cases r <;> rfl

theorem keyStep_shrinks [Env] {func : Str → Span → M (κ × Stream) Unit}
    (hf : ∀ key sp, Shrinks (func key sp)) : Shrinks (keyStep func) := by
  intro k s
  rw [keyStep_eq]
  have h := Adv.length (parseAnyPath_good s).2
  cases hp : parseAnyPath s with
  | mk r s1 =>
    rw [hp] at h
    cases r with
    | ok p => exact Nat.le_trans (hf _ _ k s1) h
    | err e => exact h
    | panic => exact h

end Deluxe
