import Verif.Lemmas.Progress
import Verif.Spec.Items
/-!
# C19, C60: attribute groups must be fully consumed, and errors are kept
-/
namespace Deluxe

/-! ## Specification -/

/-- The attributes, the streams handed to the callback and the streams it leaves behind, in the
accepted case: an attribute is bare, or one parenthesised group and then nothing or one comma; the
callback leaves nothing or one comma in each stream; and in a group no token was left unread in some
nested group. -/
inductive AttrStreams : List (List Tok × Str × Span) → List Stream → List Stream → Prop
  | nil : AttrStreams [] [] []
  | bare {id as ss s' ss'} : AtEnd s'.toks → AttrStreams as ss ss' →
      AttrStreams (([], id) :: as) (⟨[], callSite, none⟩ :: ss) (s' :: ss')
  | group {inner sp close rest id as ss s' ss'} : AtEnd rest → AtEnd s'.toks → s'.unexp = none →
      AttrStreams as ss ss' →
      AttrStreams ((.group .paren inner sp close :: rest, id) :: as) (⟨inner, close, none⟩ :: ss)
        (s' :: ss')

/-! ## Lemmas -/

theorem AttrStreams.length {as ss ss'} (h : AttrStreams as ss ss') :
    ss.length = as.length ∧ ss'.length = as.length := by
  induction h <;> simp_all

/-- The stream without its remaining tokens. -/
def Stream.clear (s : Stream) : Stream := { s with toks := [] }

theorem eofAll_ok (l l' : List Stream) :
    eofAll l = (.ok (), l') ↔ (∀ s ∈ l, AtEnd s.toks) ∧ l' = l.map Stream.clear := by
  induction l generalizing l' with
  | nil => simp [eofAll, eq_comm]
  | cons s l ih =>
    simp only [eofAll]
    have h4 := c04_eof s
    by_cases hs : AtEnd s.toks
    · rw [h4.1 hs]
      simp only
      cases he : eofAll l with
      | mk r l1 =>
        simp only
        constructor
        · intro h
          simp only [Prod.mk.injEq] at h
          obtain ⟨rfl, rfl⟩ := h
          obtain ⟨h1, h2⟩ := (ih l1).1 he
          refine ⟨by simpa [hs] using h1, ?_⟩
          simp [h2, Stream.clear]
        · rintro ⟨h1, rfl⟩
          have := (ih (l.map Stream.clear)).2 ⟨fun x hx => h1 x (by simp [hx]), rfl⟩
          rw [he] at this
          simp only [Prod.mk.injEq] at this
          obtain ⟨rfl, rfl⟩ := this
          rfl
    · constructor
      · intro h
        split at h
        · rename_i s' hp
          exact absurd (parseEof_ok hp).1 hs
        · rename_i hp
          simp only [Prod.mk.injEq] at h
          obtain ⟨rfl, rfl⟩ := h
          exact absurd hp (by
            intro hp
            exact absurd (parseEof_ok hp).1 hs)
      · rintro ⟨h1, _⟩
        exact absurd (h1 s (by simp)) hs

theorem parseTokens_ok {α} (toks : List Tok) (f : M Stream α) (a : α) :
    parseTokens toks f = .ok a ↔
      ∃ s', f ⟨toks, callSite, none⟩ = (.ok a, s') ∧ AtEnd s'.toks ∧ s'.unexp = none := by
  simp only [parseTokens, parse2]
  cases hf : f ⟨toks, callSite, none⟩ with
  | mk r s' =>
    have h4 := c04_eof s'
    cases r with
    | panic => simp
    | ok b =>
      by_cases hs : AtEnd s'.toks
      · simp only [h4.1 hs]
        cases hu : s'.unexp with
        | some sp => simp [hu]
        | none =>
          simp only [Errors.check, Errors.intoResult, Errors.new, Res.ok.injEq, Prod.mk.injEq]
          exact ⟨fun h => ⟨s', ⟨h, rfl⟩, hs, hu⟩, fun ⟨_, ⟨h, _⟩, _⟩ => h⟩
      · obtain ⟨t, rest, _, h2, h3⟩ | ⟨c, t, rest, _, h2, h3⟩ := h4.2 hs <;>
        · simp only [h3]
          cases hu : s'.unexp with
          | some sp => simp [hu]
          | none =>
            simp only [h2]
            simp [hs]
    | err e =>
      by_cases hs : AtEnd s'.toks
      · simp only [h4.1 hs]
        cases hu : s'.unexp with
        | some sp => simp
        | none => simp [Errors.check, Errors.intoResult, Errors.new, Errors.pushSyn]
      · obtain ⟨t, rest, _, h2, h3⟩ | ⟨c, t, rest, _, h2, h3⟩ := h4.2 hs <;>
        · simp only [h3]
          cases hu : s'.unexp with
          | some sp => simp
          | none => simp [h2]

theorem parseNext_ok {α} (func : List (Str × Span) → M (List Stream) α)
    (hf : ∀ ps l, (func ps l).2.length = l.length) (a : α) :
    ∀ (as : List (List Tok × Str × Span)) (ps : List (Str × Span)) (bufs l : List Stream),
      parseNext func as ps bufs = (.ok a, l) ↔
        ∃ ss bufs' ss', AttrStreams as ss ss' ∧ bufs'.length = bufs.length ∧
          func (ps ++ as.map (·.2)) (bufs ++ ss) = (.ok a, bufs' ++ ss') ∧
          (∀ s ∈ bufs', AtEnd s.toks) ∧ l = bufs'.map Stream.clear := by
  intro as
  induction as with
  | nil =>
    intro ps bufs l
    simp only [parseNext, Bind.bind, M.bind, List.map_nil, List.append_nil]
    cases h : func ps bufs with
    | mk r l1 =>
      have hl := hf ps bufs
      rw [h] at hl
      cases r with
      | ok b =>
        simp only
        cases he : eofAll l1 with
        | mk re l2 =>
          constructor
          · intro hh
            cases re with
            | ok u =>
              simp only [pure, M.pure, Prod.mk.injEq, Res.ok.injEq] at hh
              obtain ⟨rfl, rfl⟩ := hh
              obtain ⟨h1, h2⟩ := (eofAll_ok l1 l2).1 he
              exact ⟨[], l1, [], .nil, hl, by simp [h], h1, h2⟩
            | err e => simp at hh
            | panic => simp at hh
          · rintro ⟨ss, bufs', ss', h1, h2, h3, h4, rfl⟩
            cases h1
            simp only [List.append_nil, h, Prod.mk.injEq, Res.ok.injEq] at h3
            obtain ⟨rfl, rfl⟩ := h3
            have := (eofAll_ok l1 _).2 ⟨h4, rfl⟩
            rw [he] at this
            simp only [Prod.mk.injEq] at this
            obtain ⟨rfl, rfl⟩ := this
            rfl
      | err e =>
        simp only
        constructor
        · simp
        · rintro ⟨ss, bufs', ss', h1, h2, h3, h4, rfl⟩
          cases h1
          simp [h] at h3
      | panic =>
        simp only
        constructor
        · simp
        · rintro ⟨ss, bufs', ss', h1, h2, h3, h4, rfl⟩
          cases h1
          simp [h] at h3
  | cons at1 as ih =>
    obtain ⟨toks, name, span⟩ := at1
    intro ps bufs l
    simp only [parseNext]
    rw [show ∀ (x : Res α) (y : List Stream), ((x, y) = (Res.ok a, l) ↔ x = .ok a ∧ y = l) from
      fun x y => by simp]
    refine (and_congr (parseTokens_ok _ _ _) Iff.rfl).trans ?_
    -- the accepted case for the remaining attributes, with one more buffer
    have key := fun b l => ih (ps ++ [(name, span)]) (bufs ++ [b]) l
    cases toks with
    | nil =>
      simp only [Stream.isEmpty, List.isEmpty_nil, if_true]
      cases hn : parseNext func as (ps ++ [(name, span)]) (bufs ++ [Stream.fork ⟨[], callSite, none⟩]) with
      | mk r l1 =>
        simp only [Prod.mk.injEq]
        constructor
        · rintro ⟨⟨s', ⟨rfl, rfl⟩, _, _⟩, rfl⟩
          obtain ⟨ss, bufs1, ss', h1, h2, h3, h4, rfl⟩ := (key _ _).1 hn
          obtain ⟨bufs', s', rfl⟩ : ∃ bufs' s', bufs1 = bufs' ++ [s'] :=
            ⟨bufs1.dropLast, bufs1.getLast (by intro h0; simp [h0] at h2),
              (List.dropLast_concat_getLast _).symm⟩
          simp only [List.length_append, List.length_cons, List.length_nil] at h2
          refine ⟨_ :: ss, bufs', s' :: ss', .bare (h4 s' (by simp)) h1, by omega, ?_,
            fun s hs => h4 s (by simp [hs]), ?_⟩
          · simpa [List.append_assoc, Stream.fork] using h3
          · have : bufs.length = (bufs'.map Stream.clear).length := by simp; omega
            rw [List.map_append, this, List.take_left']
            rfl
        · rintro ⟨ss, bufs', ss', h1, h2, h3, h4, rfl⟩
          cases h1 with
          | @bare _ _ ss s' ss' hs' h1 =>
            have := (key ⟨[], callSite, none⟩ _).2 ⟨ss, bufs' ++ [s'], ss', h1, by simp [h2],
              by simpa [List.append_assoc] using h3, by
                intro x hx
                rcases List.mem_append.1 hx with hx | hx
                · exact h4 x hx
                · obtain rfl := List.mem_singleton.1 hx; exact hs', rfl⟩
            have hn' := hn.symm.trans this
            simp only [Prod.mk.injEq] at hn'
            obtain ⟨rfl, rfl⟩ := hn'
            refine ⟨⟨_, ⟨rfl, rfl⟩, Or.inl rfl, rfl⟩, ?_⟩
            have : bufs.length = (bufs'.map Stream.clear).length := by simp; omega
            rw [List.map_append, this, List.take_left']
            rfl
    | cons t rest =>
      simp only [Stream.isEmpty, List.isEmpty_cons, Bool.false_eq_true, if_false]
      by_cases hg : ∃ inner sp close, t = .group .paren inner sp close
      · obtain ⟨inner, sp, close, rfl⟩ := hg
        simp only [enter, if_true]
        cases hn : parseNext func as (ps ++ [(name, span)]) (bufs ++ [⟨inner, close, none⟩]) with
        | mk r l1 =>
          simp only [Prod.mk.injEq]
          constructor
          · rintro ⟨⟨s', ⟨rfl, rfl⟩, ha, hu⟩, rfl⟩
            obtain ⟨ss, bufs1, ss', h1, h2, h3, h4, rfl⟩ := (key _ _).1 hn
            obtain ⟨bufs', s', rfl⟩ : ∃ bufs' s', bufs1 = bufs' ++ [s'] :=
              ⟨bufs1.dropLast, bufs1.getLast (by intro h0; simp [h0] at h2),
              (List.dropLast_concat_getLast _).symm⟩
            simp only [List.length_append, List.length_cons, List.length_nil] at h2
            have hlen : bufs.length = (bufs'.map Stream.clear).length := by simp; omega
            have hget : (((bufs' ++ [s']).map Stream.clear)).getD bufs.length ⟨inner, close, none⟩ =
                s'.clear := by
              rw [List.map_append, hlen]
              simp
            rw [hget] at hu
            have hu' : s'.unexp = none := by
              cases hx : s'.unexp with
              | none => rfl
              | some x => simp [Stream.dropChild, Stream.clear, hx] at hu
            refine ⟨_ :: ss, bufs', s' :: ss', .group ha (h4 s' (by simp)) hu' h1, by omega, ?_,
              fun s hs => h4 s (by simp [hs]), ?_⟩
            · simpa [List.append_assoc] using h3
            · rw [List.map_append, hlen, List.take_left']
              rfl
          · rintro ⟨ss, bufs', ss', h1, h2, h3, h4, rfl⟩
            cases h1 with
            | @group _ _ _ _ _ _ ss s' ss' hrest hs' hu h1 =>
              have := (key ⟨inner, close, none⟩ _).2 ⟨ss, bufs' ++ [s'], ss', h1, by simp [h2],
                by simpa [List.append_assoc] using h3, by
                  intro x hx
                  rcases List.mem_append.1 hx with hx | hx
                  · exact h4 x hx
                  · obtain rfl := List.mem_singleton.1 hx; exact hs', rfl⟩
              have hn' := hn.symm.trans this
              simp only [Prod.mk.injEq] at hn'
              obtain ⟨rfl, rfl⟩ := hn'
              have hlen : bufs.length = (bufs'.map Stream.clear).length := by simp; omega
              have hget : (((bufs' ++ [s']).map Stream.clear)).getD bufs.length ⟨inner, close, none⟩ =
                  s'.clear := by
                rw [List.map_append, hlen]
                simp
              rw [hget]
              refine ⟨⟨_, ⟨rfl, rfl⟩, hrest, ?_⟩, ?_⟩
              · simp [Stream.dropChild, Stream.clear, hu]
              · rw [List.map_append, hlen, List.take_left']
                rfl
      · have he : ∃ e, enter .paren ⟨t :: rest, callSite, none⟩ = .error e := by
          cases h : enter .paren ⟨t :: rest, callSite, none⟩ with
          | error e => exact ⟨e, rfl⟩
          | ok x =>
            obtain ⟨c, s'⟩ := x
            obtain ⟨inner, sp, close, r, h1, _⟩ := enter_adv h
            simp only [List.cons.injEq] at h1
            exact absurd ⟨_, _, _, h1.1⟩ hg
        obtain ⟨e, he⟩ := he
        rw [he]
        constructor
        · rintro ⟨⟨s', h, _⟩, _⟩
          simp at h
        · rintro ⟨ss, bufs', ss', h1, _⟩
          cases h1
          exact absurd ⟨_, _, _, rfl⟩ hg

/-! ## Theorems -/

/-- C19: `parse_struct_attr_tokens` succeeds exactly when every attribute is bare or a single
parenthesised group with at most a comma after it, and the callback, run on the contents, succeeds
and leaves at most a comma in every stream, with no unread token in a nested group. -/
theorem c19_attr_tokens {α : Type} (attrs : List (List Tok × Str × Span))
    (func : List (Str × Span) → M (List Stream) α)
    (hf : ∀ ps l, (func ps l).2.length = l.length) (a : α) :
    parseStructAttrTokens attrs func = .ok a ↔
      ∃ ss ss', AttrStreams attrs ss ss' ∧ func (attrs.map (·.2)) ss = (.ok a, ss') := by
  unfold parseStructAttrTokens
  constructor
  · intro h
    obtain ⟨ss, bufs', ss', h1, h2, h3, _⟩ := (parseNext_ok func hf a attrs [] [] _).1 (Prod.ext h rfl)
    have : bufs' = [] := List.length_eq_zero_iff.1 h2
    subst this
    exact ⟨ss, ss', h1, by simpa using h3⟩
  · rintro ⟨ss, ss', h1, h2⟩
    have := (parseNext_ok func hf a attrs [] [] []).2 ⟨ss, [], ss', h1, rfl, by simpa using h2, by simp,
      rfl⟩
    rw [this]

/-- Non-trivial case: `#[a(x,),]` and the bare `#[b]`, with a callback that reads one token of the
first stream. -/
example : AttrStreams
    [([.group .paren [.ident ['x'] 1, .punct ',' false 2] 3 4, .punct ',' false 5], ['a'], 6),
      ([], ['b'], 7)]
    [⟨[.ident ['x'] 1, .punct ',' false 2], 4, none⟩, ⟨[], callSite, none⟩]
    [⟨[.punct ',' false 2], 4, none⟩, ⟨[], callSite, none⟩] :=
  .group (Or.inr ⟨_, ⟨_, _, rfl⟩, rfl⟩) (Or.inr ⟨_, ⟨_, _, rfl⟩, rfl⟩) rfl (.bare (Or.inl rfl) .nil)

/-! ## C60: what happens to the errors of the callback -/

theorem parseTokens_ne_panic {α} (toks : List Tok) (f : M Stream α)
    (h : (f ⟨toks, callSite, none⟩).1 ≠ .panic) : parseTokens toks f ≠ .panic := by
  simp only [parseTokens, parse2]
  cases hf : f ⟨toks, callSite, none⟩ with
  | mk r s' =>
    have h4 := c04_eof s'
    cases r with
    | panic => rw [hf] at h; exact absurd rfl h
    | ok b =>
      by_cases hs : AtEnd s'.toks
      · simp only [h4.1 hs]
        cases hu : s'.unexp <;> simp [Errors.check, Errors.intoResult, Errors.new]
      · obtain ⟨t, rest, _, h2, h3⟩ | ⟨c, t, rest, _, h2, h3⟩ := h4.2 hs <;>
        · simp only [h3]
          cases hu : s'.unexp <;> simp [h2]
    | err e =>
      by_cases hs : AtEnd s'.toks
      · simp only [h4.1 hs]
        cases hu : s'.unexp <;> simp [Errors.check, Errors.intoResult, Errors.new, Errors.pushSyn]
      · obtain ⟨t, rest, _, h2, h3⟩ | ⟨c, t, rest, _, h2, h3⟩ := h4.2 hs <;>
        · simp only [h3]
          cases hu : s'.unexp <;> simp [h2]

theorem parseTokens_err {α} (toks : List Tok) (f : M Stream α) (e : SynErr) (s' : Stream)
    (h : f ⟨toks, callSite, none⟩ = (.err e, s')) (hs : AtEnd s'.toks) (hu : s'.unexp = none) :
    parseTokens toks f = .err e := by
  simp only [parseTokens, parse2, h, (c04_eof s').1 hs, hu]
  rfl

theorem eofAll_ne_panic (l : List Stream) : (eofAll l).1 ≠ .panic := by
  induction l with
  | nil => simp [eofAll]
  | cons s l ih =>
    simp only [eofAll]
    have h := (parseEof_good s).1
    split
    · exact ih
    · rename_i r s' hp heq
      rw [heq] at h
      exact h

theorem parseNext_ne_panic {α} (func : List (Str × Span) → M (List Stream) α)
    (hp : ∀ ps l, (func ps l).1 ≠ .panic) :
    ∀ (as : List (List Tok × Str × Span)) (ps : List (Str × Span)) (bufs : List Stream),
      (parseNext func as ps bufs).1 ≠ .panic := by
  intro as
  induction as with
  | nil =>
    intro ps bufs
    simp only [parseNext, Bind.bind, M.bind]
    have h := hp ps bufs
    cases hf : func ps bufs with
    | mk r l =>
      rw [hf] at h
      cases r with
      | panic => exact absurd rfl h
      | err e => simp
      | ok a =>
        simp only
        have h2 := eofAll_ne_panic l
        cases he : eofAll l with
        | mk r2 l2 =>
          rw [he] at h2
          cases r2 with
          | panic => exact absurd rfl h2
          | err e => simp
          | ok a => simp [pure, M.pure]
  | cons at1 as ih =>
    obtain ⟨toks, name, span⟩ := at1
    intro ps bufs
    simp only [parseNext]
    refine parseTokens_ne_panic _ _ ?_
    simp only
    split
    · exact ih _ _
    · split
      · simp
      · exact ih _ _

theorem parseNext_err {α} (func : List (Str × Span) → M (List Stream) α) (e : SynErr) :
    ∀ (as : List (List Tok × Str × Span)) (ps : List (Str × Span)) (bufs bufs' ss ss' : List Stream),
      AttrStreams as ss ss' → AllRead ss' → bufs'.length = bufs.length →
      func (ps ++ as.map (·.2)) (bufs ++ ss) = (.err e, bufs' ++ ss') →
      ∃ l, parseNext func as ps bufs = (.err e, l) ∧ l = bufs' := by
  intro as
  induction as with
  | nil =>
    intro ps bufs bufs' ss ss' h _ _ hf
    cases h
    simp only [List.map_nil, List.append_nil] at hf
    exact ⟨bufs', by simp only [parseNext, Bind.bind, M.bind, hf], rfl⟩
  | cons at1 as ih =>
    obtain ⟨toks, name, span⟩ := at1
    intro ps bufs bufs' ss ss' h hr hl hf
    cases h with
    | @bare _ _ ss s' ss' hs' h1 =>
      obtain ⟨l, h2, rfl⟩ := ih (ps ++ [(name, span)]) (bufs ++ [⟨[], callSite, none⟩]) (bufs' ++ [s'])
        ss ss' h1 (fun s hs => hr s (by simp [hs])) (by simp [hl]) (by simpa using hf)
      refine ⟨bufs', ?_, rfl⟩
      simp only [parseNext]
      refine Prod.ext ?_ ?_
      · refine parseTokens_err _ _ _ ⟨[], callSite, none⟩ ?_ (Or.inl rfl) rfl
        simp [Stream.isEmpty, Stream.fork, h2]
      · simp [Stream.isEmpty, Stream.fork, h2, ← hl]
    | @group inner sp close rest _ _ ss s' ss' hrest hs' hu h1 =>
      obtain ⟨l, h2, rfl⟩ := ih (ps ++ [(name, span)]) (bufs ++ [⟨inner, close, none⟩]) (bufs' ++ [s'])
        ss ss' h1 (fun s hs => hr s (by simp [hs])) (by simp [hl]) (by simpa using hf)
      have h0 : s'.toks = [] := hr s' (by simp)
      refine ⟨bufs', ?_, rfl⟩
      simp only [parseNext]
      refine Prod.ext ?_ ?_
      · refine parseTokens_err _ _ _ ⟨rest, callSite, none⟩ ?_ hrest rfl
        simp [Stream.isEmpty, enter, h2, ← hl, Stream.dropChild, h0, hu]
      · simp [Stream.isEmpty, enter, h2, ← hl]

theorem parseNext_panic {α} (func : List (Str × Span) → M (List Stream) α) :
    ∀ (as : List (List Tok × Str × Span)) (ps : List (Str × Span)) (bufs ss ss' : List Stream),
      AttrStreams as ss ss' → (func (ps ++ as.map (·.2)) (bufs ++ ss)).1 = .panic →
      (parseNext func as ps bufs).1 = .panic := by
  intro as
  induction as with
  | nil =>
    intro ps bufs ss ss' h hf
    cases h
    simp only [List.map_nil, List.append_nil] at hf
    simp only [parseNext, Bind.bind, M.bind]
    generalize func ps bufs = x at hf
    obtain ⟨r, l⟩ := x
    cases hf
    rfl
  | cons at1 as ih =>
    obtain ⟨toks, name, span⟩ := at1
    intro ps bufs ss ss' h hf
    cases h with
    | @bare _ _ ss s' ss' hs' h1 =>
      have h2 := ih (ps ++ [(name, span)]) (bufs ++ [⟨[], callSite, none⟩]) ss ss' h1 (by simpa using hf)
      simp [parseNext, parseTokens, parse2, Stream.isEmpty, Stream.fork, h2]
    | @group inner sp close rest _ _ ss s' ss' hrest hs' hu h1 =>
      have h2 := ih (ps ++ [(name, span)]) (bufs ++ [⟨inner, close, none⟩]) ss ss' h1 (by simpa using hf)
      simp [parseNext, parseTokens, parse2, Stream.isEmpty, enter, h2]

/-- C60: a callback that panics on well-formed attributes makes `parse_struct_attr_tokens` panic; nothing hides it. -/
theorem c60_panics {α : Type} (attrs : List (List Tok × Str × Span))
    (func : List (Str × Span) → M (List Stream) α) (ss ss' : List Stream) (h : AttrStreams attrs ss ss')
    (hf : (func (attrs.map (·.2)) ss).1 = .panic) : parseStructAttrTokens attrs func = .panic :=
  parseNext_panic func attrs [] [] ss ss' h hf

/-- C60: `parse_struct_attr_tokens` itself never panics, for any attributes. -/
theorem c60_never_panics {α : Type} (attrs : List (List Tok × Str × Span))
    (func : List (Str × Span) → M (List Stream) α) (hp : ∀ ps l, (func ps l).1 ≠ .panic) :
    parseStructAttrTokens attrs func ≠ .panic :=
  parseNext_ne_panic func hp attrs [] []

/-- C60: if the attributes are well formed and the callback fails after reading everything, the result
is exactly the callback's error, with all its messages. -/
theorem c60_errors_kept {α : Type} (attrs : List (List Tok × Str × Span))
    (func : List (Str × Span) → M (List Stream) α) (ss ss' : List Stream) (e : SynErr)
    (h : AttrStreams attrs ss ss') (hr : AllRead ss')
    (hf : func (attrs.map (·.2)) ss = (.err e, ss')) : parseStructAttrTokens attrs func = .err e := by
  obtain ⟨l, h1, _⟩ := parseNext_err func e attrs [] [] [] ss ss' h hr rfl (by simpa using hf)
  simp only [parseStructAttrTokens, h1]

/-- The last hypothesis is needed: a callback that fails and leaves a token in a group has its message
replaced by one about the token. -/
theorem c60_leftovers_hide_errors : ∃ (attrs : List (List Tok × Str × Span))
    (func : List (Str × Span) → M (List Stream) Unit) (e : SynErr),
    (∀ ps l, func ps l = (.err e, l)) ∧ parseStructAttrTokens attrs func ≠ .err e :=
  ⟨[([.group .paren [.ident ['x'] 1] 2 3], ['a'], 4)], fun _ l => (.err (.new 7 .flagDisallowed), l),
    .new 7 .flagDisallowed, fun _ _ => rfl, by
      simp [parseStructAttrTokens, parseNext, parseTokens, parse2, Stream.isEmpty, enter,
        Stream.dropChild, parseEof, Bind.bind, M.bind, SynErr.new, Stream.peekPunct]⟩

/-- Non-trivial case of the hypotheses of `c60_errors_kept`: `#[a(x),]` and the bare `#[b]`. -/
example : ∃ (func : List (Str × Span) → M (List Stream) Unit) (ss ss' : List Stream) (e : SynErr),
    AttrStreams [([.group .paren [.ident ['x'] 1] 3 4, .punct ',' false 5], ['a'], 6), ([], ['b'], 7)]
      ss ss' ∧ AllRead ss' ∧ func [(['a'], 6), (['b'], 7)] ss = (.err e, ss') :=
  ⟨fun _ l => (.err (.new 1 .unexpectedToken), l.map Stream.clear),
    [⟨[.ident ['x'] 1], 4, none⟩, ⟨[], callSite, none⟩], [⟨[], 4, none⟩, ⟨[], callSite, none⟩], _,
    .group (Or.inr ⟨_, ⟨_, _, rfl⟩, rfl⟩) (Or.inl rfl) rfl (.bare (Or.inl rfl) .nil),
    by simp [AllRead], rfl⟩

end Deluxe
