import Verif.Model.Top
/-!
# C03, C04, C05, C06, C07, C11: token level helpers
-/
namespace Deluxe

/-! ## Specification vocabulary -/

/-- The token is a comma. -/
def Comma (t : Tok) : Prop := ∃ j sp, t = .punct ',' j sp

/-- The token list has no comma at top level (commas inside groups do not count). -/
def NoComma (ts : List Tok) : Prop := ∀ t ∈ ts, ¬ Comma t

/-- Nothing left, or exactly one comma. -/
def AtEnd (ts : List Tok) : Prop := ts = [] ∨ ∃ c, Comma c ∧ ts = [c]

theorem isComma_iff (t : Tok) : t.isComma = true ↔ Comma t := by
  unfold Comma Tok.isComma Tok.isPunct
  cases t <;> simp

theorem isComma_eq_false_iff (t : Tok) : t.isComma = false ↔ ¬ Comma t := by
  rw [← isComma_iff]; simp

/-! ## C03 -/

theorem skipToks_spec (ts : List Tok) :
    ∃ pre, ts = pre ++ skipToks ts ∧ NoComma pre ∧
      (skipToks ts = [] ∨ ∃ c rest, skipToks ts = c :: rest ∧ Comma c) := by
  induction ts with
  | nil => exact ⟨[], by simp [skipToks, NoComma]⟩
  | cons t ts ih =>
    unfold skipToks
    split
    · rename_i h
      exact ⟨[], by simp, by simp [NoComma], Or.inr ⟨t, ts, rfl, (isComma_iff t).1 h⟩⟩
    · rename_i h
      obtain ⟨pre, h1, h2, h3⟩ := ih
      refine ⟨t :: pre, by simp [← h1], ?_, h3⟩
      intro x hx
      rcases List.mem_cons.1 hx with rfl | hx
      · rwa [← isComma_eq_false_iff, ← Bool.not_eq_true]
      · exact h2 x hx

theorem skipToks_append (pre rest : List Tok) (h : NoComma pre) :
    skipToks (pre ++ rest) = skipToks rest := by
  induction pre with
  | nil => rfl
  | cons t pre ih =>
    have ht : t.isComma = false := (isComma_eq_false_iff t).2 (h t (by simp))
    simp only [List.cons_append, skipToks, ht]
    exact ih fun x hx => h x (by simp [hx])

/-- C03: `skip_meta_item` consumes the longest comma-free prefix: what it drops has no top-level
comma, and it stops at the end or just before a comma; nothing else of the stream changes. -/
theorem c03_skip_stops_at_comma (s : Stream) :
    ∃ pre, s.toks = pre ++ (skipMetaItem s).toks ∧ NoComma pre ∧
      ((skipMetaItem s).toks = [] ∨ ∃ c rest, (skipMetaItem s).toks = c :: rest ∧ Comma c) ∧
      (skipMetaItem s).scope = s.scope ∧ (skipMetaItem s).unexp = s.unexp := by
  obtain ⟨pre, h1, h2, h3⟩ := skipToks_spec s.toks
  exact ⟨pre, h1, h2, h3, rfl, rfl⟩

/-- C03: skipping exactly: any comma-free prefix followed by a comma or the end is skipped, and the
comma is not. -/
theorem c03_skip_exact (pre rest : List Tok) (sc : Span) (u : Option Span) (h : NoComma pre)
    (hr : rest = [] ∨ ∃ c r, rest = c :: r ∧ Comma c) :
    skipMetaItem ⟨pre ++ rest, sc, u⟩ = ⟨rest, sc, u⟩ := by
  simp only [skipMetaItem, skipToks_append _ _ h]
  rcases hr with rfl | ⟨c, r, rfl, hc⟩
  · rfl
  · simp [skipToks, (isComma_iff c).2 hc]

/-- C03: skipping twice is skipping once. -/
theorem c03_skip_idempotent (s : Stream) : skipMetaItem (skipMetaItem s) = skipMetaItem s := by
  obtain ⟨_, _, _, h, _⟩ := c03_skip_stops_at_comma s
  generalize hs : skipMetaItem s = s' at *
  obtain ⟨ts, sc, u⟩ := s'
  exact c03_skip_exact [] ts sc u (by simp [NoComma]) h

/-- C03: a group does not stop the skipping, whatever commas it contains. -/
theorem c03_skip_ignores_nested (d : Delim) (inner : List Tok) (a b : Span) (rest : List Tok)
    (sc : Span) (u : Option Span) :
    skipMetaItem ⟨.group d inner a b :: rest, sc, u⟩ = skipMetaItem ⟨rest, sc, u⟩ := by
  simp [skipMetaItem, skipToks, Tok.isComma, Tok.isPunct]

/-- `x (a, b) , y` is skipped up to the second comma. -/
example : skipMetaItem ⟨[.ident ['x'] 1,
      .group .paren [.ident ['a'] 2, .punct ',' false 3, .ident ['b'] 4] 5 6,
      .punct ',' false 7, .ident ['y'] 8], 9, none⟩ =
    ⟨[.punct ',' false 7, .ident ['y'] 8], 9, none⟩ := rfl

/-! ## C04 -/

theorem peekComma_cons (t : Tok) (ts sc u) :
    (Stream.mk (t :: ts) sc u).peekPunct ',' = t.isComma := rfl

/-- C04: the end-of-input check succeeds exactly on nothing or one comma, and then nothing is left;
otherwise it reports the first token that is in the way. -/
theorem c04_eof (s : Stream) :
    (AtEnd s.toks → parseEof s = (.ok (), { s with toks := [] })) ∧
    (¬ AtEnd s.toks →
      (∃ t rest, ¬ Comma t ∧ s.toks = t :: rest ∧
        parseEof s = (.err (.new t.span (.unexpectedTree t)), s)) ∨
      (∃ c t rest, Comma c ∧ s.toks = c :: t :: rest ∧
        parseEof s = (.err (.new t.span (.unexpectedTree t)), { s with toks := t :: rest }))) := by
  obtain ⟨ts, sc, u⟩ := s
  constructor
  · rintro (h | ⟨c, hc, h⟩)
    · simp only at h; subst h; rfl
    · simp only at h; subst h
      simp [parseEof, peekComma_cons, (isComma_iff c).2 hc]
  · intro h
    cases ts with
    | nil => exact absurd (Or.inl rfl) h
    | cons t ts =>
      by_cases hc : Comma t
      · cases ts with
        | nil => exact absurd (Or.inr ⟨t, hc, rfl⟩) h
        | cons t' ts =>
          refine Or.inr ⟨t, t', ts, hc, rfl, ?_⟩
          simp [parseEof, peekComma_cons, (isComma_iff t).2 hc]
      · refine Or.inl ⟨t, ts, hc, rfl, ?_⟩
        simp [parseEof, peekComma_cons, (isComma_eq_false_iff t).2 hc]

/-- C04: peeking tells the same, on any stream (and has no effect, being a function of it). -/
theorem c04_peek (s : Stream) : peekEof s = true ↔ AtEnd s.toks := by
  have h := c04_eof s.fork
  by_cases hs : AtEnd s.toks
  · have h1 := h.1 hs
    simp [peekEof, h1, Res.isOk, hs]
  · obtain ⟨t, rest, _, _, h3⟩ | ⟨c, t, r, _, _, h3⟩ := h.2 hs <;> simp [peekEof, h3, Res.isOk, hs]

/-- The check accepts a lone comma and rejects `, ,`, reporting the second one. -/
example : parseEof ⟨[.punct ',' false 1], 0, none⟩ = (.ok (), ⟨[], 0, none⟩) ∧
    parseEof ⟨[.punct ',' false 1, .punct ',' false 2], 0, none⟩ =
      (.err (.new 2 (.unexpectedTree (.punct ',' false 2))), ⟨[.punct ',' false 2], 0, none⟩) :=
  ⟨rfl, rfl⟩

theorem parseEof_ok {s s' : Stream} (h : parseEof s = (.ok (), s')) :
    AtEnd s.toks ∧ s' = { s with toks := [] } := by
  have h4 := c04_eof s
  by_cases hs : AtEnd s.toks
  · exact ⟨hs, by have := h4.1 hs; rw [this] at h; exact (Prod.mk.inj h).2.symm⟩
  · obtain ⟨t, rest, _, _, h3⟩ | ⟨c, t, r, _, _, h3⟩ := h4.2 hs <;>
      · rw [h3] at h; exact absurd (Prod.mk.inj h).1 (by simp)

theorem parseEof_ne_panic (s : Stream) : (parseEof s).1 ≠ .panic := by
  have h4 := c04_eof s
  by_cases hs : AtEnd s.toks
  · simp [h4.1 hs]
  · obtain ⟨t, rest, _, _, h3⟩ | ⟨c, t, r, _, _, h3⟩ := h4.2 hs <;> simp [h3]

/-! ## C05 -/

section C05
variable {α : Type} (parse : Mode → M Stream α) (inline : Mode → M (List Stream) α)
  (flag : Span → Res α)

/-- The stream starts with `=`. -/
def StartsEq (s : Stream) : Prop := ∃ j sp rest, s.toks = .punct '=' j sp :: rest
/-- The stream starts with a parenthesised group. -/
def StartsParen (s : Stream) : Prop := ∃ inner a b rest, s.toks = .group .paren inner a b :: rest

theorem peekEq_iff (s : Stream) : s.peekPunct '=' = true ↔ StartsEq s := by
  obtain ⟨ts, sc, u⟩ := s
  cases ts with
  | nil => simp [Stream.peekPunct, StartsEq]
  | cons t ts => cases t <;> simp [Stream.peekPunct, StartsEq, Tok.isPunct]

theorem peekParen_iff (s : Stream) : s.peekDelim .paren = true ↔ StartsParen s := by
  obtain ⟨ts, sc, u⟩ := s
  cases ts with
  | nil => simp [Stream.peekDelim, StartsParen]
  | cons t ts => cases t <;> simp [Stream.peekDelim, StartsParen]

/-- C05, value form: after `=` the rest of the stream goes to `parse_meta_item`. -/
theorem c05_equals (nameSpan : Span) (j : Bool) (sp : Span) (rest : List Tok) (sc : Span)
    (u : Option Span) :
    parseNamedMetaItem parse inline flag nameSpan ⟨.punct '=' j sp :: rest, sc, u⟩ =
      parse (.named nameSpan) ⟨rest, sc, u⟩ := by
  simp [parseNamedMetaItem, Stream.peekPunct, Tok.isPunct, parsePunct, bind, M.bind]

/-- C05, flag form: anything that is neither `=` nor a parenthesised group, or nothing at all,
selects the flag form and consumes nothing. -/
theorem c05_flag (nameSpan : Span) (s : Stream) (h1 : ¬ StartsEq s) (h2 : ¬ StartsParen s) :
    parseNamedMetaItem parse inline flag nameSpan s = (flag nameSpan, s) := by
  rw [← peekEq_iff] at h1
  rw [← peekParen_iff] at h2
  simp [parseNamedMetaItem, h1, h2]

/-- C05, inline form: the group's contents, and only they, go to `parse_meta_item_inline`; success
means that it succeeded and left at most a trailing comma; the stream continues after the group. -/
theorem c05_paren (nameSpan : Span) (inner : List Tok) (a b : Span) (rest : List Tok) (sc : Span)
    (u : Option Span) :
    (∀ v s', parseNamedMetaItem parse inline flag nameSpan ⟨.group .paren inner a b :: rest, sc, u⟩
        = (.ok v, s') →
      ∃ l, inline (.named nameSpan) [⟨inner, b, u⟩] = (.ok v, l) ∧
        (∀ c, l = [c] → AtEnd c.toks) ∧ s'.toks = rest ∧ s'.scope = sc) ∧
    (∀ v c, inline (.named nameSpan) [⟨inner, b, u⟩] = (.ok v, [c]) → AtEnd c.toks →
      ∃ u', parseNamedMetaItem parse inline flag nameSpan ⟨.group .paren inner a b :: rest, sc, u⟩
        = (.ok v, ⟨rest, sc, u'⟩)) ∧
    (∀ e l, inline (.named nameSpan) [⟨inner, b, u⟩] = (.err e, l) →
      ∃ u', parseNamedMetaItem parse inline flag nameSpan ⟨.group .paren inner a b :: rest, sc, u⟩
        = (.err e, ⟨rest, sc, u'⟩)) := by
  simp only [parseNamedMetaItem, Stream.peekPunct, Tok.isPunct, Stream.peekDelim,
    parseDelimitedMetaItem, parseDelimitedWith, withContent, enter, single, bind, M.bind, pure,
    M.pure, Bool.false_eq_true, if_false, beq_self_eq_true, if_true]
  refine ⟨?_, ?_, ?_⟩
  · intro v s' h
    cases hi : inline (.named nameSpan) [⟨inner, b, u⟩] with
    | mk r l =>
      rw [hi] at h
      cases r with
      | ok v' =>
        simp only at h
        cases he : parseEof (l.headD ⟨inner, b, u⟩) with
        | mk r' s'' =>
          rw [he] at h
          cases r' with
          | ok x =>
            simp only [Prod.mk.injEq, Res.ok.injEq] at h
            obtain ⟨rfl, rfl⟩ := h
            refine ⟨l, rfl, ?_, rfl, rfl⟩
            rintro c rfl
            exact (parseEof_ok he).1
          | err e => simp at h
          | panic => simp at h
      | err e => simp at h
      | panic => simp at h
  · intro v c hi hc
    have := (c04_eof c).1 hc
    simp [hi, this, Stream.dropChild]
  · intro e l hi
    simp [hi, Stream.dropChild]

/-- C05: `parse_named_meta_item_with` on the trait's three functions is `parse_named_meta_item`. -/
theorem c05_with_agrees (nameSpan : Span) (s : Stream) :
    parseNamedWith parse inline flag nameSpan s =
      parseNamedMetaItem parse inline flag nameSpan s := by
  unfold parseNamedWith parseNamedMetaItem
  split
  · rename_i h
    obtain ⟨j, sp, rest, h⟩ := (peekEq_iff s).1 h
    simp [h, parsePunct, Tok.isPunct, bind, M.bind]
  · rfl

/-- C05: `try_parse_named_meta_item` makes the same three-way choice. -/
theorem c05_try_agrees (s : Stream) :
    (StartsEq s → ∃ s', tryParseNamed s = (.ok .equals, s') ∧ s'.toks = s.toks.tail) ∧
    (∀ inner a b rest, s.toks = .group .paren inner a b :: rest →
      tryParseNamed s = (.ok (.paren ⟨inner, b, s.unexp⟩), { s with toks := rest })) ∧
    (¬ StartsEq s → ¬ StartsParen s → tryParseNamed s = (.ok .flag, s)) := by
  refine ⟨fun h => ?_, fun inner a b rest h => ?_, fun h1 h2 => ?_⟩
  · have := (peekEq_iff s).2 h
    exact ⟨_, by simp [tryParseNamed, this]; rfl, rfl⟩
  · simp [tryParseNamed, Stream.peekPunct, h, Tok.isPunct, Stream.peekDelim, enter]
  · rw [← peekEq_iff] at h1
    rw [← peekParen_iff] at h2
    simp [tryParseNamed, h1, h2]
end C05

/-! ## C06, C11 -/

/-- C06: `parse_first` on a non-empty list runs the parser on the first stream only, succeeds only
if it left at most a comma there, and does not touch the other streams. -/
theorem c06_first_stream {α : Type} (f : Mode → M Stream α) (mode : Mode) (s : Stream)
    (rest : List Stream) :
    (∃ s', (parseFirst f mode (s :: rest)).2 = s' :: rest) ∧
    (∀ v l, parseFirst f mode (s :: rest) = (.ok v, l) →
      ∃ s1, f mode s = (.ok v, s1) ∧ AtEnd s1.toks ∧ l = { s1 with toks := [] } :: rest) ∧
    (∀ v s1, f mode s = (.ok v, s1) → AtEnd s1.toks →
      parseFirst f mode (s :: rest) = (.ok v, { s1 with toks := [] } :: rest)) ∧
    (∀ e s1, f mode s = (.err e, s1) → parseFirst f mode (s :: rest) = (.err e, s1 :: rest)) := by
  refine ⟨⟨_, rfl⟩, ?_, ?_, ?_⟩
  · intro v l h
    simp only [parseFirst, bind, M.bind, pure, M.pure] at h
    cases hf : f mode s with
    | mk r s1 =>
      rw [hf] at h
      cases r with
      | ok v' =>
        simp only at h
        cases he : parseEof s1 with
        | mk r' s2 =>
          rw [he] at h
          cases r' with
          | ok x =>
            simp only [Prod.mk.injEq, Res.ok.injEq] at h
            obtain ⟨rfl, rfl⟩ := h
            obtain ⟨h1, rfl⟩ := parseEof_ok he
            exact ⟨s1, rfl, h1, rfl⟩
          | err e => simp at h
          | panic => simp at h
      | err e => simp at h
      | panic => simp at h
  · intro v s1 hf he
    have := (c04_eof s1).1 he
    simp [parseFirst, bind, M.bind, pure, M.pure, hf, this]
  · intro e s1 hf
    simp [parseFirst, bind, M.bind, hf]

/-- C06: with no streams the parser runs on an empty stream; its error comes back with the first
message at the name span (the call site in a positional context) and the same texts. -/
theorem c06_no_stream_partial {α : Type} (f : Mode → M Stream α) (mode : Mode) (v : α)
    (e : SynErr) :
    ((parse2 (f mode) [] = .ok v → parseFirst f mode [] = (.ok v, []))) ∧
    (parse2 (f mode) [] = .err e →
      ∃ e', parseFirst f mode [] = (.err e', []) ∧
        e'.head.span = (match mode with | .named sp => sp | .unnamed => callSite) ∧
        e'.toList.map (·.text) = e.toList.map (·.text)) := by
  constructor
  · intro h; simp [parseFirst, parseEmpty, h]
  · intro h
    refine ⟨respanFirst (mode.namedSpan.getD callSite) e, by simp only [parseFirst, parseEmpty, h],
      ?_, ?_⟩
    · cases mode <;> rfl
    · simp [respanFirst, SynErr.toList]

/-- C06, refuted as documented: `parse_first` on its own accepts tokens left in later streams
(`parse::<Nothing>()` does not look at the input).  They are rejected only by an enclosing check,
see `c19_all_consumed`. -/
theorem c06_later_streams_accepted : ¬ ∀ (α : Type) (f : Mode → M Stream α) (mode : Mode)
    (s t : Stream) (v : α) (l : List Stream),
    parseFirst f mode [s, t] = (.ok v, l) → AtEnd t.toks := by
  intro h
  have := h Unit (fun _ => parseNothing) .unnamed ⟨[], 0, none⟩ ⟨[.ident ['x'] 1], 0, none⟩ ()
    [⟨[], 0, none⟩, ⟨[.ident ['x'] 1], 0, none⟩] rfl
  rcases this with h | ⟨c, ⟨j, sp, rfl⟩, h⟩ <;> simp at h

/-- C11, what holds: `parse_empty` relocates the first message; the others keep their place and no
text is lost. -/
theorem c11_parse_empty_first_partial {α : Type} (f : M Stream α) (span : Span) :
    (∀ v, parse2 f [] = .ok v → parseEmpty span f = .ok v) ∧
    (∀ e, parse2 f [] = .err e → ∃ e', parseEmpty span f = .err e' ∧ e'.head.span = span ∧
      e'.head.text = e.head.text ∧ e'.tail = e.tail) ∧
    (∀ e, parse2 f [] = .err e → e.tail = [] →
      ∃ e', parseEmpty span f = .err e' ∧ ∀ m ∈ e'.toList, m.span = span) := by
  refine ⟨fun v h => by simp [parseEmpty, h], fun e h => ?_, fun e h ht => ?_⟩
  · exact ⟨respanFirst span e, by simp [parseEmpty, h], rfl, rfl, rfl⟩
  · refine ⟨respanFirst span e, by simp [parseEmpty, h], ?_⟩
    simp [respanFirst, SynErr.toList, ht]

/-- C11, refuted: an error with two messages keeps the second one where it was. -/
theorem c11_parse_empty_violated : ¬ ∀ (f : M Stream Unit) (span : Span) (e : SynErr),
    parseEmpty span f = .err e → ∀ m ∈ e.toList, m.span = span := by
  intro h
  have := h (M.fail ⟨⟨1, .expectedToken⟩, [⟨2, .expectedToken⟩]⟩) 7 _ rfl ⟨2, .expectedToken⟩
    (by simp [respanFirst, SynErr.toList])
  simp at this

/-- The error of an integer parser on no input is moved to the name span. -/
example : parseEmpty 7 (parsePunct 'x') = .err (.new 7 (.expectedPunct ['x'])) := rfl

/-! ## C07 -/

/-- The tokens of `a::b::c`. -/
inductive SegToks : List Str → List Tok → Prop
  | one (s : Str) (sp : Span) : SegToks [s] [.ident s sp]
  | cons (s : Str) (sp a b : Span) (j : Bool) {ss : List Str} {ts : List Tok} :
      SegToks ss ts → SegToks (s :: ss) (.ident s sp :: .punct ':' true a :: .punct ':' j b :: ts)

/-- The tokens of a path, `lead` telling whether it starts with `::`. -/
inductive PathToks : Bool → List Str → List Tok → Prop
  | plain {ss ts} : SegToks ss ts → PathToks false ss ts
  | lead (a b : Span) (j : Bool) {ss ts} : SegToks ss ts →
      PathToks true ss (.punct ':' true a :: .punct ':' j b :: ts)

/-- The tokens start with `::`. -/
def StartsColon2 (ts : List Tok) : Prop :=
  ∃ a j b rest, ts = .punct ':' true a :: .punct ':' j b :: rest

theorem pathLoop_suffix (ts : List Tok) : ∃ pre, ts = pre ++ (pathLoop ts).2.2 := by
  fun_induction pathLoop ts with
  | case1 s sp a j b rest segs trailing rest' h ih =>
    obtain ⟨pre, hp⟩ := ih
    rw [h] at hp
    exact ⟨.ident s sp :: .punct ':' true a :: .punct ':' j b :: pre, by simp [← hp]⟩
  | case2 s sp rest h => exact ⟨[.ident s sp], rfl⟩
  | case3 toks h1 h2 => exact ⟨[], rfl⟩

theorem pathLoop_sound (ts : List Tok) (h : (pathLoop ts).1 ≠ [])
    (ht : (pathLoop ts).2.1 = false) :
    ∃ pre, SegToks ((pathLoop ts).1.map (·.1)) pre ∧ ts = pre ++ (pathLoop ts).2.2 ∧
      ¬ StartsColon2 (pathLoop ts).2.2 := by
  fun_induction pathLoop ts with
  | case1 s sp a j b rest segs trailing rest' hp ih =>
    by_cases hs : segs = []
    · simp [hs] at ht
    · simp only [List.isEmpty_iff, hs, if_false] at ht
      rw [hp] at ih
      obtain ⟨pre, h1, h2, h3⟩ := ih hs ht
      exact ⟨.ident s sp :: .punct ':' true a :: .punct ':' j b :: pre,
        .cons s sp a b j h1, by simp [← h2], h3⟩
  | case2 s sp rest hne =>
    refine ⟨[.ident s sp], .one s sp, rfl, ?_⟩
    rintro ⟨a, j, b, r, rfl⟩
    exact hne a j b r rfl
  | case3 toks h1 h2 => simp at h

theorem pathLoop_complete {ss : List Str} {pre : List Tok} (h : SegToks ss pre) (rest : List Tok)
    (hr : ¬ StartsColon2 rest) :
    (pathLoop (pre ++ rest)).1.map (·.1) = ss ∧ (pathLoop (pre ++ rest)).2 = (false, rest) := by
  induction h with
  | one s sp =>
    have : pathLoop (.ident s sp :: rest) = ([(s, sp)], false, rest) := by
      unfold pathLoop
      split
      · rename_i heq
        simp only [List.cons.injEq, Tok.ident.injEq] at heq
        exact absurd ⟨_, _, _, _, heq.2⟩ hr
      · rename_i heq
        simp only [List.cons.injEq, Tok.ident.injEq] at heq
        obtain ⟨⟨rfl, rfl⟩, rfl⟩ := heq
        rfl
      · rename_i heq1 heq2
        exact absurd rfl (heq2 s sp rest)
    simp [this]
  | cons s sp a b j h ih =>
    obtain ⟨ih1, ih2⟩ := ih
    rename_i ss ts
    have hne : (pathLoop (ts ++ rest)).1 ≠ [] := by
      intro hnil
      rw [hnil] at ih1
      cases h <;> simp at ih1
    simp only [List.cons_append, pathLoop]
    refine ⟨by simp [ih1], ?_⟩
    simp [ih2, hne]

/-- C07: a parsed path is one or more identifiers separated by `::`, optionally with a leading
`::`; exactly its tokens are consumed (the path is maximal). -/
theorem c07_path_sound [Env] (s s' : Stream) (p : Path) (h : parseAnyPath s = (.ok p, s')) :
    ∃ pt, PathToks p.leading p.segs pt ∧ s.toks = pt ++ s'.toks ∧ ¬ StartsColon2 s'.toks ∧
      s'.scope = s.scope ∧ s'.unexp = s.unexp := by
  unfold parseAnyPath at h
  generalize hlead : leadColon s.toks = lc at h
  obtain ⟨lead, toks⟩ := lc
  simp only at h
  generalize hl : pathLoop toks = pl at h
  obtain ⟨segs, trailing, toks'⟩ := pl
  simp only at h
  split at h
  · simp at h
  · rename_i hne
    split at h
    · simp at h
    · rename_i htr
      simp only [Prod.mk.injEq, Res.ok.injEq] at h
      obtain ⟨rfl, rfl⟩ := h
      have hs := pathLoop_sound toks (by rw [hl]; simpa using hne) (by rw [hl]; simpa using htr)
      rw [hl] at hs
      obtain ⟨pre, h1, h2, h3⟩ := hs
      simp only
      unfold leadColon at hlead
      split at hlead
      · rename_i a j b rest heq
        simp only [Prod.mk.injEq] at hlead
        obtain ⟨rfl, rfl⟩ := hlead
        exact ⟨_, .lead a b j h1, by simp [heq, ← h2], h3, trivial, trivial⟩
      · simp only [Prod.mk.injEq] at hlead
        obtain ⟨rfl, rfl⟩ := hlead
        exact ⟨pre, .plain h1, h2, h3, trivial, trivial⟩

/-- C07: every such path is accepted and read back unchanged, whatever follows (unless it continues
with `::`), and the tokens after it are untouched. -/
theorem c07_path_roundtrip [Env] (lead : Bool) (segs : List Str) (pt rest : List Tok) (sc : Span)
    (u : Option Span) (h : PathToks lead segs pt) (hr : ¬ StartsColon2 rest) :
    ∃ p, parseAnyPath ⟨pt ++ rest, sc, u⟩ = (.ok p, ⟨rest, sc, u⟩) ∧ p.leading = lead ∧
      p.segs = segs := by
  have main : ∀ (ld : List Span) (ts : List Tok), SegToks segs ts →
      (pathLoop (ts ++ rest)).1.isEmpty = false ∧ (pathLoop (ts ++ rest)).2.1 = false ∧
        (pathLoop (ts ++ rest)).2.2 = rest ∧ (pathLoop (ts ++ rest)).1.map (·.1) = segs := by
    intro ld ts hts
    obtain ⟨h1, h2⟩ := pathLoop_complete hts rest hr
    refine ⟨?_, by rw [h2], by rw [h2], h1⟩
    cases hq : (pathLoop (ts ++ rest)).1 with
    | nil => rw [hq] at h1; cases hts <;> simp at h1
    | cons => rfl
  unfold parseAnyPath
  cases h with
  | plain hts =>
    obtain ⟨m1, m2, m3, m4⟩ := main [] pt hts
    have : leadColon (pt ++ rest) = ([], pt ++ rest) := by
      cases hts <;> rfl
    simp only [this]
    simp [m1, m2, m3, m4]
  | lead a b j hts =>
    obtain ⟨m1, m2, m3, m4⟩ := main [a, b] _ hts
    simp [leadColon, m1, m2, m3, m4]

/-- C07: anything that does not start with an identifier or `::` is rejected. -/
theorem c07_path_rejects [Env] (s : Stream) (h1 : ∀ x sp rest, s.toks ≠ .ident x sp :: rest)
    (h2 : ¬ StartsColon2 s.toks) :
    ∃ e s', parseAnyPath s = (.err e, s') := by
  unfold parseAnyPath
  have hm : leadColon s.toks = ([], s.toks) := by
    unfold leadColon
    split
    · rename_i heq; exact absurd ⟨_, _, _, _, heq⟩ h2
    · rfl
  rw [hm]
  have hp : pathLoop s.toks = ([], false, s.toks) := by
    unfold pathLoop
    split
    · rename_i heq; exact absurd heq (h1 _ _ _)
    · rename_i heq; exact absurd heq (h1 _ _ _)
    · rfl
  simp [hp]

/-- Segments as they occur in identifiers: no colon inside. -/
def NoColon (s : Str) : Prop := ':' ∉ s

/-- C07: the key string determines the path (identifiers contain no colon), so callbacks that match
on key strings distinguish all keys. -/
theorem c07_key_injective (xs ys : List Str) (hx : xs ≠ []) (hy : ys ≠ [])
    (cx : ∀ s ∈ xs, NoColon s) (cy : ∀ s ∈ ys, NoColon s) (h : keyString xs = keyString ys) :
    xs = ys := by
  have split : ∀ (a b c d : Str), NoColon a → NoColon b → a ++ ':' :: c = b ++ ':' :: d →
      a = b ∧ c = d := by
    intro a
    induction a with
    | nil =>
      intro b c d _ hb he
      cases b with
      | nil => simpa using he
      | cons x b => simp at he; exact absurd (List.mem_cons.2 (Or.inl he.1)) hb
    | cons x a ih =>
      intro b c d ha hb he
      cases b with
      | nil => simp at he; exact absurd (List.mem_cons.2 (Or.inl he.1.symm)) ha
      | cons y b =>
        simp only [List.cons_append, List.cons.injEq] at he
        obtain ⟨rfl, rfl⟩ := ih b c d (fun hm => ha (by simp [hm])) (fun hm => hb (by simp [hm])) he.2
        simp [he.1]
  have nocolon : ∀ (a b c : Str), NoColon a → a = b ++ ':' :: c → False := by
    intro a b c ha he; exact ha (by simp [he])
  induction xs generalizing ys with
  | nil => exact absurd rfl hx
  | cons x xs ih =>
    cases ys with
    | nil => exact absurd rfl hy
    | cons y ys =>
      cases xs with
      | nil =>
        cases ys with
        | nil => simpa [keyString] using h
        | cons y' ys =>
          simp only [keyString, List.append_assoc, List.cons_append, List.nil_append] at h
          exact (nocolon x y _ (cx x (by simp)) h).elim
      | cons x' xs =>
        cases ys with
        | nil =>
          simp only [keyString, List.append_assoc, List.cons_append, List.nil_append] at h
          exact (nocolon y x _ (cy y (by simp)) h.symm).elim
        | cons y' ys =>
          simp only [keyString, List.append_assoc, List.cons_append, List.nil_append] at h
          obtain ⟨rfl, he⟩ := split x y _ _ (cx x (by simp)) (cy y (by simp)) h
          simp only [List.cons.injEq, true_and] at he
          have := ih (y' :: ys) (by simp) (by simp) (fun s hs => cx s (by simp [hs]))
            (fun s hs => cy s (by simp [hs])) he
          simp [this]

/-- `a::type = ..` is the path with segments `a`, `type`. -/
example [Env] : ∃ p, parseAnyPath ⟨[.ident ['a'] 1, .punct ':' true 2, .punct ':' false 3,
      .ident "type".toList 4] ++ [.punct '=' false 5], 9, none⟩ =
      (.ok p, ⟨[.punct '=' false 5], 9, none⟩) ∧ p.leading = false ∧
      p.segs = [['a'], "type".toList] :=
  c07_path_roundtrip _ _ _ _ _ _ (.plain (.cons _ _ _ _ _ (.one _ _)))
    (by rintro ⟨a, j, b, r, h⟩; simp at h)

end Deluxe
