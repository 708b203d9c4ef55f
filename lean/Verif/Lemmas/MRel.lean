import Verif.Lemmas.Agree
/-!
# Computations with related values that read the same
-/
namespace Deluxe

variable {σ α β : Type}

/-- Related values, or both fail, or both panic; and the same state afterwards. -/
def M.Rel (R : α → β → Prop) (m : M σ α) (m' : M σ β) : Prop := ∀ s, Res.Rel R (m s).1 (m' s).1 ∧ (m s).2 = (m' s).2

variable {R : α → β → Prop}

theorem M.Rel.single {m : M (List Stream) α} {m' : M (List Stream) β} (h : m.Rel R m') :
    (single m).Rel R (single m') := fun s =>
  ⟨(h [s]).1, by simp only [Deluxe.single, (h [s]).2]⟩

theorem M.Rel.delimited {m : M Stream α} {m' : M Stream β} (h : m.Rel R m') (d : Delim) :
    (parseDelimitedWith d m).Rel R (parseDelimitedWith d m') := fun s => by
  simp only [parseDelimitedWith, withContent]
  cases enter d s with
  | error e => exact ⟨.err, rfl⟩
  | ok x =>
    obtain ⟨c, s'⟩ := x
    have := h c
    simp only [Bind.bind, M.bind]
    generalize m c = a at this ⊢
    generalize m' c = b at this ⊢
    obtain ⟨a, la⟩ := a
    obtain ⟨b, lb⟩ := b
    obtain ⟨hab, hl⟩ := this
    simp only at hab hl
    subst hl
    cases hab with
    | err => exact ⟨.err, rfl⟩
    | panic => exact ⟨.panic, rfl⟩
    | ok h =>
      dsimp only
      cases parseEof la with
      | mk r l =>
        cases r with
        | ok u => exact ⟨.ok h, rfl⟩
        | err e => exact ⟨.err, rfl⟩
        | panic => exact ⟨.panic, rfl⟩

theorem M.Rel.parse2 {m : M Stream α} {m' : M Stream β} (h : m.Rel R m') (toks : List Tok) :
    Res.Rel R (parse2 m toks) (parse2 m' toks) := by
  unfold Deluxe.parse2
  have := h ⟨toks, callSite, none⟩
  generalize m ⟨toks, callSite, none⟩ = a at this ⊢
  generalize m' ⟨toks, callSite, none⟩ = b at this ⊢
  obtain ⟨a, la⟩ := a
  obtain ⟨b, lb⟩ := b
  obtain ⟨hab, hl⟩ := this
  simp only at hab hl
  subst hl
  cases hab with
  | err => exact .err
  | panic => exact .panic
  | ok h =>
    obtain ⟨t, sc, u⟩ := la
    cases u with
    | some sp => exact .err
    | none =>
      cases t with
      | nil => exact .ok h
      | cons t ts => exact .err

theorem M.Rel.parseEmpty {m : M Stream α} {m' : M Stream β} (h : m.Rel R m') (sp : Span) :
    Res.Rel R (parseEmpty sp m) (parseEmpty sp m') := by
  unfold Deluxe.parseEmpty
  have := h.parse2 []
  generalize Deluxe.parse2 m [] = a at this ⊢
  generalize Deluxe.parse2 m' [] = b at this ⊢
  cases this with
  | err => exact .err
  | panic => exact .panic
  | ok h => exact .ok h

theorem M.Rel.namedWith {parse : Mode → M Stream α} {parse' : Mode → M Stream β} {inline : Mode → M (List Stream) α}
    {inline' : Mode → M (List Stream) β} {flag : Span → Res α} {flag' : Span → Res β}
    (hp : ∀ m, (parse m).Rel R (parse' m)) (hi : ∀ m, (inline m).Rel R (inline' m))
    (hf : ∀ sp, Res.Rel R (flag sp) (flag' sp)) (sp : Span) :
    (parseNamedWith parse inline flag sp).Rel R (parseNamedWith parse' inline' flag' sp) := fun s => by
  unfold parseNamedWith
  split
  · exact hp _ _
  · split
    · exact (hi _).single.delimited .paren s
    · exact ⟨hf _, rfl⟩

theorem M.Rel.namedItem {parse : Mode → M Stream α} {parse' : Mode → M Stream β} {inline : Mode → M (List Stream) α}
    {inline' : Mode → M (List Stream) β} {flag : Span → Res α} {flag' : Span → Res β}
    (hp : ∀ m, (parse m).Rel R (parse' m)) (hi : ∀ m, (inline m).Rel R (inline' m))
    (hf : ∀ sp, Res.Rel R (flag sp) (flag' sp)) (sp : Span) :
    (parseNamedMetaItem parse inline flag sp).Rel R (parseNamedMetaItem parse' inline' flag' sp) := fun s => by
  unfold parseNamedMetaItem
  split
  · simp only [Bind.bind, M.bind]
    cases parsePunct '=' s with
    | mk r s' =>
      cases r with
      | ok u => exact hp _ _
      | err e => exact ⟨.err, rfl⟩
      | panic => exact ⟨.panic, rfl⟩
  · split
    · exact (hi _).single.delimited .paren s
    · exact ⟨hf _, rfl⟩

/-- Dictionaries that read the same, with related values. -/
structure Dict.Rel (R : α → β → Prop) (x : Dict α) (y : Dict β) : Prop where
  parse : ∀ m, (x.parse m).Rel R (y.parse m)
  inline : ∀ m, (x.inline m).Rel R (y.inline m)
  flag : ∀ sp, Res.Rel R (x.flag sp) (y.flag sp)
  named : ∀ n sp, (x.named n sp).Rel R (y.named n sp)

theorem M.Rel.parseTokens {m : M Stream α} {m' : M Stream β} (h : m.Rel R m') (toks : List Tok) :
    Res.Rel R (parseTokens toks m) (parseTokens toks m') := by
  unfold Deluxe.parseTokens Deluxe.parse2
  dsimp only
  have := h ⟨toks, callSite, none⟩
  generalize m ⟨toks, callSite, none⟩ = a at this ⊢
  generalize m' ⟨toks, callSite, none⟩ = b at this ⊢
  obtain ⟨a, la⟩ := a
  obtain ⟨b, lb⟩ := b
  obtain ⟨hab, hl⟩ := this
  simp only at hab hl
  subst hl
  cases he : parseEof la with
  | mk r l =>
    obtain ⟨t, sc, u⟩ := l
    cases hab with
    | err => cases r <;> simp only [he] <;> cases u <;> first | exact .err | (cases t <;> exact .err)
    | panic => exact .panic
    | ok h => cases r <;> simp only [he] <;> cases u <;> first | exact .err | (cases t <;> first | exact .err | exact .ok h)

theorem parseNext_rel {func : List (Str × Span) → M (List Stream) α} {func' : List (Str × Span) → M (List Stream) β}
    (h : ∀ ps, (func ps).Rel R (func' ps)) (attrs : List (List Tok × Str × Span)) (ps : List (Str × Span)) :
    (parseNext func attrs ps).Rel R (parseNext func' attrs ps) := by
  induction attrs generalizing ps with
  | nil =>
    intro l
    simp only [parseNext, Bind.bind, M.bind]
    have := h ps l
    generalize func ps l = a at this ⊢
    generalize func' ps l = b at this ⊢
    obtain ⟨a, la⟩ := a
    obtain ⟨b, lb⟩ := b
    obtain ⟨hab, hl⟩ := this
    simp only at hab hl
    subst hl
    cases hab with
    | err => exact ⟨.err, rfl⟩
    | panic => exact ⟨.panic, rfl⟩
    | ok h =>
      dsimp only
      cases eofAll la with
      | mk r l =>
        cases r with
        | ok u => exact ⟨.ok h, rfl⟩
        | err e => exact ⟨.err, rfl⟩
        | panic => exact ⟨.panic, rfl⟩
  | cons a attrs ih =>
    obtain ⟨toks, name, span⟩ := a
    intro bufs
    have key : ∀ s : Stream, Res.Rel R
        (if s.isEmpty then
          let (r, l) := parseNext func attrs (ps ++ [(name, span)]) (bufs ++ [s.fork])
          (r, l.take bufs.length, s)
        else
          match enter .paren s with
          | .error e => (.err e, bufs, s)
          | .ok (content, s') =>
            let (r, l) := parseNext func attrs (ps ++ [(name, span)]) (bufs ++ [content])
            (r, l.take bufs.length, s'.dropChild (l.getD bufs.length content)) : Res α × List Stream × Stream).1
        (if s.isEmpty then
          let (r, l) := parseNext func' attrs (ps ++ [(name, span)]) (bufs ++ [s.fork])
          (r, l.take bufs.length, s)
        else
          match enter .paren s with
          | .error e => (.err e, bufs, s)
          | .ok (content, s') =>
            let (r, l) := parseNext func' attrs (ps ++ [(name, span)]) (bufs ++ [content])
            (r, l.take bufs.length, s'.dropChild (l.getD bufs.length content)) : Res β × List Stream × Stream).1 ∧
        (if s.isEmpty then
          let (r, l) := parseNext func attrs (ps ++ [(name, span)]) (bufs ++ [s.fork])
          (r, l.take bufs.length, s)
        else
          match enter .paren s with
          | .error e => (.err e, bufs, s)
          | .ok (content, s') =>
            let (r, l) := parseNext func attrs (ps ++ [(name, span)]) (bufs ++ [content])
            (r, l.take bufs.length, s'.dropChild (l.getD bufs.length content)) : Res α × List Stream × Stream).2 =
        (if s.isEmpty then
          let (r, l) := parseNext func' attrs (ps ++ [(name, span)]) (bufs ++ [s.fork])
          (r, l.take bufs.length, s)
        else
          match enter .paren s with
          | .error e => (.err e, bufs, s)
          | .ok (content, s') =>
            let (r, l) := parseNext func' attrs (ps ++ [(name, span)]) (bufs ++ [content])
            (r, l.take bufs.length, s'.dropChild (l.getD bufs.length content)) : Res β × List Stream × Stream).2 := by
      intro s
      split
      · obtain ⟨h1, h2⟩ := ih (ps ++ [(name, span)]) (bufs ++ [s.fork])
        exact ⟨h1, by dsimp only; rw [h2]⟩
      · cases enter .paren s with
        | error e => exact ⟨.err, rfl⟩
        | ok x =>
          obtain ⟨c, s'⟩ := x
          obtain ⟨h1, h2⟩ := ih (ps ++ [(name, span)]) (bufs ++ [c])
          exact ⟨h1, by dsimp only; rw [h2]⟩
    simp only [parseNext]
    refine ⟨M.Rel.parseTokens ?_ toks, ?_⟩
    · intro s
      exact ⟨(key s).1, congrArg Prod.snd (key s).2⟩
    · exact congrArg Prod.fst (key ⟨toks, callSite, none⟩).2

theorem parseStructAttrTokens_rel {func : List (Str × Span) → M (List Stream) α}
    {func' : List (Str × Span) → M (List Stream) β} (h : ∀ ps, (func ps).Rel R (func' ps))
    (attrs : List (List Tok × Str × Span)) :
    Res.Rel R (parseStructAttrTokens attrs func) (parseStructAttrTokens attrs func') :=
  (parseNext_rel h attrs [] []).1

end Deluxe
