import Verif.Model.ProcMacro
import Verif.Props.Progress
import Verif.Props.Structs
/-!
# C86: fields of the compiler's `proc_macro` types

Is a field of type `proc_macro::Literal` read like one of type `proc_macro2::Literal`, and so on for the other
token types?
-/
namespace Deluxe

/-! ## Specification -/

/-- Two parsers read alike on the states in `Q`: they accept together, the second one giving the image of the
value, or they refuse together, at the same place; they leave the same state, and none of them panics.  Only
the texts of errors may differ. -/
def ReadAlike {σ α β : Type} (Q : σ → Prop) (f : α → β) (p : M σ α) (p' : M σ β) : Prop :=
  ∀ s, Q s → (∃ a t, p s = (.ok a, t) ∧ p' s = (.ok (f a), t)) ∨
    (∃ e e' t, p s = (.err e, t) ∧ p' s = (.err e', t) ∧ e.head.span = e'.head.span)

/-- The same for outcomes. -/
def EndAlike {α β : Type} (f : α → β) (r : Res α) (r' : Res β) : Prop :=
  (∃ a, r = .ok a ∧ r' = .ok (f a)) ∨ (∃ e e', r = .err e ∧ r' = .err e' ∧ e.head.span = e'.head.span)

/-- Fields of the two types are read alike, in all forms, when all tokens satisfy `Q`. -/
structure Dict.Alike {α β : Type} (Q : Tok → Prop) (f : α → β) (d : Dict α) (d' : Dict β) : Prop where
  parse : ∀ m, ReadAlike (fun s : Stream => ∀ t ∈ s.toks, Q t) f (d.parse m) (d'.parse m)
  inline : ∀ m, ReadAlike (fun l : List Stream => ∀ s ∈ l, ∀ t ∈ s.toks, Q t) f (d.inline m) (d'.inline m)
  flag : ∀ sp, EndAlike f (d.flag sp) (d'.flag sp)
  named : ∀ n sp, ReadAlike (fun s : Stream => ∀ t ∈ s.toks, Q t) f (d.named n sp) (d'.named n sp)
  missing : ∀ n sp, EndAlike f (d.missing n sp) (d'.missing n sp)

/-- No identifier in the token, at any depth, is in the set. -/
inductive Tok.Without (bad : Str → Bool) : Tok → Prop
  | ident {s : Str} {sp : Span} : bad s = false → Tok.Without bad (.ident s sp)
  | punct {c : Char} {j : Bool} {sp : Span} : Tok.Without bad (.punct c j sp)
  | lit {l : Lit} {sp : Span} : Tok.Without bad (.lit l sp)
  | group {d : Delim} {inner : List Tok} {sp cl : Span} : (∀ t ∈ inner, t.Without bad) →
      Tok.Without bad (.group d inner sp cl)

/-- The spans that are lost: those of groups and punctuation. -/
def Tok.unplaced : Tok → Tok
  | .group d inner _ _ => .group d inner callSite callSite
  | .punct c j _ => .punct c j callSite
  | t => t

/-- Written with `r#`. -/
def WrittenRaw (s : Str) : Bool := s.take 2 == ['r', '#']

/-! ## Lemmas -/

theorem isRaw_eq (s : Str) : isRaw s = WrittenRaw s := by
  match s with
  | [] => rfl
  | [a] => simp [isRaw, WrittenRaw, stripPrefix]
  | a :: b :: s =>
    by_cases h : a = 'r'
    · subst h
      by_cases h' : b = '#'
      · subst h'; rfl
      · have h1 : ¬'#' = b := fun h => h' h.symm
        simp [isRaw, WrittenRaw, stripPrefix, h1]
        exact h'
    · have h1 : ¬'r' = a := fun h' => h h'.symm
      simp [isRaw, WrittenRaw, stripPrefix, h1]
      exact fun h' => absurd h' h

theorem ReadAlike.bind {σ α β γ δ : Type} {Q Q' : σ → Prop} {f : α → β} {g : γ → δ} {p : M σ α} {p' : M σ β}
    {k : α → M σ γ} {k' : β → M σ δ} (h : ReadAlike Q f p p') (hq : ∀ s, Q s → Q' (p s).2)
    (hk : ∀ a, ReadAlike Q' g (k a) (k' (f a))) : ReadAlike Q g (p >>= k) (p' >>= k') := by
  intro s hs
  rcases h s hs with ⟨a, t, h1, h2⟩ | ⟨e, e', t, h1, h2, h3⟩
  · have := hq s hs
    rw [h1] at this
    simp only [Bind.bind, M.bind, h1, h2]
    exact hk a t this
  · exact .inr ⟨e, e', t, by simp only [Bind.bind, M.bind, h1], by simp only [Bind.bind, M.bind, h2], h3⟩

theorem ReadAlike.eof {α β : Type} {Q : Stream → Prop} {f : α → β} {p : M Stream α} {p' : M Stream β}
    (h : ReadAlike Q f p p') :
    ReadAlike Q f (do let r ← p; parseEof; pure r) (do let r ← p'; parseEof; pure r) := by
  refine h.bind (Q' := fun _ => True) (fun _ _ => trivial) fun a s _ => ?_
  simp only [Bind.bind, M.bind]
  have hp : (parseEof s).1 ≠ .panic := by simp only [parseEof]; split <;> (split <;> simp)
  generalize hg : parseEof s = x
  rw [hg] at hp
  obtain ⟨r, t⟩ := x
  cases r with
  | ok u => exact .inl ⟨a, t, rfl, rfl⟩
  | err e => exact .inr ⟨e, e, t, rfl, rfl, rfl⟩
  | panic => exact absurd rfl hp

theorem ReadAlike.parse2 {α β : Type} {Q : Tok → Prop} {f : α → β} {p : M Stream α} {p' : M Stream β}
    (h : ReadAlike (fun s : Stream => ∀ t ∈ s.toks, Q t) f p p') (toks : List Tok) (hq : ∀ t ∈ toks, Q t) :
    EndAlike f (Deluxe.parse2 p toks) (Deluxe.parse2 p' toks) := by
  rcases h ⟨toks, callSite, none⟩ hq with ⟨a, t, h1, h2⟩ | ⟨e, e', t, h1, h2, h3⟩
  · simp only [Deluxe.parse2, h1, h2]
    cases t.unexp with
    | some sp => exact .inr ⟨_, _, rfl, rfl, rfl⟩
    | none =>
      cases t.toks with
      | nil => exact .inl ⟨a, rfl, rfl⟩
      | cons t' _ => exact .inr ⟨_, _, rfl, rfl, rfl⟩
  · simp only [Deluxe.parse2, h1, h2]
    exact .inr ⟨e, e', rfl, rfl, h3⟩

theorem ReadAlike.empty {α β : Type} {Q : Tok → Prop} {f : α → β} {p : M Stream α} {p' : M Stream β}
    (h : ReadAlike (fun s : Stream => ∀ t ∈ s.toks, Q t) f p p') (sp : Span) :
    EndAlike f (parseEmpty sp p) (parseEmpty sp p') := by
  rcases h.parse2 [] (by simp) with ⟨a, h1, h2⟩ | ⟨e, e', h1, h2, h3⟩
  · simp only [parseEmpty, h1, h2]; exact .inl ⟨a, rfl, rfl⟩
  · simp only [parseEmpty, h1, h2]; exact .inr ⟨_, _, rfl, rfl, rfl⟩

theorem ReadAlike.first {α β : Type} {Q : Tok → Prop} {f : α → β} {p : Mode → M Stream α}
    {p' : Mode → M Stream β} (h : ∀ m, ReadAlike (fun s : Stream => ∀ t ∈ s.toks, Q t) f (p m) (p' m)) (m : Mode) :
    ReadAlike (fun l : List Stream => ∀ s ∈ l, ∀ t ∈ s.toks, Q t) f (parseFirst p m) (parseFirst p' m) := by
  intro l hl
  cases l with
  | nil =>
    rcases (h m).empty (m.namedSpan.getD callSite) with ⟨a, h1, h2⟩ | ⟨e, e', h1, h2, h3⟩
    · exact .inl ⟨a, [], by simp only [parseFirst, h1], by simp only [parseFirst, h2]⟩
    · exact .inr ⟨e, e', [], by simp only [parseFirst, h1], by simp only [parseFirst, h2], h3⟩
  | cons s rest =>
    rcases (h m).eof s (hl s List.mem_cons_self) with ⟨a, t, h1, h2⟩ | ⟨e, e', t, h1, h2, h3⟩
    · exact .inl ⟨a, t :: rest, by simp only [parseFirst, h1], by simp only [parseFirst, h2]⟩
    · exact .inr ⟨e, e', t :: rest, by simp only [parseFirst, h1], by simp only [parseFirst, h2], h3⟩

theorem ReadAlike.single {α β : Type} {Q : Tok → Prop} {f : α → β} {p : M (List Stream) α}
    {p' : M (List Stream) β} (h : ReadAlike (fun l : List Stream => ∀ s ∈ l, ∀ t ∈ s.toks, Q t) f p p') :
    ReadAlike (fun s : Stream => ∀ t ∈ s.toks, Q t) f (Deluxe.single p) (Deluxe.single p') := by
  intro s hs
  rcases h [s] (by simpa using hs) with ⟨a, t, h1, h2⟩ | ⟨e, e', t, h1, h2, h3⟩
  · exact .inl ⟨a, t.headD s, by simp only [Deluxe.single, h1], by simp only [Deluxe.single, h2]⟩
  · exact .inr ⟨e, e', t.headD s, by simp only [Deluxe.single, h1], by simp only [Deluxe.single, h2], h3⟩

theorem ReadAlike.content {α β : Type} {Q : Tok → Prop} {f : α → β} {p : M Stream α} {p' : M Stream β}
    (hg : ∀ d inner sp cl, Q (.group d inner sp cl) → ∀ t ∈ inner, Q t) (d : Delim)
    (h : ReadAlike (fun s : Stream => ∀ t ∈ s.toks, Q t) f p p') :
    ReadAlike (fun s : Stream => ∀ t ∈ s.toks, Q t) f (withContent d p) (withContent d p') := by
  intro s hs
  cases he : enter d s with
  | error e => exact .inr ⟨e, e, s, by simp only [withContent, he], by simp only [withContent, he], rfl⟩
  | ok x =>
    obtain ⟨c, s'⟩ := x
    have hc : ∀ t ∈ c.toks, Q t := by
      simp only [enter] at he
      split at he
      · rename_i heq
        split at he
        · cases he
          exact hg _ _ _ _ (hs _ (heq ▸ List.mem_cons_self))
        · cases he
      · cases he
    rcases h c hc with ⟨a, t, h1, h2⟩ | ⟨e, e', t, h1, h2, h3⟩
    · exact .inl ⟨a, s'.dropChild t, by simp only [withContent, he, h1], by simp only [withContent, he, h2]⟩
    · exact .inr ⟨e, e', s'.dropChild t, by simp only [withContent, he, h1], by simp only [withContent, he, h2], h3⟩

theorem Dict.mk'_alike {α β : Type} {Q : Tok → Prop} {f : α → β} {p : Mode → M Stream α} {p' : Mode → M Stream β}
    (hg : ∀ d inner sp cl, Q (.group d inner sp cl) → ∀ t ∈ inner, Q t)
    (h : ∀ m, ReadAlike (fun s : Stream => ∀ t ∈ s.toks, Q t) f (p m) (p' m)) :
    Dict.Alike Q f (.mk' (parse := p)) (.mk' (parse := p')) where
  parse := h
  inline := ReadAlike.first h
  flag := fun _ => .inr ⟨_, _, rfl, rfl, rfl⟩
  missing := fun _ _ => .inr ⟨_, _, rfl, rfl, rfl⟩
  named := fun n sp s hs => by
    simp only [Dict.mk', parseNamedMetaItem]
    by_cases h1 : s.peekPunct '='
    · simp only [h1, ↓reduceIte]
      refine ReadAlike.bind (Q := fun s : Stream => ∀ t ∈ s.toks, Q t) (f := id) ?_ ?_
        (fun _ => h (.named sp)) s hs
      · intro s _
        simp only [parsePunct]
        split
        · split
          · exact .inl ⟨(), _, rfl, rfl⟩
          · exact .inr ⟨_, _, _, rfl, rfl, rfl⟩
        · exact .inr ⟨_, _, _, rfl, rfl, rfl⟩
      · intro s hs
        simp only [parsePunct]
        split
        · rename_i heq
          split
          · exact fun t ht => hs t (heq ▸ List.mem_cons_of_mem _ ht)
          · exact hs
        · exact hs
    · by_cases h2 : s.peekDelim .paren
      · simp only [h1, h2, ↓reduceIte, Bool.false_eq_true]
        exact ReadAlike.content hg .paren (ReadAlike.first h (.named sp)).single.eof s hs
      · simp only [h1, h2, ↓reduceIte, Bool.false_eq_true]
        exact .inr ⟨_, _, _, rfl, rfl, rfl⟩

/-- Reads the next token if `take` knows it. -/
def takeNext {α : Type} (take : Tok → Option α) (err : Stream → SynErr) : M Stream α := fun s =>
  match s.toks with
  | t :: rest =>
    match take t with
    | some a => (.ok a, { s with toks := rest })
    | none => (.err (err s), s)
  | [] => (.err (err s), s)

theorem takeNext_nil {α : Type} (take : Tok → Option α) (err : Stream → SynErr) {s : Stream} (h : s.toks = []) :
    takeNext take err s = (.err (err s), s) := by
  simp only [takeNext, h]

theorem takeNext_some {α : Type} {take : Tok → Option α} (err : Stream → SynErr) {s : Stream} {t : Tok}
    {rest : List Tok} {a : α} (h : s.toks = t :: rest) (ht : take t = some a) :
    takeNext take err s = (.ok a, { s with toks := rest }) := by
  simp only [takeNext, h, ht]

theorem takeNext_none {α : Type} {take : Tok → Option α} (err : Stream → SynErr) {s : Stream} {t : Tok}
    {rest : List Tok} (h : s.toks = t :: rest) (ht : take t = none) :
    takeNext take err s = (.err (err s), s) := by
  simp only [takeNext, h, ht]

/-- The token types: `accept` refuses the tokens which the type of `proc_macro2` refuses. -/
theorem convertNext_alike {α β : Type} {Q : Tok → Prop} (relit : Lit → Except Str Lit) (f : α → β)
    (accept : Tok → Option Text) (err : Stream → SynErr) (atEnd : Text) (get : Tok → Res β) (take : Tok → Option α)
    (he : ∀ s, (err s).head.span = s.span)
    (h : ∀ t, Q t → (∃ a, take t = some a ∧ accept t = none ∧ (convertTok relit t).bind get = .ok (f a)) ∨
      (take t = none ∧ ∃ x, accept t = some x)) :
    ReadAlike (fun s : Stream => ∀ t ∈ s.toks, Q t) f (takeNext take err)
      ((convertNext relit accept atEnd).mapRes (·.bind get)) := by
  intro s hq
  cases hs : s.toks with
  | nil => exact .inr ⟨err s, s.error atEnd, s, takeNext_nil _ _ hs,
      by simp only [M.mapRes, convertNext, hs, Res.bind],
      by rw [he]; simp [Stream.span, Stream.error, hs, SynErr.new]⟩
  | cons t rest =>
    rcases h t (hq t (hs ▸ List.mem_cons_self)) with ⟨a, h1, h2, h3⟩ | ⟨h1, x, h2⟩
    · exact .inl ⟨a, { s with toks := rest }, takeNext_some _ hs h1,
        by simp only [M.mapRes, convertNext, hs, h2, h3]⟩
    · exact .inr ⟨err s, s.error x, s, takeNext_none _ hs h1,
        by simp only [M.mapRes, convertNext, hs, h2, Res.bind],
        by rw [he]; simp [Stream.span, Stream.error, hs, SynErr.new]⟩

theorem convertNext_take {relit : Lit → Except Str Lit} {accept : Tok → Option Text} (atEnd : Text) {t : Tok}
    (h : accept t = none) (rest : List Tok) (sc : Span) (u : Option Span) :
    convertNext relit accept atEnd ⟨t :: rest, sc, u⟩ = (convertTok relit t, ⟨rest, sc, u⟩) := by
  simp only [convertNext, h]

theorem convertNext_refuse {relit : Lit → Except Str Lit} {accept : Tok → Option Text} (atEnd : Text) {t : Tok}
    {text : Text} (h : accept t = some text) (rest : List Tok) (sc : Span) (u : Option Span) :
    convertNext relit accept atEnd ⟨t :: rest, sc, u⟩ = (.err (.new t.span text), ⟨t :: rest, sc, u⟩) := by
  simp only [convertNext, h]
  rfl

theorem convertTok_raw (relit : Lit → Except Str Lit) {x : Str} (hx : isRaw x = true) (sp : Span) :
    convertTok relit (.ident x sp) = .panic := by
  simp only [convertTok, hx, ↓reduceIte]

theorem ReadAlike.congr {σ α β : Type} {Q : σ → Prop} {f : α → β} {p q : M σ α} {p' q' : M σ β}
    (h : ReadAlike Q f p p') (h1 : ∀ s, q s = p s) (h2 : ∀ s, q' s = p' s) : ReadAlike Q f q q' := by
  intro s hs
  rw [h1, h2]
  exact h s hs

/-! ## Theorems -/

/-- **C86.**  A `proc_macro::Literal` is read like a `proc_macro2::Literal`, if the compiler reads the text of
every literal back. -/
theorem c86_literal (relit : Lit → Except Str Lit) (f : Lit → Lit) (h : ∀ l, relit l = .ok (f l)) :
    Dict.Alike (fun _ => True) f literalDict (pmLiteralDict relit) :=
  Dict.mk'_alike (fun _ _ _ _ _ _ _ => trivial) fun _ =>
    (convertNext_alike relit f _ (fun s => .new s.span (.custom "expected literal".toList)) _ _
      (fun | .lit l _ => some l | _ => none) (fun _ => rfl) (fun t _ => by
      cases t with
      | lit l sp => exact .inl ⟨l, rfl, rfl, by simp only [convertTok, h, Res.bind, Tok.literal?]⟩
      | _ => exact .inr ⟨rfl, _, rfl⟩)).congr
    (fun s => by
      obtain ⟨toks, sc, u⟩ := s
      cases toks with
      | nil => rfl
      | cons t rest => cases t <;> rfl) (fun _ => rfl)

/-- A `proc_macro::Punct` is read like a `proc_macro2::Punct`. -/
theorem c86_punct (relit : Lit → Except Str Lit) : Dict.Alike (fun _ => True) id punctDict (pmPunctDict relit) :=
  Dict.mk'_alike (fun _ _ _ _ _ _ _ => trivial) fun _ =>
    (convertNext_alike relit id _ (fun s => .new s.span (.custom "expected punctuation".toList)) _ _
      (fun | .punct c _ _ => if c = '\'' then none else some c | _ => none) (fun _ => rfl) (fun t _ => by
      cases t with
      | punct c j sp =>
        by_cases hc : c = '\''
        · exact .inr ⟨by simp [hc], .expected "punctuation token".toList, by simp [hc]⟩
        · exact .inl ⟨c, by simp [hc], by simp [hc], rfl⟩
      | _ => exact .inr ⟨rfl, _, rfl⟩)).congr
    (fun s => by
      obtain ⟨toks, sc, u⟩ := s
      cases toks with
      | nil => rfl
      | cons t rest =>
        cases t with
        | punct c j sp =>
          by_cases hc : c = '\'' <;> simp [hc, Stream.span, Tok.span, takeNext]
        | _ => rfl) (fun _ => rfl)

/-- A `proc_macro::Group` is read like a `proc_macro2::Group`. -/
theorem c86_group (relit : Lit → Except Str Lit) : Dict.Alike (fun _ => True) id groupDict (pmGroupDict relit) :=
  Dict.mk'_alike (fun _ _ _ _ _ _ _ => trivial) fun _ =>
    (convertNext_alike relit id _
      (fun s => .new s.span (.custom "expected parenthesis or brace or bracket".toList)) _ _
      (fun | .group d inner _ _ => some (d, inner) | _ => none) (fun _ => rfl) (fun t _ => by
      cases t with
      | group d inner sp cl => exact .inl ⟨(d, inner), rfl, rfl, rfl⟩
      | _ => exact .inr ⟨rfl, _, rfl⟩)).congr
    (fun s => by
      obtain ⟨toks, sc, u⟩ := s
      cases toks with
      | nil => rfl
      | cons t rest => cases t <;> rfl) (fun _ => rfl)

/-- A `proc_macro::TokenTree` is read like a `proc_macro2::TokenTree`, up to the lost spans, as long as the
input has no raw identifier. -/
theorem c86_tokenTree_partial (relit : Lit → Except Str Lit) (h : ∀ l, relit l = .ok l) :
    Dict.Alike (Tok.Without WrittenRaw) Tok.unplaced tokenTreeDict (pmTokenTreeDict relit) :=
  Dict.mk'_alike (fun _ _ _ _ hp => by cases hp; assumption) fun _ s hq => by
    obtain ⟨toks, sc, u⟩ := s
    cases toks with
    | nil => exact .inr ⟨_, _, _, rfl, rfl, rfl⟩
    | cons t rest =>
      refine .inl ⟨t, ⟨rest, sc, u⟩, rfl, ?_⟩
      have hp := hq t List.mem_cons_self
      simp only [convertNext]
      cases hp with
      | ident hr => simp [convertTok, isRaw_eq, hr, Tok.unplaced]
      | lit => simp [convertTok, h, Tok.unplaced]
      | punct => rfl
      | group => rfl

/-- A `proc_macro::Ident` is read like any identifier, as long as the input has neither raw identifiers nor
keywords. -/
theorem c86_ident_partial (relit : Lit → Except Str Lit) (keyword : Str → Bool) :
    Dict.Alike (Tok.Without fun s => WrittenRaw s || keyword s) id identDict (pmIdentDict relit keyword) :=
  Dict.mk'_alike (fun _ _ _ _ hp => by cases hp; assumption) fun _ =>
    (convertNext_alike relit id _ (fun s => s.error (.expected "ident".toList)) _ _
      (fun | .ident s _ => some s | _ => none)
      (fun s => by simp only [Stream.error, Stream.span]; cases s.toks <;> rfl) (fun t ht => by
      cases ht with
      | @ident s sp hr =>
        rw [Bool.or_eq_false_iff] at hr
        exact .inl ⟨s, rfl, by simp [acceptIdent, hr.2], by simp [convertTok, isRaw_eq, hr.1, Res.bind, Tok.name?]⟩
      | _ => exact .inr ⟨rfl, _, rfl⟩)).congr
    (fun s => by
      obtain ⟨toks, sc, u⟩ := s
      cases toks with
      | nil => rfl
      | cons t rest => cases t <;> rfl) (fun _ => rfl)

/-- A `proc_macro::TokenStream` is read like a `proc_macro2::TokenStream` where there is something and no
comma. -/
theorem c86_tokenStream_partial (m : Mode) (s : Stream) (hne : s.toks ≠ []) (hc : ∀ t ∈ s.toks, t.isComma = false) :
    pmTokenStreamDict.parse m s = tokenStreamDict.parse m s := by
  obtain ⟨toks, sc, u⟩ := s
  have h : ∀ l : List Tok, (∀ t ∈ l, t.isComma = false) → takeToks l = (l, []) := by
    intro l hl
    induction l with
    | nil => rfl
    | cons t l ih =>
      simp only [takeToks, hl t List.mem_cons_self, Bool.false_eq_true, ↓reduceIte,
        ih fun t ht => hl t (List.mem_cons_of_mem _ ht)]
  cases toks with
  | nil => exact absurd rfl hne
  | cons t rest =>
    have h1 : Stream.peekPunct ',' ⟨t :: rest, sc, u⟩ = false := hc t List.mem_cons_self
    simp only [pmTokenStreamDict, tokenStreamDict, Dict.mk', tokenStreamParse, h1, h _ hc, List.isEmpty_cons,
      Bool.false_eq_true, ↓reduceIte]

/-! ## Where they differ -/

/-- A raw identifier makes the macro panic, where the type of `proc_macro2` reads it: at the place of a
`TokenTree`, in all forms of the item. -/
theorem c86_raw_violated (relit : Lit → Except Str Lit) (x : Str) (hx : WrittenRaw x = true) (sp : Span)
    (rest : List Tok) (sc : Span) (u : Option Span) (m : Mode) (n : Str) (nsp : Span) (esp : Span) (cl : Span) :
    (pmTokenTreeDict relit).parse m ⟨.ident x sp :: rest, sc, u⟩ = (.panic, ⟨rest, sc, u⟩) ∧
    tokenTreeDict.parse m ⟨.ident x sp :: rest, sc, u⟩ = (.ok (.ident x sp), ⟨rest, sc, u⟩) ∧
    ((pmTokenTreeDict relit).named n nsp ⟨.punct '=' false esp :: .ident x sp :: rest, sc, u⟩).1 = .panic ∧
    ((pmTokenTreeDict relit).named n nsp ⟨.group .paren [.ident x sp] esp cl :: rest, sc, u⟩).1 = .panic := by
  have hc : ∀ tx rest sc u, convertNext relit (fun _ => none) tx
      ⟨.ident x sp :: rest, sc, u⟩ = (.panic, ⟨rest, sc, u⟩) := by
    intro tx rest sc u
    rw [convertNext_take tx rfl, convertTok_raw relit ((isRaw_eq x).trans hx)]
  refine ⟨hc (.expected "token tree".toList) _ _ _, rfl, ?_, ?_⟩
  · have : (pmTokenTreeDict relit).named n nsp ⟨.punct '=' false esp :: .ident x sp :: rest, sc, u⟩ =
        convertNext relit (fun _ => none) (.expected "token tree".toList) ⟨.ident x sp :: rest, sc, u⟩ := rfl
    rw [this, hc]
  · simp [pmTokenTreeDict, Dict.mk', parseNamedMetaItem, Stream.peekPunct, Tok.isPunct, Stream.peekDelim,
      parseDelimitedMetaItem, parseDelimitedWith, withContent, enter, single, parseFirst, Bind.bind, M.bind, hc]

/-- The same for `Ident`.  (No entry of the list of keywords is raw.) -/
theorem c86_raw_ident_violated (relit : Lit → Except Str Lit) (keyword : Str → Bool) (x : Str)
    (hx : WrittenRaw x = true) (hk : keyword x = false) (sp : Span) (rest : List Tok) (sc : Span) (u : Option Span)
    (m : Mode) :
    ((pmIdentDict relit keyword).parse m ⟨.ident x sp :: rest, sc, u⟩).1 = .panic ∧
    identDict.parse m ⟨.ident x sp :: rest, sc, u⟩ = (.ok x, ⟨rest, sc, u⟩) := by
  refine ⟨?_, rfl⟩
  simp only [pmIdentDict, Dict.mk', M.mapRes]
  rw [convertNext_take _ (by simp [acceptIdent, hk]), convertTok_raw relit ((isRaw_eq x).trans hx)]
  rfl

/-- A keyword, such as `type` or `_`, is refused for `Ident`; `syn::Ident` is read with any name. -/
theorem c86_keyword_violated (relit : Lit → Except Str Lit) (keyword : Str → Bool) (x : Str)
    (hk : keyword x = true) (sp : Span) (rest : List Tok) (sc : Span) (u : Option Span) (m : Mode) :
    ((pmIdentDict relit keyword).parse m ⟨.ident x sp :: rest, sc, u⟩).1 =
      .err (.new sp (.expected "identifier".toList)) ∧
    identDict.parse m ⟨.ident x sp :: rest, sc, u⟩ = (.ok x, ⟨rest, sc, u⟩) := by
  refine ⟨?_, rfl⟩
  have h : acceptIdent keyword (.ident x sp) = some (.expected "identifier".toList) := by
    simp only [acceptIdent, hk, ↓reduceIte]
  simp only [pmIdentDict, Dict.mk', M.mapRes]
  rw [convertNext_refuse _ h]
  rfl

/-- A `TokenStream` of `proc_macro` takes everything after its `=`, the following items included, where the one
of `proc_macro2` stops at the comma. -/
theorem c86_tokenStream_violated (n : Str) (nsp esp : Span) (v : List Tok) (hv : v ≠ [])
    (hc : ∀ t ∈ v, t.isComma = false) (c : Tok) (hcomma : c.isComma = true) (rest : List Tok) (sc : Span)
    (u : Option Span) :
    pmTokenStreamDict.named n nsp ⟨.punct '=' false esp :: (v ++ c :: rest), sc, u⟩ =
      (.ok (v ++ c :: rest), ⟨[], sc, u⟩) ∧
    tokenStreamDict.named n nsp ⟨.punct '=' false esp :: (v ++ c :: rest), sc, u⟩ =
      (.ok v, ⟨c :: rest, sc, u⟩) := by
  refine ⟨rfl, ?_⟩
  have h : ∀ l : List Tok, (∀ t ∈ l, t.isComma = false) → takeToks (l ++ c :: rest) = (l, c :: rest) := by
    intro l hl
    induction l with
    | nil => simp only [List.nil_append, takeToks, hcomma, ↓reduceIte]
    | cons t l ih =>
      simp only [List.cons_append, takeToks, hl t List.mem_cons_self, Bool.false_eq_true, ↓reduceIte,
        ih fun t ht => hl t (List.mem_cons_of_mem _ ht)]
  have h0 : tokenStreamDict.named n nsp ⟨.punct '=' false esp :: (v ++ c :: rest), sc, u⟩ =
      tokenStreamParse (.named nsp) ⟨v ++ c :: rest, sc, u⟩ := rfl
  rw [h0]
  cases v with
  | nil => exact absurd rfl hv
  | cons t v =>
    have h1 : Stream.peekPunct ',' ⟨t :: v ++ c :: rest, sc, u⟩ = false := hc t List.mem_cons_self
    simp only [tokenStreamParse, h1, h _ hc, List.isEmpty_cons, Bool.false_eq_true, ↓reduceIte]

/-- And it is no optional field: neither may its value nor the whole item be left out.  An empty value, on the
other hand, is accepted after `=`. -/
theorem c86_tokenStream_empty_violated (n : Str) (sp : Span) (m : Mode) (sc : Span) (u : Option Span) :
    (pmTokenStreamDict.flag sp = .err (flagDisallowedError sp) ∧ tokenStreamDict.flag sp = .ok []) ∧
    (pmTokenStreamDict.missing n sp = .err (missingFieldError n sp) ∧ tokenStreamDict.missing n sp = .ok []) ∧
    (pmTokenStreamDict.parse m ⟨[], sc, u⟩ = (.ok [], ⟨[], sc, u⟩) ∧
      ∃ e, (tokenStreamDict.parse m ⟨[], sc, u⟩).1 = .err e) :=
  ⟨⟨rfl, rfl⟩, ⟨rfl, rfl⟩, rfl, _, rfl⟩

/-- `struct S { s: TokenStream, b: bool }` with a `proc_macro::TokenStream`. -/
def streamThenBool : StructDef (List Tok ⊕ Bool) where
  shape := .named
  fields := [plainField "s".toList (pmTokenStreamDict.map .inl), plainField "b".toList (boolDict.map .inr)]
  default := none
  transparent := none
  allowUnknown := none
  andThens := []

/-- The same with a `proc_macro2::TokenStream`. -/
def stream2ThenBool : StructDef (List Tok ⊕ Bool) where
  shape := .named
  fields := [plainField "s".toList (tokenStreamDict.map .inl), plainField "b".toList (boolDict.map .inr)]
  default := none
  transparent := none
  allowUnknown := none
  andThens := []

/-- In a structure the fields after it are then missing: `s = x, b = true` against
`struct S { s: TokenStream, b: bool }`. -/
theorem c86_hidden_violated [Env] :
    (∃ sp, parse2 (single (streamThenBool.dict.inline .unnamed))
        [.ident "s".toList 1, .punct '=' false 2, .ident "x".toList 3, .punct ',' false 4, .ident "b".toList 5,
          .punct '=' false 6, .ident "true".toList 7] = .err (missingFieldError "`b`".toList sp)) ∧
    parse2 (single (stream2ThenBool.dict.inline .unnamed))
        [.ident "s".toList 1, .punct '=' false 2, .ident "x".toList 3, .punct ',' false 4, .ident "b".toList 5,
          .punct '=' false 6, .ident "true".toList 7] = .ok [.inl [.ident "x".toList 3], .inr true] := by
  exact ⟨⟨_, rfl⟩, rfl⟩

/-! ## Examples -/

/-- `k(+)` for a `Punct`, `k = [a]` for a `TokenTree`, `k = a` for an `Ident`. -/
example : ∃ a t, punctDict.named "k".toList 1 ⟨[.group .paren [.punct '+' false 2] 3 4], 9, none⟩ = (.ok a, t) ∧
    (pmPunctDict .ok).named "k".toList 1 ⟨[.group .paren [.punct '+' false 2] 3 4], 9, none⟩ = (.ok a, t) := by
  rcases (c86_punct .ok).named "k".toList 1 ⟨[.group .paren [.punct '+' false 2] 3 4], 9, none⟩
    (fun _ _ => trivial) with h | ⟨e, _, _, h, _⟩
  · exact h
  · have : punctDict.named "k".toList 1 ⟨[.group .paren [.punct '+' false 2] 3 4], 9, none⟩ =
      (.ok '+', ⟨[], 9, none⟩) := rfl
    rw [this] at h
    cases h

example : Tok.Without WrittenRaw (.group .bracket [.ident "a".toList 1, .punct ',' false 2] 3 4) :=
  .group (by
    intro t ht
    simp only [List.mem_cons, List.not_mem_nil, or_false] at ht
    rcases ht with rfl | rfl
    · exact .ident rfl
    · exact .punct)

example : WrittenRaw "r#type".toList = true := rfl

example : ((pmIdentDict .ok (· == "type".toList)).named "k".toList 1
    ⟨[.punct '=' false 2, .ident "a".toList 3], 9, none⟩).1 = .ok "a".toList := rfl

end Deluxe
