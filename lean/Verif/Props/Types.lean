import Verif.Props.Fixed
/-!
# C20, C28, C29, C51, C52, C53: options, flags, wrappers, punctuated lists, token streams, unit
-/
namespace Deluxe

/-! ## C20 -/

/-- C20: an omitted field is `None`, and the bare name is `Some` of what the bare name means for `T`,
with the same errors. -/
theorem c20_missing_and_flag {α : Type} (d : Dict α) (name : Str) (sp : Span) :
    (optionDict d).missing name sp = .ok none ∧
    (∀ a, (optionDict d).flag sp = .ok (some a) ↔ d.flag sp = .ok a) ∧
    (∀ e, (optionDict d).flag sp = .err e ↔ d.flag sp = .err e) ∧
    (optionDict d).flag sp ≠ .ok none := by
  refine ⟨rfl, ?_⟩
  simp only [optionDict, Dict.mk']
  cases d.flag sp <;> simp [Res.map]

/-- C20: `k = v` is `Some` of what `T` makes of `v`, with the same consumption and errors; never
`None`. -/
theorem c20_named {α : Type} (d : Dict α) (name : Str) (sp : Span) (j : Bool) (esp : Span)
    (v : List Tok) (sc : Span) (u : Option Span) (s' : Stream) :
    (∀ a, (optionDict d).named name sp ⟨.punct '=' j esp :: v, sc, u⟩ = (.ok (some a), s') ↔
      d.parse (.named sp) ⟨v, sc, u⟩ = (.ok a, s')) ∧
    (∀ e, (optionDict d).named name sp ⟨.punct '=' j esp :: v, sc, u⟩ = (.err e, s') ↔
      d.parse (.named sp) ⟨v, sc, u⟩ = (.err e, s')) ∧
    (optionDict d).named name sp ⟨.punct '=' j esp :: v, sc, u⟩ ≠ (.ok none, s') := by
  have : (optionDict d).named name sp ⟨.punct '=' j esp :: v, sc, u⟩ =
      ((d.parse (.named sp)).map some) ⟨v, sc, u⟩ := by
    exact c05_equals (optionDict d).parse (optionDict d).inline (optionDict d).flag sp j esp v sc u
  rw [this]
  change (∀ a, ((d.parse (.named sp) ⟨v, sc, u⟩).1.map some, (d.parse (.named sp) ⟨v, sc, u⟩).2) = _ ↔ _) ∧
    (∀ a, ((d.parse (.named sp) ⟨v, sc, u⟩).1.map some, (d.parse (.named sp) ⟨v, sc, u⟩).2) = _ ↔ _) ∧
    ((d.parse (.named sp) ⟨v, sc, u⟩).1.map some, (d.parse (.named sp) ⟨v, sc, u⟩).2) ≠ _
  generalize d.parse (.named sp) ⟨v, sc, u⟩ = x
  obtain ⟨r, s1⟩ := x
  cases r <;> simp [Res.map]

theorem peekIdent_iff (x : Str) (s : Stream) :
    peekIdent x s = true ↔ ∃ sp rest, s.toks = .ident x sp :: rest := by
  obtain ⟨ts, sc, u⟩ := s
  unfold peekIdent
  split
  · rename_i h; simp only at h; subst h; simp
  · rename_i h; simp only at h
    constructor
    · simp
    · rintro ⟨sp, rest, rfl⟩; exact absurd rfl (h _ _ _)

/-- What a delimited item needs to succeed. -/
theorem delimited_ok {α : Type} {f : Mode → M (List Stream) α} {m : Mode} {dl : Delim} {s s' : Stream}
    {a : α} : parseDelimitedMetaItem dl f m s = (.ok a, s') ↔
      ∃ inner o c rest l', s.toks = .group dl inner o c :: rest ∧
        f m [⟨inner, c, s.unexp⟩] = (.ok a, l') ∧ AtEnd (l'.headD ⟨inner, c, s.unexp⟩).toks ∧
        s' = ⟨rest, s.scope, (l'.headD ⟨inner, c, s.unexp⟩).unexp⟩ := by
  obtain ⟨ts, sc, u⟩ := s
  simp only [parseDelimitedMetaItem, parseDelimitedWith, withContent]
  constructor
  · intro h
    cases ts with
    | nil => simp [enter] at h
    | cons t ts =>
      cases t with
      | group d' inner o c =>
        by_cases hd : d' = dl
        · subst hd
          simp only [enter, if_true, Bind.bind, M.bind, single] at h
          cases hf : f m [⟨inner, c, u⟩] with
          | mk r l' =>
            rw [hf] at h
            cases r with
            | ok v =>
              simp only at h
              cases he : parseEof (l'.headD ⟨inner, c, u⟩) with
              | mk r2 s2 =>
                rw [he] at h
                cases r2 with
                | ok x =>
                  simp only [Pure.pure, M.pure, Prod.mk.injEq, Res.ok.injEq] at h
                  obtain ⟨rfl, rfl⟩ := h
                  obtain ⟨h1, rfl⟩ := parseEof_ok he
                  refine ⟨inner, o, c, ts, l', rfl, hf, h1, ?_⟩
                  simp only [Stream.dropChild]
                  cases (l'.headD ⟨inner, c, u⟩).unexp <;> rfl
                | err e => simp at h
                | panic => simp at h
            | err e => simp at h
            | panic => simp at h
        · simp [enter, hd] at h
      | ident => simp [enter] at h
      | punct => simp [enter] at h
      | lit => simp [enter] at h
  · rintro ⟨inner, o, c, rest, l', rfl, hf, hend, rfl⟩
    simp only [enter, if_true, Bind.bind, M.bind, single, hf, (c04_eof _).1 hend, Pure.pure, M.pure]
    simp only [Stream.dropChild, Prod.mk.injEq, true_and, Stream.mk.injEq]
    cases (l'.headD ⟨inner, c, u⟩).unexp <;> rfl

/-- C20, positional: `None` is read exactly from the word `None`, which is all that is consumed;
`Some` of `a` exactly from the word `Some` followed by parentheses around something that `T` reads
inline as `a`, up to an optional comma. -/
theorem c20_positional {α : Type} (d : Dict α) (s s' : Stream) :
    ((optionDict d).parse .unnamed s = (.ok none, s') ↔
      ∃ sp rest, s.toks = .ident "None".toList sp :: rest ∧ s' = { s with toks := rest }) ∧
    (∀ a, (optionDict d).parse .unnamed s = (.ok (some a), s') ↔
      ∃ sp inner o c rest l', s.toks = .ident "Some".toList sp :: .group .paren inner o c :: rest ∧
        d.inline .unnamed [⟨inner, c, s.unexp⟩] = (.ok a, l') ∧
        AtEnd (l'.headD ⟨inner, c, s.unexp⟩).toks ∧
        s' = ⟨rest, s.scope, (l'.headD ⟨inner, c, s.unexp⟩).unexp⟩) := by
  obtain ⟨ts, sc, u⟩ := s
  simp only [optionDict, Dict.mk']
  by_cases h1 : peekIdent "Some".toList ⟨ts, sc, u⟩
  · obtain ⟨sp, rest, hts⟩ := (peekIdent_iff _ _).1 h1
    simp only at hts
    subst hts
    simp only [h1, if_true, dropTok, List.tail_cons, M.map]
    constructor
    · constructor
      · intro h
        cases hp : parseDelimitedMetaItem .paren d.inline .unnamed ⟨rest, sc, u⟩ with
        | mk r s1 => rw [hp] at h; cases r <;> simp [Res.map] at h
      · rintro ⟨_, _, h, _⟩; simp at h
    · intro a
      constructor
      · intro h
        cases hp : parseDelimitedMetaItem .paren d.inline .unnamed ⟨rest, sc, u⟩ with
        | mk r s1 =>
          rw [hp] at h
          cases r with
          | ok v =>
            simp only [Res.map, Prod.mk.injEq, Res.ok.injEq, Option.some.injEq] at h
            obtain ⟨rfl, rfl⟩ := h
            obtain ⟨inner, o, c, rest', l', h2, h3, h4, h5⟩ := delimited_ok.1 hp
            simp only at h2
            subst h2
            exact ⟨sp, inner, o, c, rest', l', rfl, h3, h4, h5⟩
          | err e => simp [Res.map] at h
          | panic => simp [Res.map] at h
      · rintro ⟨sp', inner, o, c, rest', l', h2, h3, h4, rfl⟩
        simp only [List.cons.injEq, Tok.ident.injEq, true_and] at h2
        obtain ⟨_, rfl⟩ := h2
        have : parseDelimitedMetaItem .paren d.inline .unnamed ⟨.group .paren inner o c :: rest', sc, u⟩ = _ :=
          delimited_ok.2 ⟨inner, o, c, rest', l', rfl, h3, h4, rfl⟩
        rw [this]
        rfl
  · have hno : ¬ ∃ sp rest, ts = .ident "Some".toList sp :: rest := by
      rw [peekIdent_iff] at h1; exact h1
    simp only [h1]
    by_cases h2 : peekIdent "None".toList ⟨ts, sc, u⟩
    · obtain ⟨sp, rest, hts⟩ := (peekIdent_iff _ _).1 h2
      simp only at hts
      subst hts
      simp only [h2, if_true, dropTok, List.tail_cons]
      constructor
      · constructor
        · intro h
          simp only [Bool.false_eq_true, if_false, Prod.mk.injEq, true_and] at h
          exact ⟨sp, rest, rfl, h.symm⟩
        · rintro ⟨_, _, h, rfl⟩
          simp only [List.cons.injEq] at h
          obtain ⟨_, rfl⟩ := h
          simp
      · intro a
        constructor
        · intro h; simp at h
        · rintro ⟨_, _, _, _, _, _, h, _⟩; exact absurd ⟨_, _, h⟩ hno
    · have hno2 : ¬ ∃ sp rest, ts = .ident "None".toList sp :: rest := by
        rw [peekIdent_iff] at h2; exact h2
      simp only [h2]
      constructor
      · constructor
        · intro h; simp at h
        · rintro ⟨_, _, h, _⟩; exact absurd ⟨_, _, h⟩ hno2
      · intro a
        constructor
        · intro h; simp at h
        · rintro ⟨_, _, _, _, _, _, h, _⟩; exact absurd ⟨_, _, h⟩ hno

/-- C20: an error of `T` inside `Some(..)` is the error of the option, whatever it is. -/
theorem c20_error_kept {α : Type} (d : Dict α) (sp : Span) (inner : List Tok) (o c : Span)
    (rest : List Tok) (sc : Span) (u : Option Span) (e : SynErr) (l' : List Stream)
    (h : d.inline .unnamed [⟨inner, c, u⟩] = (.err e, l')) :
    ∃ u', (optionDict d).parse .unnamed
      ⟨.ident "Some".toList sp :: .group .paren inner o c :: rest, sc, u⟩ = (.err e, ⟨rest, sc, u'⟩) := by
  have h1 : ∃ u', parseDelimitedMetaItem .paren d.inline .unnamed
      ⟨.group .paren inner o c :: rest, sc, u⟩ = (.err e, ⟨rest, sc, u'⟩) := by
    simp only [parseDelimitedMetaItem, parseDelimitedWith, withContent, enter, Bind.bind, M.bind, single, h,
      if_true]
    exact ⟨_, rfl⟩
  obtain ⟨u', h1⟩ := h1
  refine ⟨u', ?_⟩
  change (parseDelimitedMetaItem .paren d.inline .unnamed).map some
    ⟨.group .paren inner o c :: rest, sc, u⟩ = _
  simp only [M.map, h1, Res.map]

/-- `Some(true)` and `None`. -/
example : (optionDict boolDict).parse .unnamed ⟨[.ident "Some".toList 1,
      .group .paren [.ident "true".toList 2] 3 4, .punct ',' false 5], 9, none⟩ =
    (.ok (some true), ⟨[.punct ',' false 5], 9, none⟩) := by
  refine ((c20_positional boolDict _ _).2 true).2 ⟨1, _, 3, 4, _, [⟨[], 4, none⟩], rfl, ?_, .inl rfl, rfl⟩
  rfl

/-! ## C28 -/

/-- C28: a `Flag` is read from its name exactly when nothing or a comma follows the name; it is then
set to the name's span and nothing is consumed.  With anything else (in particular `= ..` or `(..)`)
it is an error. -/
theorem c28_named [Env] (name : Str) (sp : Span) (s : Stream) :
    (∀ v s', flagDict.named name sp s = (.ok v, s') ↔ Boundary s.toks ∧ v = some sp ∧ s' = s) ∧
    (¬ Boundary s.toks → ∃ e, flagDict.named name sp s = (.err e, s)) := by
  have hb : (s.isEmpty || s.peekPunct ',') = true ↔ Boundary s.toks := by
    obtain ⟨ts, sc, u⟩ := s
    cases ts with
    | nil => simp [Stream.isEmpty, Boundary]
    | cons t ts =>
      have := isComma_iff t
      simp only [Tok.isComma] at this
      simp only [Stream.isEmpty, Stream.peekPunct, List.isEmpty_cons, Bool.false_or, Boundary]
      rw [this]
      constructor
      · intro h; exact .inr ⟨t, ts, rfl, h⟩
      · rintro (h | ⟨c, r, h, hc⟩)
        · simp at h
        · simp only [List.cons.injEq] at h
          obtain ⟨rfl, _⟩ := h
          exact hc
  simp only [flagDict]
  rw [← hb]
  split
  · rename_i h
    refine ⟨fun v s' => ?_, fun hn => absurd h hn⟩
    simp only [Prod.mk.injEq, Res.ok.injEq, h, true_and]
    constructor
    · rintro ⟨rfl, rfl⟩; exact ⟨rfl, rfl⟩
    · rintro ⟨rfl, rfl⟩; exact ⟨rfl, rfl⟩
  · rename_i h
    refine ⟨fun v s' => ?_, fun _ => ⟨_, rfl⟩⟩
    simp [h]

/-- C28: `name = ..` and `name(..)` are errors. -/
theorem c28_no_value [Env] (name : Str) (sp : Span) (s : Stream) (h : StartsEq s ∨ StartsParen s) :
    ∃ e, flagDict.named name sp s = (.err e, s) := by
  refine (c28_named name sp s).2 ?_
  rintro (h0 | ⟨c, r, h0, j, csp, rfl⟩) <;> rcases h with ⟨_, _, _, h⟩ | ⟨_, _, _, _, h⟩ <;>
    simp [h0] at h

/-- C28: an omitted flag is unset, and a flag never parses in a positional context. -/
theorem c28_elsewhere [Env] (m : Mode) (name : Str) (sp : Span) :
    flagDict.missing name sp = .ok none ∧ flagDict.flag sp = .ok (some sp) ∧
    (∀ s, ∃ e, flagDict.parse m s = (.err e, s)) ∧ (∀ l, ∃ e, flagDict.inline m l = (.err e, l)) :=
  ⟨rfl, rfl, fun _ => ⟨_, rfl⟩, fun _ => ⟨_, rfl⟩⟩

example [Env] : flagDict.named ['f'] 3 ⟨[.punct ',' false 4, .ident ['g'] 5], 9, none⟩ =
    (.ok (some 3), ⟨[.punct ',' false 4, .ident ['g'] 5], 9, none⟩) :=
  ((c28_named ['f'] 3 _).1 _ _).2 ⟨.inr ⟨_, _, rfl, _, _, rfl⟩, rfl, rfl⟩

/-! ## C29 -/

/-- Same outcome up to the conversion `f` of the value, and same streams afterwards. -/
def SameUpTo {σ α β : Type} (f : β → α) (a : M σ β) (b : M σ α) : Prop :=
  ∀ s, (∀ v s', b s = (.ok v, s') ↔ ∃ w, a s = (.ok w, s') ∧ f w = v) ∧
    (∀ e s', b s = (.err e, s') ↔ a s = (.err e, s'))

theorem sameUpTo_of {σ α β : Type} {f : β → α} {a : M σ β} {b : M σ α}
    (h : ∀ s, ((a s).1.map f, (a s).2) = b s) : SameUpTo f a b := by
  intro s
  rw [← h s]
  cases ha : a s with
  | mk r s1 =>
    cases r with
    | ok w =>
      simp only [Res.map, Prod.mk.injEq, Res.ok.injEq]
      refine ⟨fun v s' => ⟨?_, ?_⟩, fun e s' => by simp⟩
      · rintro ⟨rfl, rfl⟩; exact ⟨w, ⟨rfl, rfl⟩, rfl⟩
      · rintro ⟨w', ⟨rfl, rfl⟩, rfl⟩; exact ⟨rfl, rfl⟩
    | err e => simp [Res.map]
    | panic => simp [Res.map]

theorem Res.map_value {α : Type} (r : Res α) (f : α → Span) :
    Res.map Spanned.value (r.map fun v => ⟨v, f v⟩) = r := by cases r <;> rfl

/-- C29, what holds of `SpannedValue`: in every form in which the value is present it is read exactly
like `T`.  Missing from the full claim: the omitted form, see `c29_missing_violated`. -/
theorem c29_spanned_partial [Env] {α : Type} (d : Dict α) (m : Mode) (name : Str) (sp : Span) :
    SameUpTo Spanned.value ((spannedDict d).parse m) (d.parse m) ∧
    SameUpTo Spanned.value ((spannedDict d).inline m) (d.inline m) ∧
    SameUpTo Spanned.value ((spannedDict d).named name sp) (d.named name sp) ∧
    (∀ v, d.flag sp = .ok v ↔ ∃ w, (spannedDict d).flag sp = .ok w ∧ w.value = v) ∧
    (∀ e, d.flag sp = .err e ↔ (spannedDict d).flag sp = .err e) := by
  refine ⟨sameUpTo_of fun s => ?_, sameUpTo_of fun s => ?_, sameUpTo_of fun s => ?_, ?_, ?_⟩
  · change (Res.map _ (Res.map _ (d.parse m s).1), (d.parse m s).2) = d.parse m s
    rw [Res.map_value]
  · change (Res.map _ (Res.map _ (d.inline m s).1), (d.inline m s).2) = d.inline m s
    rw [Res.map_value]
  · change (Res.map _ (Res.map _ (d.named name sp s).1), (d.named name sp s).2) = d.named name sp s
    rw [Res.map_value]
  · intro v
    simp only [spannedDict]
    cases d.flag sp with
    | ok x => simp [Res.map]
    | err e => simp [Res.map]
    | panic => simp [Res.map]
  · intro e
    simp only [spannedDict]
    cases d.flag sp <;> simp [Res.map]

/-- C29, flattened `SpannedValue` fields: read like `T` in all four flattening forms. -/
theorem c29_spanned_flat [Env] {α : Type} (du : FlatUnnamed α) (dn : FlatNamed α) (da : Append α)
    (dr : Rest α) (m : Mode) (i : Nat) (pre : Str) (v : Bool) (names : List Str) :
    SameUpTo Spanned.value ((spannedFlatUnnamed du).parse m i) (du.parse m i) ∧
    (spannedFlatUnnamed du).fieldCount = du.fieldCount ∧
    SameUpTo Spanned.value ((spannedFlatNamed dn).parse m pre v) (dn.parse m pre v) ∧
    (spannedFlatNamed dn).acceptsAll = dn.acceptsAll ∧
    (spannedFlatNamed dn).fieldNames = dn.fieldNames ∧
    SameUpTo Spanned.value (spannedAppend da names) (da names) ∧
    SameUpTo Spanned.value (spannedRest dr names) (dr names) := by
  have key : ∀ p : M (List Stream) α, SameUpTo Spanned.value (spannedFlat p) p := by
    intro p
    refine sameUpTo_of fun s => ?_
    change (Res.map _ (Res.map _ (p s).1), (p s).2) = p s
    rw [Res.map_value]
  exact ⟨key _, rfl, key _, rfl, rfl, key _, key _⟩

/-- C29, what holds of `Box`, `Rc`, `Cell`, `RefCell`, `Cow`: a value and the bare name are read
exactly like `T`; and everything is like `T` when `T` itself has the default inline, named and
omitted forms.  Missing: types with their own such forms, see the violations below. -/
theorem c29_wrapper_partial {α : Type} (d : Dict α) :
    (∀ m, (wrapperDict d).parse m = d.parse m) ∧ (∀ sp, (wrapperDict d).flag sp = d.flag sp) ∧
    (∀ (p : Mode → M Stream α) (fl : Span → Res α), wrapperDict (Dict.mk' p (flag := fl)) =
      Dict.mk' p (flag := fl)) :=
  ⟨fun _ => rfl, fun _ => rfl, fun _ _ => rfl⟩

/-- C29 is false for the omitted form: an omitted `Option` is `None`, an omitted wrapped `Option` is
an error. -/
theorem c29_missing_violated [Env] {α : Type} (d : Dict α) (name : Str) (sp : Span) :
    (optionDict d).missing name sp = .ok none ∧
    (∃ e, (spannedDict (optionDict d)).missing name sp = .err e) ∧
    (∃ e, (wrapperDict (optionDict d)).missing name sp = .err e) :=
  ⟨rfl, ⟨_, rfl⟩, ⟨_, rfl⟩⟩

/-- C29 is false for the inline form of wrappers: `k(true)` is a `Vec<bool>` but not a
`Box<Vec<bool>>`. -/
theorem c29_inline_violated (sp sp1 a b : Span) (sc : Span) :
    let s : Stream := ⟨[.group .paren [.ident "true".toList sp1] a b], sc, none⟩
    (∃ s', (seqDict boolDict).named ['k'] sp s = (.ok [true], s')) ∧
    (∃ e s', (wrapperDict (seqDict boolDict)).named ['k'] sp s = (.err e, s')) :=
  ⟨⟨_, rfl⟩, ⟨_, _, rfl⟩⟩

/-- C29 is false for the named form of wrappers: after `k`, something other than `=`, parentheses, a
comma or the end is an error for `Flag`, but not for a boxed `Flag`. -/
theorem c29_named_violated [Env] (sp : Span) (s : Stream) (h : ¬ Boundary s.toks)
    (h1 : ¬ StartsEq s) (h2 : ¬ StartsParen s) :
    (∃ e, flagDict.named ['k'] sp s = (.err e, s)) ∧
    (∃ v, (wrapperDict flagDict).named ['k'] sp s = (.ok v, s)) :=
  ⟨(c28_named _ _ _).2 h, some sp, c05_flag _ _ _ sp s h1 h2⟩

example : ∃ s : Stream, ¬ Boundary s.toks ∧ ¬ StartsEq s ∧ ¬ StartsParen s :=
  ⟨⟨[.ident ['x'] 1], 9, none⟩, by simp [Boundary, Comma], by simp [StartsEq], by simp [StartsParen]⟩

/-! ## C52 -/

/-- C52: a `TokenStream` receives exactly the tokens up to the next comma or the end, and they are all
it consumes; it fails exactly when there are none. -/
theorem c52_token_stream (m : Mode) (s : Stream) :
    (∀ ts s', tokenStreamDict.parse m s = (.ok ts, s') ↔
      ts ≠ [] ∧ NoComma ts ∧ ∃ rest, s.toks = ts ++ rest ∧ Boundary rest ∧ s' = { s with toks := rest }) ∧
    (Boundary s.toks ↔ ∃ e, tokenStreamDict.parse m s = (.err e, s)) := by
  obtain ⟨toks, sc, u⟩ := s
  have hdef : tokenStreamDict.parse m = tokenStreamParse m := rfl
  obtain ⟨hs1, hs2, hs3⟩ := takeToks_spec toks
  have huniq : ∀ a b a' b' : List Tok, a ++ b = a' ++ b' → NoComma a → NoComma a' → Boundary b → Boundary b' →
      a = a' ∧ b = b' := by
    intro a
    induction a with
    | nil =>
      intro b a' b' h _ h2 h3 _
      cases a' with
      | nil => exact ⟨rfl, by simpa using h⟩
      | cons t a' =>
        rcases h3 with rfl | ⟨c, r, rfl, hc⟩
        · simp at h
        · simp only [List.nil_append, List.cons_append, List.cons.injEq] at h
          exact absurd (h.1 ▸ hc) (h2 t (by simp))
    | cons x a ih =>
      intro b a' b' h h1 h2 h3 h4
      cases a' with
      | nil =>
        rcases h4 with rfl | ⟨c, r, rfl, hc⟩
        · simp at h
        · simp only [List.nil_append, List.cons_append, List.cons.injEq] at h
          exact absurd (h.1 ▸ hc) (h1 x (by simp))
      | cons t a' =>
        simp only [List.cons_append, List.cons.injEq] at h
        obtain ⟨rfl, h⟩ := h
        obtain ⟨rfl, rfl⟩ := ih b a' b' h (fun y hy => h1 y (by simp [hy])) (fun y hy => h2 y (by simp [hy])) h3 h4
        exact ⟨rfl, rfl⟩
  have hpeek : (Stream.mk toks sc u).peekPunct ',' = true ↔ ∃ c r, toks = c :: r ∧ Comma c := by
    cases toks with
    | nil => simp [Stream.peekPunct]
    | cons t ts =>
      rw [peekComma_cons, isComma_iff]
      exact ⟨fun h => ⟨t, ts, rfl, h⟩, fun ⟨c, r, h, hc⟩ => by cases h; exact hc⟩
  have hbt : Boundary toks ↔ (takeToks toks).1 = [] := by
    constructor
    · intro h
      exact (huniq _ _ [] toks (by simp [← hs1]) hs2 (by simp [NoComma]) hs3 h).1
    · intro h
      rw [h, List.nil_append] at hs1
      rw [hs1]; exact hs3
  rw [hdef]
  simp only [tokenStreamParse]
  split
  · rename_i hp
    have hb : Boundary toks := .inr (hpeek.1 hp)
    refine ⟨fun ts s' => ⟨by simp, ?_⟩, ⟨fun _ => ⟨_, rfl⟩, fun _ => hb⟩⟩
    rintro ⟨h1, h2, rest, h3, h4, _⟩
    exact absurd (huniq ts rest [] toks (by simp [h3]) h2 (by simp [NoComma]) h4 hb).1 h1
  · rename_i hp
    split
    · rename_i he
      have hb : Boundary toks := hbt.2 (by simpa using he)
      refine ⟨fun ts s' => ⟨by simp, ?_⟩, ⟨fun _ => ⟨_, rfl⟩, fun _ => hb⟩⟩
      rintro ⟨h1, h2, rest, h3, h4, _⟩
      exact absurd (huniq ts rest [] toks (by simp [h3]) h2 (by simp [NoComma]) h4 hb).1 h1
    · rename_i he
      refine ⟨fun ts s' => ⟨?_, ?_⟩, ⟨fun h => ?_, by simp⟩⟩
      · intro h
        simp only [Prod.mk.injEq, Res.ok.injEq] at h
        obtain ⟨rfl, rfl⟩ := h
        exact ⟨by simpa using he, hs2, _, hs1, hs3, rfl⟩
      · rintro ⟨h1, h2, rest, h3, h4, rfl⟩
        obtain ⟨e1, e2⟩ := huniq (takeToks toks).1 (takeToks toks).2 ts rest (by rw [← hs1, h3]) hs2 h2 hs3 h4
        simp [e1, e2]
      · rw [hbt] at h
        simp [h] at he

/-- C52: the bare name and an omitted field are the empty token stream. -/
theorem c52_flag_and_missing (name : Str) (sp : Span) :
    tokenStreamDict.flag sp = .ok [] ∧ tokenStreamDict.missing name sp = .ok [] := ⟨rfl, rfl⟩

/-- C52: where a missing token is reported: after `key =` at the key if nothing follows, and at the comma if one
follows; without a key at the end of the input. -/
theorem c52_nothing [Env] (key : Str) (keySp eqSp commaSp sc : Span) (j j' : Bool) (u : Option Span) (rest : List Tok) :
    tokenStreamDict.named key keySp ⟨[.punct '=' j eqSp], sc, u⟩ =
      (.err (.new keySp .expectedToken), ⟨[], sc, u⟩) ∧
    tokenStreamDict.named key keySp ⟨.punct '=' j eqSp :: .punct ',' j' commaSp :: rest, sc, u⟩ =
      (.err (.new commaSp .unexpectedComma), ⟨.punct ',' j' commaSp :: rest, sc, u⟩) ∧
    tokenStreamDict.parse .unnamed ⟨[], sc, u⟩ = (.err (.new sc .expectedToken), ⟨[], sc, u⟩) :=
  ⟨rfl, rfl, rfl⟩

theorem tokenStreamLoop_noComma (n : Nat) (acc : List Tok) (ts : List Tok) (sc : Span) (u : Option Span)
    (h : NoComma ts) (hn : ts.length < n) :
    tokenStreamLoop n (acc, ⟨ts, sc, u⟩) = (.ok (), (acc ++ ts, ⟨[], sc, u⟩)) := by
  cases n with
  | zero => omega
  | succ n =>
    by_cases h0 : ts = []
    · subst h0; simp [tokenStreamLoop, Stream.isEmpty]
    · have h1 : tokenStreamParse .unnamed ⟨ts, sc, u⟩ = (.ok ts, ⟨[], sc, u⟩) :=
        ((c52_token_stream .unnamed ⟨ts, sc, u⟩).1 ts _).2 ⟨h0, h, [], by simp, .inl rfl, rfl⟩
      cases n with
      | zero =>
        have := List.length_pos_iff.2 h0
        omega
      | succ n =>
        simp [tokenStreamLoop, Stream.isEmpty, h0, h1]

/-- C52, flattened, what holds: without top-level commas a flattened positional `TokenStream` receives
all remaining tokens of all streams. -/
theorem c52_flat_partial (m : Mode) (i : Nat) (l : List Stream) (h : ∀ s ∈ l, NoComma s.toks) :
    ∃ l', tokenStreamFlat.parse m i l = (.ok (l.map (·.toks)).flatten, l') ∧ AllRead l' := by
  have key : ∀ (l : List Stream) (acc : List Tok), (∀ s ∈ l, NoComma s.toks) →
      ∃ l', forStreams.go tokenStreamLoop acc l = (.ok (), (acc ++ (l.map (·.toks)).flatten, l')) ∧ AllRead l' := by
    intro l
    induction l with
    | nil => intro acc _; exact ⟨[], by simp [forStreams.go], by simp [AllRead]⟩
    | cons s l ih =>
      intro acc h
      have h1 := tokenStreamLoop_noComma (s.toks.length + 1) acc s.toks s.scope s.unexp (h s (by simp)) (by omega)
      obtain ⟨l', h2, h3⟩ := ih (acc ++ s.toks) (fun x hx => h x (by simp [hx]))
      refine ⟨⟨[], s.scope, s.unexp⟩ :: l', ?_, ?_⟩
      · simp only [forStreams.go]
        have h1' : tokenStreamLoop (s.toks.length + 1) (acc, s) = (.ok (), (acc ++ s.toks, ⟨[], s.scope, s.unexp⟩)) := h1
        rw [h1']
        simp only [h2, List.map_cons, List.flatten_cons, List.append_assoc]
      · intro x hx
        rcases List.mem_cons.1 hx with rfl | hx
        · rfl
        · exact h3 x hx
  obtain ⟨l', h1, h2⟩ := key l [] h
  refine ⟨l', ?_, h2⟩
  simp only [tokenStreamFlat, forStreams, h1, List.nil_append]

/-- C52, flattened, is false with commas: a single top-level comma anywhere in the remaining tokens
makes the flattened `TokenStream` fail. -/
theorem c52_flat_violated (m : Mode) (i : Nat) (l : List Stream) (h : ∃ s ∈ l, ¬ NoComma s.toks) :
    ∃ e l', tokenStreamFlat.parse m i l = (.err e, l') := by
  have h1 : ∀ (ts : List Tok) (acc : List Tok) (sc : Span) (u : Option Span) (n : Nat), ¬ NoComma ts →
      ts.length < n → ∃ e st, tokenStreamLoop n (acc, ⟨ts, sc, u⟩) = (.err e, st) := by
    intro ts acc sc u n hc hn
    obtain ⟨n, rfl⟩ : ∃ k, n = k + 1 := ⟨n - 1, by omega⟩
    have hne : ts ≠ [] := by rintro rfl; simp [NoComma] at hc
    obtain ⟨hs1, hs2, hs3⟩ := takeToks_spec ts
    by_cases h0 : (takeToks ts).1 = []
    · have hb : Boundary ts := by rw [h0, List.nil_append] at hs1; rw [hs1]; exact hs3
      obtain ⟨e, he⟩ := (c52_token_stream .unnamed ⟨ts, sc, u⟩).2.1 hb
      have he' : tokenStreamParse .unnamed ⟨ts, sc, u⟩ = (.err e, ⟨ts, sc, u⟩) := he
      exact ⟨e, _, by simp [tokenStreamLoop, Stream.isEmpty, hne, he']; rfl⟩
    · have he' : tokenStreamParse .unnamed ⟨ts, sc, u⟩ = (.ok (takeToks ts).1, ⟨(takeToks ts).2, sc, u⟩) :=
        ((c52_token_stream .unnamed ⟨ts, sc, u⟩).1 _ _).2 ⟨h0, hs2, _, hs1, hs3, rfl⟩
      have hne2 : (takeToks ts).2 ≠ [] := by
        intro h2
        rw [h2, List.append_nil] at hs1
        rw [hs1] at hc
        exact hc hs2
      obtain ⟨e, he⟩ := (c52_token_stream .unnamed ⟨(takeToks ts).2, sc, u⟩).2.1 hs3
      have he2 : tokenStreamParse .unnamed ⟨(takeToks ts).2, sc, u⟩ = (.err e, ⟨(takeToks ts).2, sc, u⟩) := he
      have hlen := congrArg List.length hs1
      rw [List.length_append] at hlen
      have := List.length_pos_iff.2 h0
      have := List.length_pos_iff.2 hne2
      obtain ⟨k, rfl⟩ : ∃ k, n = k + 1 := ⟨n - 1, by omega⟩
      exact ⟨e, _, by simp [tokenStreamLoop, Stream.isEmpty, hne, he', hne2, he2]; rfl⟩
  have key : ∀ (l : List Stream) (acc : List Tok), (∃ s ∈ l, ¬ NoComma s.toks) →
      ∃ e st, forStreams.go tokenStreamLoop acc l = (.err e, st) := by
    intro l
    induction l with
    | nil => intro _ ⟨_, h, _⟩; simp at h
    | cons s l ih =>
      intro acc h
      simp only [forStreams.go]
      by_cases hs : NoComma s.toks
      · have h2 : tokenStreamLoop (s.toks.length + 1) (acc, s) = _ :=
          tokenStreamLoop_noComma (s.toks.length + 1) acc s.toks s.scope s.unexp hs (by omega)
        rw [h2]
        obtain ⟨x, hx, hx2⟩ := h
        rcases List.mem_cons.1 hx with rfl | hx
        · exact absurd hs hx2
        · obtain ⟨e, st, h3⟩ := ih (acc ++ s.toks) ⟨x, hx, hx2⟩
          exact ⟨e, _, by simp only [h3]; rfl⟩
      · obtain ⟨e, st, h2⟩ := h1 s.toks acc s.scope s.unexp (s.toks.length + 1) hs (by omega)
        have h2' : tokenStreamLoop (s.toks.length + 1) (acc, s) = (.err e, st) := h2
        rw [h2']
        exact ⟨e, _, rfl⟩
  obtain ⟨e, st, h2⟩ := key l [] h
  exact ⟨e, st.2, by simp only [tokenStreamFlat, forStreams, h2]⟩

example : tokenStreamDict.parse .unnamed ⟨[.ident ['a'] 1, .punct '+' false 2, .punct ',' false 3], 9, none⟩ =
    (.ok [.ident ['a'] 1, .punct '+' false 2], ⟨[.punct ',' false 3], 9, none⟩) := rfl

/-! ## C53 -/

/-- C53, what holds: at the top level `()` is exactly an empty parenthesised group, or nothing when
inline; the bare name is also accepted.  What holds elsewhere is weaker, see the next theorems. -/
theorem c53_top_partial (m : Mode) (toks : List Tok) (sp : Span) :
    (parse2 (unitDict.parse m) toks = .ok () ↔ ∃ a b, toks = [.group .paren [] a b]) ∧
    (topParse2 unitDict toks = .ok () ↔ toks = []) ∧ unitDict.flag sp = .ok () := by
  refine ⟨?_, ?_, rfl⟩
  · constructor
    · intro h
      simp only [parse2, unitDict, Dict.mk', withContent] at h
      cases toks with
      | nil => simp [enter] at h
      | cons t ts =>
        cases t with
        | group d inner a b =>
          by_cases hd : d = .paren
          · subst hd
            cases inner with
            | nil =>
              cases ts with
              | nil => exact ⟨a, b, rfl⟩
              | cons t2 ts2 => simp [enter, parseNothing, Stream.dropChild] at h
            | cons x xs => simp [enter, parseNothing, Stream.dropChild] at h
          · simp [enter, hd] at h
        | ident => simp [enter] at h
        | punct => simp [enter] at h
        | lit => simp [enter] at h
    · rintro ⟨a, b, rfl⟩; rfl
  · constructor
    · intro h
      simp only [topParse2, parse2, unitDict, Dict.mk', single] at h
      cases toks with
      | nil => rfl
      | cons t ts => simp at h
    · rintro rfl; rfl

/-- C53: something that is not parenthesised is always rejected, without consuming. -/
theorem c53_needs_group (m : Mode) (s : Stream) (h : ¬ StartsParen s) :
    ∃ e, unitDict.parse m s = (.err e, s) := by
  obtain ⟨ts, sc, u⟩ := s
  simp only [unitDict, Dict.mk', withContent]
  cases ts with
  | nil => exact ⟨_, rfl⟩
  | cons t ts =>
    cases t with
    | group d inner a b =>
      by_cases hd : d = .paren
      · subst hd; exact absurd ⟨_, _, _, _, rfl⟩ h
      · simp only [enter, hd, if_false]; exact ⟨_, rfl⟩
    | ident => exact ⟨_, rfl⟩
    | punct => exact ⟨_, rfl⟩
    | lit => exact ⟨_, rfl⟩

/-- C53 is false below the top level: `()` itself accepts any parenthesised content.  The content is
only noted in the stream's "unexpected" cell, which a forked stream does not pass on. -/
theorem c53_content_violated (m : Mode) (t : Tok) (inner : List Tok) (a b : Span) (rest : List Tok)
    (sc : Span) : unitDict.parse m ⟨.group .paren (t :: inner) a b :: rest, sc, none⟩ =
      (.ok (), ⟨rest, sc, some t.span⟩) := by
  simp [unitDict, Dict.mk', withContent, enter, parseNothing, Stream.dropChild]

/-- C53 is false inline: any content is accepted and left unread. -/
theorem c53_inline_violated (m : Mode) (l : List Stream) : unitDict.inline m l = (.ok (), l) := rfl

/-! ## C51 -/

/-- C51, what holds: when every stream has at most one element, with or without separator after it,
a `Punctuated` is the list of the elements in order. -/
theorem c51_single_partial {α : Type} (d : Dict α) (peekP : Stream → Bool) (parseP : M Stream Unit)
    (m : Mode) (i : Nat) (l : List (List Tok × List Tok × Span × Option Span × α))
    (h : ∀ x ∈ l, x.1 ≠ [] ∧ ReadsAs (d.parse .unnamed) x.1 x.2.1 x.2.2.1 (.ok x.2.2.2.2) ∧
      (x.2.1 ≠ [] → ReadsAs parseP x.2.1 [] x.2.2.1 (.ok ()))) :
    ∃ l', (punctFlat d peekP parseP).parse m i (l.map fun x => ⟨x.1 ++ x.2.1, x.2.2.1, x.2.2.2.1⟩) =
      (.ok (l.map (·.2.2.2.2)), l') ∧ AllRead l' := by
  have key : ∀ (l : List (List Tok × List Tok × Span × Option Span × α)) (acc : Acc (List α)),
      (∀ x ∈ l, x.1 ≠ [] ∧ ReadsAs (d.parse .unnamed) x.1 x.2.1 x.2.2.1 (.ok x.2.2.2.2) ∧
        (x.2.1 ≠ [] → ReadsAs parseP x.2.1 [] x.2.2.1 (.ok ()))) →
      ∃ l', forStreams.go (punctLoop (d.parse .unnamed) peekP parseP) acc
        (l.map fun x => ⟨x.1 ++ x.2.1, x.2.2.1, x.2.2.2.1⟩) =
          (.ok (), (⟨acc.val ++ l.map (·.2.2.2.2), acc.errs⟩, l')) ∧ AllRead l' := by
    intro l
    induction l with
    | nil => intro acc _; exact ⟨[], by simp [forStreams.go], by simp [AllRead]⟩
    | cons x l ih =>
      intro acc h
      obtain ⟨v, sep, sc, u, a⟩ := x
      obtain ⟨h1, h2, h3⟩ := h _ (List.mem_cons_self ..)
      simp only at h1 h2 h3
      obtain ⟨u', h2⟩ := h2 u
      obtain ⟨l', i1, i2⟩ := ih ⟨acc.val ++ [a], acc.errs⟩ (fun y hy => h y (List.mem_cons_of_mem _ hy))
      have hlp : ∃ u'', punctLoop (d.parse .unnamed) peekP parseP ((v ++ sep).length + 1) (acc, ⟨v ++ sep, sc, u⟩) =
          (.ok (), (⟨acc.val ++ [a], acc.errs⟩, ⟨[], sc, u''⟩)) := by
        by_cases hsep : sep = []
        · subst hsep
          refine ⟨u', ?_⟩
          have hl : 0 < (v ++ []).length := by simpa using List.length_pos_iff.2 h1
          obtain ⟨k, hk⟩ : ∃ k, (v ++ ([] : List Tok)).length = k + 1 := ⟨(v ++ []).length - 1, by omega⟩
          rw [hk]
          simp [punctLoop, Stream.isEmpty, h1] at h2 ⊢
          simp [h2]
        · obtain ⟨u'', h3⟩ := h3 hsep u'
          rw [List.append_nil] at h3
          refine ⟨u'', ?_⟩
          simp [punctLoop, Stream.isEmpty, h1, h2, hsep, h3]
      obtain ⟨u'', hlp⟩ := hlp
      refine ⟨⟨[], sc, u''⟩ :: l', ?_, ?_⟩
      · simp only [List.map_cons, forStreams.go]
        rw [hlp]
        simp only [i1]
        simp
      · intro y hy
        rcases List.mem_cons.1 hy with rfl | hy
        · rfl
        · exact i2 y hy
  obtain ⟨l', h1, h2⟩ := key l ⟨[], Errors.new⟩ h
  refine ⟨l', ?_, h2⟩
  simp only [punctFlat, runAcc, forStreams, h1]
  simp [Errors.intoResult, Errors.new]

/-- C51 is false from two elements on: after the first separator the rest of the stream is not read. -/
theorem c51_stops_at_separator {α : Type} (d : Dict α) (peekP : Stream → Bool) (parseP : M Stream Unit)
    (m : Mode) (i : Nat) (v sep rest : List Tok) (sc : Span) (a : α) (hv : v ≠ []) (hsep : sep ≠ [])
    (h1 : ReadsAs (d.parse .unnamed) v (sep ++ rest) sc (.ok a)) (h2 : ReadsAs parseP sep rest sc (.ok ()))
    (u : Option Span) :
    ∃ u', (punctFlat d peekP parseP).parse m i [⟨v ++ (sep ++ rest), sc, u⟩] =
      (.ok [a], [⟨rest, sc, u'⟩]) := by
  obtain ⟨u1, h1⟩ := h1 u
  obtain ⟨u2, h2⟩ := h2 u1
  refine ⟨u2, ?_⟩
  simp only [punctFlat, runAcc, forStreams, forStreams.go]
  have : punctLoop (d.parse .unnamed) peekP parseP ((v ++ (sep ++ rest)).length + 1)
      (⟨[], Errors.new⟩, ⟨v ++ (sep ++ rest), sc, u⟩) = (.ok (), (⟨[a], Errors.new⟩, ⟨rest, sc, u2⟩)) := by
    simp [punctLoop, Stream.isEmpty, hv, h1, hsep, h2]
  simp only [this]
  rfl

/-- C51 is false: `[a; b]` is not accepted as identifiers separated by `;`. -/
theorem c51_violated : ∃ e s', (punctuatedDict identDict (·.peekPunct ';') (parsePunct ';')).parse .unnamed
    ⟨[.group .bracket [.ident ['a'] 1, .punct ';' false 2, .ident ['b'] 3] 4 5], 9, none⟩ = (.err e, s') :=
  ⟨_, _, rfl⟩

/-- Non-trivial case of the hypotheses above. -/
example : ReadsAs (identDict.parse .unnamed) [.ident ['a'] 1] ([.punct ';' false 2] ++ [.ident ['b'] 3]) 9
      (.ok ['a']) ∧
    ReadsAs (parsePunct ';') [.punct ';' false 2] [.ident ['b'] 3] 9 (.ok ()) :=
  ⟨fun u => ⟨u, rfl⟩, fun u => ⟨u, rfl⟩⟩

end Deluxe
