import Verif.Props.AttrTokens
import Verif.Props.Attributes
/-!
# C113: which error is reported for attributes that are not read to the end

`parse_struct_attr_tokens` collects the errors of the function that reads the attributes, but it does so inside of
`parse2`, which looks for tokens that are left afterwards.  So a token that is left hides all of these errors.
-/
namespace Deluxe

section
variable {α : Type}

/-! ## What is found in the way -/

/-- The first token after the group of an attribute, one comma not counted. -/
def behind : List Tok → Option Span
  | [] => none
  | t :: rest => if t.isComma then rest.head?.map Tok.span else some t.span

/-- The first token that was left in a group, including those noted by parsers of inner groups. -/
def leftIn (s : Stream) : Option Span := s.unexp <|> s.toks.head?.map Tok.span

/-- The token that is in the way, going through the attributes in order: first what was left in the group, then what
follows it. `#[name]` has nothing to leave. -/
def inTheWay : List (List Tok × Str × Span) → List Stream → Option Span
  | (.group .paren _ _ _ :: rest, _) :: as, s :: l => leftIn s <|> behind rest <|> inTheWay as l
  | _ :: as, _ :: l => inTheWay as l
  | _, _ => none

/-- The contents of attributes that have none or start with a group in parentheses. -/
inductive Contents : List (List Tok × Str × Span) → List Stream → Prop
  | nil : Contents [] []
  | path {attrs l} (id : Str × Span) : Contents attrs l → Contents (([], id) :: attrs) (⟨[], callSite, none⟩ :: l)
  | list {attrs l} (inner rest : List Tok) (a b : Span) (id : Str × Span) : Contents attrs l →
      Contents ((.group .paren inner a b :: rest, id) :: attrs) (⟨inner, b, none⟩ :: l)

/-- An outcome, unless there is a token in the way. -/
def unlessLeft (r : Res α) : Option Span → Res α
  | none => r
  | some sp => match r with
    | .panic => .panic
    | _ => .err (.new sp .unexpectedToken)

/-- The function is run on the contents, and then each must be at its end. -/
def readThenEnd (func : M (List Stream) α) (l : List Stream) : Res α × List Stream :=
  match func l with
  | (.ok a, l') =>
    match eofAll l' with
    | (.ok (), l'') => (.ok a, l'')
    | (.err e, l'') => (.err e, l'')
    | (.panic, l'') => (.panic, l'')
  | (.err e, l') => (.err e, l')
  | (.panic, l') => (.panic, l')

theorem unlessLeft_or (r : Res α) (a b : Option Span) : unlessLeft (unlessLeft r b) a = unlessLeft r (a <|> b) := by
  cases a <;> cases b <;> cases r <;> rfl

theorem eofAll_length (l : List Stream) : (eofAll l).2.length = l.length := by
  induction l with
  | nil => rfl
  | cons s l ih =>
    simp only [eofAll]
    generalize parseEof s = q
    obtain ⟨r, s'⟩ := q
    cases r with
    | ok u => simp only [List.length_cons]; rw [ih]
    | err e => rfl
    | panic => rfl

theorem readThenEnd_length {func : M (List Stream) α} (hl : ∀ l, (func l).2.length = l.length) (l : List Stream) :
    (readThenEnd func l).2.length = l.length := by
  have h := hl l
  unfold readThenEnd
  generalize func l = q at h
  obtain ⟨r, l'⟩ := q
  cases r with
  | ok a =>
    have h2 := eofAll_length l'
    dsimp only at h ⊢
    generalize eofAll l' = q at h2
    obtain ⟨r, l''⟩ := q
    cases r <;> exact h2.trans h
  | err e => exact h
  | panic => exact h

/-- The outcome of one attribute, if `r` is the outcome of what is read inside. -/
theorem parseTokens_report {toks : List Tok} {func : M Stream α} {s' : Stream} {r : Res α}
    (h : func ⟨toks, callSite, none⟩ = (r, s')) :
    parseTokens toks func = unlessLeft r (s'.unexp <|> behind s'.toks) := by
  obtain ⟨ts, sc, u⟩ := s'
  unfold parseTokens parse2
  dsimp only
  rw [h]
  have heof : parseEof ⟨ts, sc, u⟩ = match behind ts with
      | none => (.ok (), ⟨[], sc, u⟩)
      | some _ => (parseEof ⟨ts, sc, u⟩) := by
    cases ts with
    | nil => rfl
    | cons t ts =>
      cases hc : t.isComma with
      | true =>
        cases ts with
        | nil => simp [behind, parseEof, peekComma_cons, hc]
        | cons t' ts => simp [behind, hc]
      | false => simp [behind, hc]
  have heof' : ∀ sp, behind ts = some sp → ∃ t rest, parseEof ⟨ts, sc, u⟩ =
      (.err (.new sp (.unexpectedTree t)), ⟨t :: rest, sc, u⟩) ∧ t.span = sp := by
    intro sp hb
    cases ts with
    | nil => cases hb
    | cons t ts =>
      simp only [behind] at hb
      cases hc : t.isComma with
      | true =>
        rw [hc] at hb
        cases ts with
        | nil => cases hb
        | cons t' ts =>
          simp only [if_true, List.head?_cons, Option.map_some, Option.some.injEq] at hb
          subst hb
          exact ⟨t', ts, by simp [parseEof, peekComma_cons, hc], rfl⟩
      | false =>
        rw [hc] at hb
        simp only [Bool.false_eq_true, if_false, Option.some.injEq] at hb
        subst hb
        exact ⟨t, ts, by simp [parseEof, peekComma_cons, hc], rfl⟩
  cases hb : behind ts with
  | none =>
    rw [hb] at heof
    dsimp only at heof
    cases r with
    | ok a => cases u <;> simp [heof, unlessLeft, Errors.check, Errors.intoResult, Errors.new]
    | err e => cases u <;> simp [heof, unlessLeft, Errors.check, Errors.intoResult, Errors.new, Errors.pushSyn]
    | panic => cases u <;> simp [unlessLeft]
  | some sp =>
    obtain ⟨t, rest, h1, rfl⟩ := heof' sp hb
    cases r with
    | ok a => cases u <;> simp [h1, unlessLeft]
    | err e => cases u <;> simp [h1, unlessLeft]
    | panic => cases u <;> simp [unlessLeft]

theorem leftIn_drop (rest : List Tok) (sc : Span) (c : Stream) :
    (Stream.dropChild ⟨rest, sc, none⟩ c).unexp = leftIn c ∧ (Stream.dropChild ⟨rest, sc, none⟩ c).toks = rest := by
  unfold Stream.dropChild leftIn
  cases c.unexp <;> cases c.toks <;> simp

/-- C113: the outcome for attributes that each have no content or start with a group in parentheses, for any function
that reads them: its own outcome, or that of the check that each is at its end; but if a token is left anywhere, only the
first such token is reported, whatever else went wrong. -/
theorem c113_report {func : List (Str × Span) → M (List Stream) α} (hl : ∀ ps l, (func ps l).2.length = l.length)
    {attrs : List (List Tok × Str × Span)} {l : List Stream} (ho : Contents attrs l) :
    parseStructAttrTokens attrs func = unlessLeft (readThenEnd (func (attrs.map (·.2))) l).1
      (inTheWay attrs (readThenEnd (func (attrs.map (·.2))) l).2) := by
  have key : ∀ (attrs : List (List Tok × Str × Span)) (l : List Stream), Contents attrs l → ∀ ps (bufs : List Stream),
      parseNext func attrs ps bufs =
        (unlessLeft (readThenEnd (func (ps ++ attrs.map (·.2))) (bufs ++ l)).1
          (inTheWay attrs ((readThenEnd (func (ps ++ attrs.map (·.2))) (bufs ++ l)).2.drop bufs.length)),
          (readThenEnd (func (ps ++ attrs.map (·.2))) (bufs ++ l)).2.take bufs.length) := by
    intro attrs l ho
    induction ho with
    | nil =>
      intro ps bufs
      have hlen := readThenEnd_length (hl ps) bufs
      simp only [List.map_nil, List.append_nil]
      rw [List.take_of_length_le (Nat.le_of_eq hlen)]
      simp only [inTheWay, unlessLeft, parseNext, Bind.bind, M.bind, Pure.pure, M.pure, readThenEnd]
      generalize func ps bufs = q
      obtain ⟨r, l'⟩ := q
      cases r with
      | ok a =>
        dsimp only
        generalize eofAll l' = q
        obtain ⟨r, l''⟩ := q
        cases r <;> rfl
      | err e => rfl
      | panic => rfl
    | @path attrs l id _ ih =>
      intro ps bufs
      have ih := ih (ps ++ [id]) (bufs ++ [⟨[], callSite, none⟩])
      simp only [List.append_assoc, List.singleton_append, List.length_append, List.length_cons, List.length_nil] at ih
      have hlen := readThenEnd_length (hl (ps ++ id :: attrs.map (·.2))) (bufs ++ ⟨[], callSite, none⟩ :: l)
      simp only [List.map_cons]
      generalize readThenEnd (func (ps ++ id :: attrs.map (·.2))) (bufs ++ ⟨[], callSite, none⟩ :: l) = q at ih hlen ⊢
      obtain ⟨r, l'⟩ := q
      simp only [List.length_append, List.length_cons] at hlen ih
      obtain ⟨c, tl, hd⟩ : ∃ c tl, l'.drop bufs.length = c :: tl := by
        cases hd : l'.drop bufs.length with
        | nil => have := congrArg List.length hd; simp only [List.length_drop, List.length_nil] at this; omega
        | cons c tl => exact ⟨c, tl, rfl⟩
      have hd' : l'.drop (bufs.length + (0 + 1)) = tl := by
        rw [← List.drop_drop, hd]
        rfl
      rw [hd'] at ih
      obtain ⟨n, sp⟩ := id
      have hfork : (Stream.fork ⟨[], callSite, none⟩) = ⟨[], callSite, none⟩ := rfl
      simp only [parseNext, hd]
      refine Prod.ext ?_ ?_
      · refine (parseTokens_report (s' := ⟨[], callSite, none⟩)
          (r := unlessLeft r (inTheWay attrs tl)) ?_).trans ?_
        · simp only [Stream.isEmpty, List.isEmpty_nil, if_true, hfork, ih]
        · rfl
      · simp only [Stream.isEmpty, List.isEmpty_nil, if_true, hfork, ih, List.take_take]
        congr 1
        omega
    | @list attrs l inner rest a b id _ ih =>
      intro ps bufs
      have ih := ih (ps ++ [id]) (bufs ++ [⟨inner, b, none⟩])
      simp only [List.append_assoc, List.singleton_append, List.length_append, List.length_cons, List.length_nil] at ih
      have hlen := readThenEnd_length (hl (ps ++ id :: attrs.map (·.2))) (bufs ++ ⟨inner, b, none⟩ :: l)
      simp only [List.map_cons]
      generalize readThenEnd (func (ps ++ id :: attrs.map (·.2))) (bufs ++ ⟨inner, b, none⟩ :: l) = q at ih hlen ⊢
      obtain ⟨r, l'⟩ := q
      simp only [List.length_append, List.length_cons] at hlen ih
      obtain ⟨c, tl, hd⟩ : ∃ c tl, l'.drop bufs.length = c :: tl := by
        cases hd : l'.drop bufs.length with
        | nil => have := congrArg List.length hd; simp only [List.length_drop, List.length_nil] at this; omega
        | cons c tl => exact ⟨c, tl, rfl⟩
      have hd' : l'.drop (bufs.length + (0 + 1)) = tl := by
        rw [← List.drop_drop, hd]
        rfl
      have hget : (l'.take (bufs.length + (0 + 1)))[bufs.length]? = some c := by
        rw [List.getElem?_take_of_lt (by omega)]
        have := congrArg (·[0]?) hd
        simpa [List.getElem?_drop] using this
      rw [hd'] at ih
      obtain ⟨n, sp⟩ := id
      have hent : enter .paren ⟨.group .paren inner a b :: rest, callSite, none⟩ =
          .ok (⟨inner, b, none⟩, ⟨rest, callSite, none⟩) := rfl
      obtain ⟨hu, ht⟩ := leftIn_drop rest callSite c
      simp only [parseNext, hd]
      refine Prod.ext ?_ ?_
      · refine (parseTokens_report (s' := Stream.dropChild ⟨rest, callSite, none⟩ c)
          (r := unlessLeft r (inTheWay attrs tl)) ?_).trans ?_
        · simp only [Stream.isEmpty, List.isEmpty_cons, Bool.false_eq_true, if_false, hent, ih, List.getD, hget,
            Option.getD_some]
        · rw [hu, ht, unlessLeft_or]
          simp only [inTheWay]
          cases leftIn c <;> cases behind rest <;> rfl
      · simp only [Stream.isEmpty, List.isEmpty_cons, Bool.false_eq_true, if_false, hent, ih, List.take_take]
        congr 1
        omega
  have := key attrs l ho [] []
  unfold parseStructAttrTokens
  rw [this]
  rfl

/-- C113: if an attribute neither is bare nor starts with a group in parentheses, the function is not run at all, and
attributes behind it are not looked at.  The first token of the first attribute in front of it that is not empty is
reported, although nothing is wrong with it; only if there is none, the malformed attribute itself. -/
theorem c113_malformed (func : List (Str × Span) → M (List Stream) α) {good : List (List Tok × Str × Span)}
    {l : List Stream} (ho : Contents good l) (t : Tok) (more : List Tok) (id : Str × Span)
    (more' : List (List Tok × Str × Span)) (ht : ¬ Comma t) (hg : ∀ inner a b, t ≠ .group .paren inner a b) :
    parseStructAttrTokens (good ++ (t :: more, id) :: more') func =
      .err (.new ((inTheWay good l).getD t.span) .unexpectedToken) := by
  have hc : t.isComma = false := (isComma_eq_false_iff t).2 ht
  have hent : ∃ e, enter .paren ⟨t :: more, callSite, none⟩ = .error e := by
    cases t with
    | group d inner a b =>
      cases d with
      | paren => exact absurd rfl (hg inner a b)
      | _ => exact ⟨_, rfl⟩
    | _ => exact ⟨_, rfl⟩
  obtain ⟨e, hent⟩ := hent
  have key : ∀ (good : List (List Tok × Str × Span)) (l : List Stream), Contents good l → ∀ ps (bufs : List Stream),
      parseNext func (good ++ (t :: more, id) :: more') ps bufs =
        (.err (.new ((inTheWay good l).getD t.span) .unexpectedToken), bufs) := by
    intro good l ho
    induction ho with
    | nil =>
      intro ps bufs
      obtain ⟨n, sp⟩ := id
      simp only [List.nil_append, parseNext]
      refine Prod.ext ?_ ?_
      · refine (parseTokens_report (s' := ⟨t :: more, callSite, none⟩) (r := .err e) ?_).trans ?_
        · simp only [Stream.isEmpty, List.isEmpty_cons, Bool.false_eq_true, if_false, hent]
        · simp [behind, hc, unlessLeft, inTheWay]
      · simp only [Stream.isEmpty, List.isEmpty_cons, Bool.false_eq_true, if_false, hent]
    | @path attrs l id' _ ih =>
      intro ps bufs
      have ih := ih (ps ++ [id']) (bufs ++ [⟨[], callSite, none⟩])
      obtain ⟨n', sp'⟩ := id'
      have hfork : (Stream.fork ⟨[], callSite, none⟩) = ⟨[], callSite, none⟩ := rfl
      simp only [List.cons_append, parseNext]
      refine Prod.ext ?_ ?_
      · refine (parseTokens_report (s' := ⟨[], callSite, none⟩)
          (r := .err (.new ((inTheWay attrs l).getD t.span) .unexpectedToken)) ?_).trans ?_
        · simp only [Stream.isEmpty, List.isEmpty_nil, if_true, hfork, ih]
        · rfl
      · simp only [Stream.isEmpty, List.isEmpty_nil, if_true, hfork, ih, List.take_left']
    | @list attrs l inner rest a b id' _ ih =>
      intro ps bufs
      have ih := ih (ps ++ [id']) (bufs ++ [⟨inner, b, none⟩])
      obtain ⟨n', sp'⟩ := id'
      have hent' : enter .paren ⟨.group .paren inner a b :: rest, callSite, none⟩ =
          .ok (⟨inner, b, none⟩, ⟨rest, callSite, none⟩) := rfl
      obtain ⟨hu, ht⟩ := leftIn_drop rest callSite ⟨inner, b, none⟩
      simp only [List.cons_append, parseNext]
      refine Prod.ext ?_ ?_
      · refine (parseTokens_report (s' := Stream.dropChild ⟨rest, callSite, none⟩ ⟨inner, b, none⟩)
          (r := .err (.new ((inTheWay attrs l).getD t.span) .unexpectedToken)) ?_).trans ?_
        · simp [Stream.isEmpty, hent', ih]
        · rw [hu, ht]
          simp only [inTheWay]
          cases leftIn ⟨inner, b, none⟩ <;> cases behind rest <;> cases inTheWay attrs l <;> rfl
      · simp only [Stream.isEmpty, List.isEmpty_cons, Bool.false_eq_true, if_false, hent', ih, List.take_left']
  unfold parseStructAttrTokens
  rw [key good l ho [] []]

/-! ## Attributes of an item -/

/-- `#[name]` and `#[name(..)]`. -/
def Meta.WellFormed : Meta → Prop
  | .path => True
  | .list d _ => d = .paren
  | .nameValue _ => False

/-- `#[name[..]]`, `#[name{..}]` and `#[name = value]`, the value not in parentheses. -/
def Meta.Malformed : Meta → Prop
  | .path => False
  | .list d _ => d ≠ .paren
  | .nameValue toks => ∃ t more, toks = t :: more ∧ ¬ Comma t ∧ ∀ inner a b, t ≠ .group .paren inner a b

/-- The first token in the lists of the attributes. -/
def firstToken : List Attr → Option Span
  | [] => none
  | a :: as => match a.body with
    | .list _ (t :: _) => some t.span
    | _ => firstToken as

/-- The place of the argument of an attribute: lost for a list, whose group is made anew. -/
def Meta.place : Meta → Span
  | .nameValue (t :: _) => t.span
  | _ => callSite

/-- C113 for derived types and all others that read attributes: with a malformed attribute nothing is read, and the
report points to the first token of the attributes in front of it; if these are all empty, to the value behind `=` or, for
brackets and braces, to the place where the macro is called. -/
theorem c113_malformed_attribute {V O : Type} (t : AttrTarget V α) (h : HasAttrs O) (container : O → V) (o : O)
    {good more : List Attr} {bad : Attr} (hm : matching t.attributes (h.attrs o) = good ++ bad :: more)
    (hg : ∀ a ∈ good, a.body.WellFormed) (hb : bad.body.Malformed) :
    t.parseAttributes h container o =
      .err (.new ((firstToken good).getD bad.body.place) .unexpectedToken) := by
  have hgood : ∀ good : List Attr, (∀ a ∈ good, a.body.WellFormed) →
      ∃ l, Contents (good.map Attr.entry) l ∧ inTheWay (good.map Attr.entry) l = firstToken good := by
    intro good hg
    induction good with
    | nil => exact ⟨[], .nil, rfl⟩
    | cons a as ih =>
      obtain ⟨l, h1, h2⟩ := ih fun b hb => hg b (List.mem_cons_of_mem _ hb)
      have ha := hg a List.mem_cons_self
      obtain ⟨p, b⟩ := a
      cases b with
      | path => exact ⟨_, .path _ h1, h2⟩
      | list d toks =>
        have hd : d = .paren := ha
        subst hd
        refine ⟨_, .list toks [] callSite callSite _ h1, ?_⟩
        cases toks with
        | nil => exact h2
        | cons t ts => rfl
      | nameValue toks => exact ha.elim
  obtain ⟨l, h1, h2⟩ := hgood good hg
  rw [parseAttributes_eq, hm, List.map_append, List.map_cons]
  obtain ⟨p, b⟩ := bad
  cases b with
  | path => exact hb.elim
  | list d toks =>
    refine (c113_malformed (t.func (container o)) h1 (.group d toks callSite callSite) [] _ _ ?_ ?_).trans ?_
    · rintro ⟨_, _, h⟩
      cases h
    · rintro inner a b h
      cases h
      exact hb rfl
    · rw [h2]
      rfl
  | nameValue toks =>
    obtain ⟨t', more', rfl, h3, h4⟩ := hb
    refine (c113_malformed (t.func (container o)) h1 t' more' _ _ h3 h4).trans ?_
    rw [h2]
    rfl

/-- C113: `#[x(a)] #[x = "v"]`, and `#[x] #[x[a]]`. -/
example (p : APath) (sp : Span) (v : Str) :
    firstToken [⟨p, .list .paren [.ident ['a'] sp]⟩] = some sp ∧ Meta.Malformed (.nameValue [.lit (.str v) sp]) ∧
    firstToken [⟨p, .path⟩] = none ∧ Meta.Malformed (.list .bracket [.ident ['a'] sp]) := by
  refine ⟨rfl, ⟨_, _, rfl, ?_, ?_⟩, rfl, by simp [Meta.Malformed]⟩
  · rintro ⟨_, _, h⟩
    cases h
  · intro _ _ _ h
    cases h

/-- C113: `#[x(a),]`, `#[x]` and a function that stops in the first one. -/
example : Contents [([.group .paren [.ident ['a'] 3] 2 4, .punct ',' false 5], ['x'], 1), ([], ['x'], 6)]
      [⟨[.ident ['a'] 3], 4, none⟩, ⟨[], callSite, none⟩] ∧
    inTheWay [([.group .paren [.ident ['a'] 3] 2 4, .punct ',' false 5], ['x'], 1), ([], ['x'], 6)]
      [⟨[.ident ['a'] 3], 4, none⟩, ⟨[], callSite, none⟩] = some 3 :=
  ⟨.list _ _ _ _ _ (.path _ .nil), rfl⟩

/-- C113: in `#[x(a = 5, 7)]` for a structure with a field `a: bool` neither the wrong value nor the number in the place
of a name is explained: all that is reported is an unexpected token. -/
theorem c113_hidden [Env] (n k : Nat) (s1 s2 s3 s4 s5 : Span) (p : APath) (hp : p.segs = [(['x'], false)]) :
    (attrDemo.attrTarget [[['x']]]).parseAttributes HasAttrs.vec (fun _ => 0)
      [⟨p, .list .paren [.ident ['a'] s1, .punct '=' false s2, .lit (.int n) s3, .punct ',' false s4,
        .lit (.int k) s5]⟩] = .err (.new s5 .unexpectedToken) := by
  obtain ⟨_, _, _⟩ := p
  cases hp
  rfl

end

end Deluxe
