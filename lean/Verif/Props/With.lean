import Verif.Model.With
import Verif.Lemmas.Enum
/-!
# C57: the `with` modules
-/
namespace Deluxe

section
variable {α : Type}

/-- A string literal is next. -/
theorem parseLitStr_lit {v : Str} {sp : Span} {rest : List Tok} {s : Stream}
    (h : s.toks = .lit (.str v) sp :: rest) : parseLitStr s = (.ok v, { s with toks := rest }) := by
  simp [parseLitStr, expectLit, parseLitToks, h]

theorem parseLitStr_ok {v : Str} {s s' : Stream} (h : parseLitStr s = (.ok v, s')) :
    ∃ sp rest, s.toks = .lit (.str v) sp :: rest ∧ s' = { s with toks := rest } := by
  unfold parseLitStr expectLit at h
  split at h
  · rename_i l rest hl
    split at h
    · rename_i a ha
      simp only [Prod.mk.injEq, Res.ok.injEq] at h
      obtain ⟨rfl, rfl⟩ := h
      dsimp only at ha
      split at ha
      · simp only [Option.some.injEq] at ha
        subst ha
        generalize ht : s.toks = ts at hl
        unfold parseLitToks at hl
        split at hl <;> simp at hl
        · exact ⟨_, _, by rw [hl.1, hl.2], rfl⟩
        · split at hl
          · simp at hl
          · split at hl <;> simp at hl
      · simp at ha
    · simp at h
  · simp at h

theorem parseLitStr_good : Good parseLitStr := expectLit_good _ _

theorem parseLitStr_other {s : Stream} (h : ¬ ∃ v sp rest, s.toks = .lit (.str v) sp :: rest) :
    ∃ s', parseLitStr s = (.err (s.error (.expected "string literal".toList)), s') := by
  cases hp : parseLitStr s with
  | mk r s' =>
    cases r with
    | ok v =>
      obtain ⟨sp, rest, h1, _⟩ := parseLitStr_ok hp
      exact absurd ⟨v, sp, rest, h1⟩ h
    | panic => exact absurd (by rw [hp]) (parseLitStr_good s).1
    | err e =>
      refine ⟨s', ?_⟩
      unfold parseLitStr expectLit at hp
      split at hp
      · split at hp
        · simp at hp
        · simp only [Prod.mk.injEq, Res.err.injEq] at hp
          rw [hp.1]
      · simp only [Prod.mk.injEq, Res.err.injEq] at hp
        rw [hp.1]

/-- C57: `from_str` parses exactly a string literal that the type's `FromStr` accepts. -/
theorem c57_from_str (conv : Str → Except Str α) (mode : Mode) (s s' : Stream) (a : α) :
    (fromStrDict conv).parse mode s = (.ok a, s') ↔ ∃ v sp rest, s.toks = .lit (.str v) sp :: rest ∧
      conv v = .ok a ∧ s' = { s with toks := rest } := by
  simp only [fromStrDict, withModule]
  unfold fromStrParse
  constructor
  · intro h
    split at h
    · rename_i v s1 hp
      obtain ⟨sp, rest, h1, rfl⟩ := parseLitStr_ok hp
      split at h
      · rename_i a' hc
        simp only [Prod.mk.injEq, Res.ok.injEq] at h
        exact ⟨v, sp, rest, h1, by rw [hc, h.1], h.2.symm⟩
      · simp at h
    · simp at h
    · simp at h
  · rintro ⟨v, sp, rest, h1, h2, rfl⟩
    simp only [parseLitStr_lit h1, h2]

/-- C57: a literal that `FromStr` rejects is reported with its message, at the literal; anything else is
reported as not being a string literal. -/
theorem c57_from_str_error (conv : Str → Except Str α) (mode : Mode) (s : Stream) :
    (∀ v sp rest m, s.toks = .lit (.str v) sp :: rest → conv v = .error m →
      (fromStrDict conv).parse mode s = (.err (.new sp (.custom m)), { s with toks := rest })) ∧
    ((¬ ∃ v sp rest, s.toks = .lit (.str v) sp :: rest) →
      ((fromStrDict conv).parse mode s).1 = .err (s.error (.expected "string literal".toList))) := by
  constructor
  · intro v sp rest m h1 h2
    simp only [fromStrDict, withModule, fromStrParse, parseLitStr_lit h1, h2]
    simp [Stream.span, h1, Tok.span]
  · intro h
    obtain ⟨s', hs⟩ := parseLitStr_other h
    simp only [fromStrDict, withModule, fromStrParse, hs]

theorem parse2_ok {f : M Stream α} {toks : List Tok} {a : α} :
    parse2 f toks = .ok a ↔
      ∃ st, f ⟨toks, callSite, none⟩ = (.ok a, st) ∧ st.toks = [] ∧ st.unexp = none := by
  unfold parse2
  constructor
  · intro h
    split at h
    · rename_i a' st hf
      split at h
      · simp at h
      · rename_i hu
        split at h
        · simp at h
        · rename_i ht
          simp only [Res.ok.injEq] at h
          exact ⟨st, by rw [hf, h], ht, hu⟩
    · simp at h
    · simp at h
  · rintro ⟨st, h1, h2, h3⟩
    simp only [h1, h3, h2]

/-- C57: `quoted` parses a string literal whose content is, completely, an item of the adapted type. -/
theorem c57_quoted (lex : Str → Except SynErr (List Tok)) (d : Dict α) (mode : Mode) (s s' : Stream) (a : α) :
    (quotedDict lex d).parse mode s = (.ok a, s') ↔ ∃ v sp rest toks st, s.toks = .lit (.str v) sp :: rest ∧
      s' = { s with toks := rest } ∧ lex v = .ok toks ∧
      d.parse mode ⟨toks, callSite, none⟩ = (.ok a, st) ∧ st.toks = [] ∧ st.unexp = none := by
  simp only [quotedDict, withModule]
  unfold quotedParse
  constructor
  · intro h
    split at h
    · rename_i v s1 hp
      obtain ⟨sp, rest, h1, rfl⟩ := parseLitStr_ok hp
      split at h
      · simp at h
      · simp only [Prod.mk.injEq] at h
        obtain ⟨h2, rfl⟩ := h
        unfold parseStr at h2
        split at h2
        · rename_i toks hl
          obtain ⟨st, h3, h4, h5⟩ := parse2_ok.1 h2
          exact ⟨v, sp, rest, toks, st, h1, rfl, hl, h3, h4, h5⟩
        · simp at h2
    · simp at h
    · simp at h
  · rintro ⟨v, sp, rest, toks, st, h1, rfl, hl, h3, h4, h5⟩
    have : parseStr lex (d.parse mode) v = .ok a := by
      unfold parseStr
      rw [hl]
      exact parse2_ok.2 ⟨st, h3, h4, h5⟩
    simp only [parseLitStr_lit h1, this]

/-- The messages for the content of a quoted item: those of the tokenizer, of the adapted parser, or for
tokens left over. -/
inductive ContentError (lex : Str → Except SynErr (List Tok)) (f : M Stream α) (v : Str) : SynErr → Prop
  | lex {e} : lex v = .error e → ContentError lex f v e
  | parse {toks e st} : lex v = .ok toks → f ⟨toks, callSite, none⟩ = (.err e, st) → ContentError lex f v e
  | rest {toks a st sp} : lex v = .ok toks → f ⟨toks, callSite, none⟩ = (.ok a, st) →
      (st.toks ≠ [] ∨ st.unexp ≠ none) → ContentError lex f v (.new sp .unexpectedToken)

theorem parseStr_err {lex : Str → Except SynErr (List Tok)} {f : M Stream α} {v : Str} {e : SynErr}
    (h : parseStr lex f v = .err e) : ContentError lex f v e := by
  unfold parseStr at h
  split at h
  · rename_i toks hl
    unfold parse2 at h
    split at h
    · rename_i a st hf
      split at h
      · rename_i sp hu
        simp only [Res.err.injEq] at h
        subst h
        exact .rest hl hf (.inr (by simp [hu]))
      · split at h
        · rename_i t ts ht
          simp only [Res.err.injEq] at h
          subst h
          exact .rest hl hf (.inl (by simp [ht]))
        · simp at h
    · rename_i st hf
      simp only [Res.err.injEq] at h
      subst h
      exact .parse hl hf
    · simp at h
  · rename_i e' hl
    simp only [Res.err.injEq] at h
    subst h
    exact .lex hl

theorem moveTo_toList (sp : Span) (e : SynErr) :
    (e.moveTo sp).toList = e.toList.map fun m => ⟨sp, m.text⟩ := by
  simp [SynErr.moveTo, SynErr.toList]

/-- C57: everything that is wrong with the content of a quoted item is reported, each message once and at the
literal. -/
theorem c57_quoted_errors (lex : Str → Except SynErr (List Tok)) (d : Dict α) (mode : Mode) {s s' : Stream}
    {v : Str} {sp : Span} {rest : List Tok} (ht : s.toks = .lit (.str v) sp :: rest) {e : SynErr}
    (h : (quotedDict lex d).parse mode s = (.err e, s')) :
    s' = { s with toks := rest } ∧ ∃ e0, ContentError lex (d.parse mode) v e0 ∧
      e.toList = e0.toList.map fun m => ⟨sp, m.text⟩ := by
  simp only [quotedDict, withModule] at h
  unfold quotedParse at h
  simp only [parseLitStr_lit ht] at h
  split at h
  · rename_i e0 he
    simp only [Prod.mk.injEq, Res.err.injEq] at h
    refine ⟨h.2.symm, e0, parseStr_err he, ?_⟩
    rw [← h.1, moveTo_toList]
    simp [Stream.span, ht, Tok.span]
  · rename_i hne
    simp only [Prod.mk.injEq] at h
    exact absurd h.1 (hne e)

/-- C57: only a string literal can be quoted. -/
theorem c57_quoted_other (lex : Str → Except SynErr (List Tok)) (d : Dict α) (mode : Mode) {s : Stream}
    (h : ¬ ∃ v sp rest, s.toks = .lit (.str v) sp :: rest) :
    ((quotedDict lex d).parse mode s).1 = .err (s.error (.expected "string literal".toList)) := by
  obtain ⟨s', hs⟩ := parseLitStr_other h
  simp only [quotedDict, withModule, quotedParse, hs]

theorem peekLitStr_iff (s : Stream) :
    peekLitStr s = true ↔ ∃ v sp rest, s.toks = .lit (.str v) sp :: rest := by
  unfold peekLitStr
  split
  · rename_i v sp rest h
    simp [h]
  · rename_i h
    simpa using fun v sp rest hs => h v sp rest hs

/-- C57: `maybe_quoted` accepts the quoted form of every item, and the plain form of those that do not begin
with a string literal. -/
theorem c57_maybe_quoted_partial (lex : Str → Except SynErr (List Tok)) (d : Dict α) (mode : Mode)
    (s : Stream) :
    ((∃ v sp rest, s.toks = .lit (.str v) sp :: rest) →
      (maybeQuotedDict lex d).parse mode s = (quotedDict lex d).parse mode s) ∧
    ((¬ ∃ v sp rest, s.toks = .lit (.str v) sp :: rest) →
      (maybeQuotedDict lex d).parse mode s = d.parse mode s) := by
  simp only [maybeQuotedDict, withModule, maybeQuotedParse, quotedDict]
  constructor
  · intro h
    rw [if_pos ((peekLitStr_iff s).2 h)]
  · intro h
    rw [if_neg (fun hp => h ((peekLitStr_iff s).1 hp))]

/-- C57 fails for types whose items are string literals: `maybe_quoted` does not accept `"a"` for a `String`,
it takes the quotes for its own. -/
theorem c57_maybe_quoted_violated (lex : Str → Except SynErr (List Tok)) (sp sp' : Span)
    (hl : lex "a".toList = .ok [.ident "a".toList sp']) :
    (stringDict.parse (.named 0) ⟨[.lit (.str "a".toList) sp], 0, none⟩).1 = .ok "a".toList ∧
    ((maybeQuotedDict lex stringDict).parse (.named 0) ⟨[.lit (.str "a".toList) sp], 0, none⟩).1.isOk =
      false := by
  refine ⟨rfl, ?_⟩
  rw [(c57_maybe_quoted_partial lex stringDict _ _).1 ⟨_, _, _, rfl⟩]
  simp only [quotedDict, withModule, quotedParse]
  rw [parseLitStr_lit (v := "a".toList) (sp := sp) (rest := []) rfl]
  simp only [parseStr, hl]
  rfl

/-- C57 fails for lists in parentheses: with `maybe_quoted`, `v(true)` is not accepted for a `Vec<bool>`, although
the plain type accepts it; the parentheses must hold one item, `v([true])`. -/
theorem c57_maybe_quoted_list_violated (lex : Str → Except SynErr (List Tok)) (name : Str) (sp a b c d : Span) :
    ((seqDict boolDict).named name sp ⟨[.group .paren [.ident "true".toList a] b c], d, none⟩).1 = .ok [true] ∧
    ((maybeQuotedDict lex (seqDict boolDict)).named name sp
      ⟨[.group .paren [.ident "true".toList a] b c], d, none⟩).1.isOk = false ∧
    ((maybeQuotedDict lex (seqDict boolDict)).named name sp
      ⟨[.group .paren [.group .bracket [.ident "true".toList a] b c] b c], d, none⟩).1 = .ok [true] :=
  ⟨rfl, rfl, rfl⟩

/-! ## The adapters -/

/-- The macro and the function parse a named item alike. -/
theorem parseNamedWith_eq (parse : Mode → M Stream α) (inline : Mode → M (List Stream) α)
    (flag : Span → Res α) (sp : Span) :
    parseNamedWith parse inline flag sp = parseNamedMetaItem parse inline flag sp := by
  funext s
  unfold parseNamedWith parseNamedMetaItem
  split
  · rename_i hp
    cases hs : s.toks with
    | nil => simp [Stream.peekPunct, hs] at hp
    | cons t ts =>
      simp only [Stream.peekPunct, hs] at hp
      simp [bind, M.bind, parsePunct, hs, hp]
  · rfl

/-- The module's functions for lists, flags and names are what the trait would provide, given its
`parse_meta_item`. -/
structure Dict.Simple (d : Dict α) : Prop where
  inline : d.inline = (Dict.mk' d.parse).inline
  flag : d.flag = (Dict.mk' d.parse).flag
  named : d.named = (Dict.mk' d.parse).named

theorem withModule_simple (parse : Mode → M Stream α) (missing : Str → Span → Res α) :
    (withModule parse (parseFirst parse) (fun sp => .err (flagDisallowedError sp)) missing).Simple := by
  refine ⟨rfl, rfl, ?_⟩
  funext n sp
  simp only [withModule, Dict.mk']
  exact parseNamedWith_eq ..

/-- `from_str`, `mod_path` and `any_path` are such modules. -/
theorem fromStr_simple (conv : Str → Except Str α) : (fromStrDict conv).Simple := withModule_simple _ _
theorem modPath_simple (p : M Stream α) : (modPathDict p).Simple := withModule_simple _ _
theorem anyPath_simple [Env] : anyPathDict.Simple := withModule_simple _ _

/-- C57: an optional adapter parses as `Option` of the adapted parser, in every form but a flag: `x = ..`,
`x(..)`, nested in a list, and when missing. -/
theorem c57_optional_partial {d : Dict α} (hi : d.inline = (Dict.mk' d.parse).inline) :
    (withOptional d).parse = (optionDict d).parse ∧ (withOptional d).inline = (optionDict d).inline ∧
    (withOptional d).missing = (optionDict d).missing ∧
    ∀ n sp s, s.peekPunct '=' = true ∨ s.peekDelim .paren = true →
      (withOptional d).named n sp s = (optionDict d).named n sp s := by
  have hp : (withOptional d).parse = (optionDict d).parse := by
    funext mode
    simp only [withOptional, withModule, optionDict, Dict.mk', innerDict]
    rw [hi]
    rfl
  have hin : (withOptional d).inline = (optionDict d).inline := by
    have : (withOptional d).inline = parseFirst (withOptional d).parse := rfl
    rw [this, hp]
    rfl
  refine ⟨hp, hin, rfl, fun n sp s hs => ?_⟩
  have h1 : (withOptional d).named n sp s =
    parseNamedWith (withOptional d).parse (withOptional d).inline (withOptional d).flag sp s := rfl
  have h2 : (optionDict d).named n sp s =
    parseNamedMetaItem (optionDict d).parse (optionDict d).inline (optionDict d).flag sp s := rfl
  rw [h1, h2, parseNamedWith_eq, hp, hin]
  unfold parseNamedMetaItem
  rcases hs with hs | hs
  · simp only [hs, if_true]
  · simp only [hs, if_true]

/-- C57 fails for flags: an item given as a flag that the adapted parser refuses is silently taken for
`None`. -/
theorem c57_optional_flag_violated (conv : Str → Except Str α) (sp : Span) :
    (∃ e, (optionDict (fromStrDict conv)).named "x".toList sp ⟨[], 0, none⟩ = (.err e, ⟨[], 0, none⟩)) ∧
    (withOptional (fromStrDict conv)).named "x".toList sp ⟨[], 0, none⟩ = (.ok none, ⟨[], 0, none⟩) :=
  ⟨⟨_, rfl⟩, rfl⟩

/-- C57: a collection adapter parses as the collection of the adapted parser, in a list, in brackets and
flattened. -/
theorem c57_collection (d : Dict α) :
    (withSeq d).parse = (seqDict d).parse ∧ (withSeq d).inline = (seqDict d).inline ∧
    (withSeqFlat d).parse = (seqFlat d).parse ∧ (withSeqFlat d).fieldCount = (seqFlat d).fieldCount ∧
    ∀ n sp s, s.peekPunct '=' = true ∨ s.peekDelim .paren = true →
      (withSeq d).named n sp s = (seqDict d).named n sp s := by
  refine ⟨rfl, rfl, rfl, rfl, fun n sp s hs => ?_⟩
  have h1 : (withSeq d).named n sp s =
    parseNamedWith (seqDict d).parse (seqDict d).inline (withSeq d).flag sp s := rfl
  have h2 : (seqDict d).named n sp s =
    parseNamedMetaItem (seqDict d).parse (seqDict d).inline (seqDict d).flag sp s := rfl
  rw [h1, h2, parseNamedWith_eq]
  unfold parseNamedMetaItem
  rcases hs with hs | hs
  · simp only [hs, if_true]
  · simp only [hs, if_true]

/-- C57: appending with a collection adapter is appending with the adapted parser, if the latter's functions
are the usual ones. -/
theorem c57_append_partial [Env] {d : Dict α} (h : d.Simple) : withSeqAppend d = seqAppend d := by
  funext paths
  have : (innerDict d).named = d.named := h.named.symm
  unfold withSeqAppend seqAppend
  rw [this]

/-- C57 fails for collections that are missing or given as a flag: `Vec` requires the item, the adapter takes
it for empty. -/
theorem c57_collection_violated (d : Dict α) (sp : Span) :
    (∃ e, (seqDict d).missing "x".toList sp = .err e) ∧ (withSeq d).missing "x".toList sp = .ok [] ∧
    (∃ e, (seqDict d).flag sp = .err e) ∧ (withSeq d).flag sp = .ok [] :=
  ⟨⟨_, rfl⟩, rfl, ⟨_, rfl⟩, rfl⟩

/-- C57 fails for appended flags: `from_str_default` accepts a flag, but not under a collection adapter. -/
theorem c57_append_flag_violated [Env] (conv : Str → Except Str α) (dflt : α) :
    (seqAppend (fromStrDefaultDict conv dflt) ["x".toList] [⟨[.ident "x".toList 1], 2, none⟩]).1 =
      .ok [dflt] ∧
    (withSeqAppend (fromStrDefaultDict conv dflt) ["x".toList] [⟨[.ident "x".toList 1], 2, none⟩]).1 =
      .err (flagDisallowedError 1) := ⟨rfl, rfl⟩

/-- C57: a map adapter parses as the map of the adapted parsers, if the one for the values has the usual
functions. -/
theorem c57_map_partial [Env] {κ ν : Type} [DecidableEq κ] (kd : Dict κ) (keyStr : κ → Str) {vd : Dict ν}
    (h : vd.Simple) :
    (withMap kd keyStr vd).parse = (mapDict kd keyStr vd).parse ∧
    (withMap kd keyStr vd).inline = (mapDict kd keyStr vd).inline ∧
    (withMapFlat kd keyStr vd).parse = (mapFlat kd keyStr vd).parse ∧
    withMapRest kd keyStr vd = mapRest kd keyStr vd := by
  have hn : (innerDict vd).named = vd.named := h.named.symm
  have hs : mapStep (innerDict kd) keyStr (innerDict vd) = mapStep kd keyStr vd := by
    funext x
    simp only [mapStep, hn]
    rfl
  have hr : ∀ ex, restStep (innerDict kd) keyStr (innerDict vd) ex = restStep kd keyStr vd ex := by
    intro ex
    funext x
    simp only [restStep, hn]
    rfl
  have hf : (mapFlat (innerDict kd) keyStr (innerDict vd)).parse = (mapFlat kd keyStr vd).parse := by
    simp only [mapFlat, hs]
  refine ⟨?_, ?_, hf, ?_⟩
  · simp only [withMap, withModule, mapDict, Dict.mk', hf]
  · simp only [withMap, withModule, mapDict, Dict.mk', hf]
  · funext ex
    simp only [withMapRest, mapRest, hr]

/-- C57 fails for maps that are missing or given as a flag, as for collections. -/
theorem c57_map_violated [Env] {κ ν : Type} [DecidableEq κ] (kd : Dict κ) (keyStr : κ → Str) (vd : Dict ν)
    (sp : Span) :
    (∃ e, (mapDict kd keyStr vd).missing "x".toList sp = .err e) ∧
    (withMap kd keyStr vd).missing "x".toList sp = .ok [] ∧
    (∃ e, (mapDict kd keyStr vd).flag sp = .err e) ∧ (withMap kd keyStr vd).flag sp = .ok [] :=
  ⟨⟨_, rfl⟩, rfl, ⟨_, rfl⟩, rfl⟩

/-! ## No panics -/

theorem withModule_good {parse : Mode → M Stream α} {inline : Mode → M (List Stream) α} {flag : Span → Res α}
    {missing : Str → Span → Res α} (hp : ∀ m, Good (parse m)) (hi : ∀ m, Good (inline m))
    (hf : ∀ sp, flag sp ≠ .panic) (hm : ∀ n sp, missing n sp ≠ .panic) :
    (withModule parse inline flag missing).Good :=
  ⟨hp, hi, hf, fun _ sp => parseNamedWith_good hp hi hf sp, hm⟩

theorem fromStrParse_good (conv : Str → Except Str α) (m : Mode) : Good (fromStrParse conv m) := by
  intro s
  have h := parseLitStr_good s
  unfold fromStrParse
  split
  · rename_i v s' hp
    rw [hp] at h
    split
    · exact ⟨by simp, h.2⟩
    · exact ⟨by simp, h.2⟩
  · rename_i e s' hp
    rw [hp] at h
    exact ⟨by simp, h.2⟩
  · rename_i s' hp
    rw [hp] at h
    exact absurd rfl h.1

theorem quotedParse_good (lex : Str → Except SynErr (List Tok)) {f : M Stream α} (hf : Good f) :
    Good (quotedParse lex f) := by
  intro s
  have h := parseLitStr_good s
  unfold quotedParse
  split
  · rename_i v s' hp
    rw [hp] at h
    have hn : parseStr lex f v ≠ .panic := by
      unfold parseStr
      split
      · exact parse2_ne_panic hf _
      · simp
    split
    · exact ⟨by simp, h.2⟩
    · exact ⟨hn, h.2⟩
  · rename_i e s' hp
    rw [hp] at h
    exact ⟨by simp, h.2⟩
  · rename_i s' hp
    rw [hp] at h
    exact absurd rfl h.1

theorem fromStrDict_good (conv : Str → Except Str α) : (fromStrDict conv).Good :=
  withModule_good (fromStrParse_good conv) (parseFirst_good (fromStrParse_good conv)) dfltFlag_ne dfltMissing_ne

theorem quotedDict_good (lex : Str → Except SynErr (List Tok)) {d : Dict α} (h : d.Good) :
    (quotedDict lex d).Good :=
  withModule_good (fun m => quotedParse_good lex (h.parse m))
    (parseFirst_good fun m => quotedParse_good lex (h.parse m)) h.flag h.missing

theorem maybeQuotedDict_good (lex : Str → Except SynErr (List Tok)) {d : Dict α} (h : d.Good) :
    (maybeQuotedDict lex d).Good := by
  have hp : ∀ m, Good (maybeQuotedParse lex d m) := by
    intro m s
    unfold maybeQuotedParse
    split
    · exact quotedParse_good lex (h.parse m) s
    · exact h.parse m s
  exact withModule_good hp (parseFirst_good hp) h.flag h.missing

theorem innerDict_good {d : Dict α} (h : d.Good) : (innerDict d).Good := Dict.mk'_good_parse h.parse

/-- C57: like the adapted parsers, the modules never panic, whatever the input, and only move forward, so all
that is proved of derived types holds for fields that use them. -/
theorem c57_never_panics [Env] {κ : Type} [DecidableEq κ] (lex : Str → Except SynErr (List Tok))
    (conv : Str → Except Str α) (dflt : α) (keyStr : κ → Str) {d : Dict α} {kd : Dict κ} {p : M Stream α}
    (h : d.Good) (hk : kd.Good) (hp : Good p) :
    (fromStrDict conv).Good ∧ (fromStrDefaultDict conv dflt).Good ∧ (modPathDict p).Good ∧ anyPathDict.Good ∧
    (quotedDict lex d).Good ∧ (maybeQuotedDict lex d).Good ∧ (withSynDict p).Good ∧
    (synQuotedDict lex p).Good ∧ (identityDict d).Good ∧ (withOptional d).Good ∧ (withSeq d).Good ∧
    (withSeqFlat d).Good ∧ (∀ paths, Good (withSeqAppend d paths)) ∧ (withMap kd keyStr d).Good ∧
    (withMapFlat kd keyStr d).Good ∧ ∀ ex, Good (withMapRest kd keyStr d ex) := by
  have hi := innerDict_good h
  have hki := innerDict_good hk
  have hm := mapDict_good (keyStr := keyStr) hki.parse hi.named
  refine ⟨fromStrDict_good conv, ?_, ?_, ?_, quotedDict_good lex h, maybeQuotedDict_good lex h, ?_, ?_, ?_, ?_,
    ?_, seqFlat_good h.parse, seqAppend_good hi.named, ?_, mapFlat_good keyStr hki.parse hi.named,
    mapRest_good keyStr hki.parse hi.named⟩
  · exact withModule_good (fromStrParse_good conv) (parseFirst_good (fromStrParse_good conv)) (by simp) (by simp)
  · exact withModule_good (fun _ => hp) (parseFirst_good fun _ => hp) dfltFlag_ne dfltMissing_ne
  · exact withModule_good (fun _ => parseAnyPath_good) (parseFirst_good fun _ => parseAnyPath_good) dfltFlag_ne
      dfltMissing_ne
  · exact withModule_good (fun _ => hp) (parseFirst_good fun _ => hp) (parseEmpty_ne_panic hp) dfltMissing_ne
  · exact withModule_good (fun _ => quotedParse_good lex hp) (parseFirst_good fun _ => quotedParse_good lex hp)
      (parseEmpty_ne_panic hp) dfltMissing_ne
  · exact withModule_good h.parse h.inline h.flag h.missing
  · exact withModule_good (optionDict_good hi).parse (optionDict_good hi).inline (by simp) (by simp)
  · exact withModule_good (seqDict_good hi.parse).parse (seqDict_good hi.parse).inline (by simp) (by simp)
  · exact withModule_good hm.parse hm.inline (by simp) (by simp)

/-! ## Concrete cases -/

/-- `FromStr` of a type with values 0 and 1. -/
def demoConv (v : Str) : Except Str Nat :=
  if v = "0".toList then .ok 0 else if v = "1".toList then .ok 1 else .error "not a bit".toList

example : (fromStrDict demoConv).parse .unnamed ⟨[.lit (.str "1".toList) 3], 4, none⟩ =
    (.ok 1, ⟨[], 4, none⟩) := by
  rw [c57_from_str]
  exact ⟨_, _, _, rfl, rfl, rfl⟩

example : (fromStrDict demoConv).parse .unnamed ⟨[.lit (.str "2".toList) 3], 4, none⟩ =
    (.err (.new 3 (.custom "not a bit".toList)), ⟨[], 4, none⟩) :=
  (c57_from_str_error demoConv _ _).1 _ _ _ _ rfl rfl

/-- A tokenizer that knows one string. -/
def demoLex (v : Str) : Except SynErr (List Tok) :=
  if v = "true".toList then .ok [.ident "true".toList 0]
  else if v = "a b".toList then .ok [.ident "a".toList 0, .ident "b".toList 0]
  else .error (.new 0 (.custom "lex error".toList))

example : (quotedDict demoLex boolDict).parse (.named 1) ⟨[.lit (.str "true".toList) 3], 4, none⟩ =
    (.ok true, ⟨[], 4, none⟩) := by
  rw [c57_quoted]
  exact ⟨_, _, _, _, ⟨[], callSite, none⟩, rfl, rfl, rfl, rfl, rfl, rfl⟩

/-- The token left over is reported at the literal. -/
example : (quotedDict demoLex identDict).parse (.named 1) ⟨[.lit (.str "a b".toList) 3], 4, none⟩ =
    (.err (.new 3 .unexpectedToken), ⟨[], 4, none⟩) := rfl

example : (withSeq (fromStrDict demoConv)).named "x".toList 1 ⟨[.group .paren [.lit (.str "0".toList) 2,
      .punct ',' false 3, .lit (.str "1".toList) 4] 5 6], 7, none⟩ = (.ok [0, 1], ⟨[], 7, none⟩) := by
  rw [(c57_collection _).2.2.2.2 _ _ _ (.inr rfl)]
  rfl

end

end Deluxe
