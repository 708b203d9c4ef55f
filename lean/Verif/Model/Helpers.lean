import Verif.Model.Errors
/-!
# Helper functions of core/parse_helpers.rs (token level)
-/
namespace Deluxe

/-! ## syn primitives used by deluxe (external) -/

/-- `input.parse::<Token![c]>()` for a one-character token: consumes it, or fails at the next token
with "expected `c`" without consuming. -/
def parsePunct (c : Char) : M Stream Unit := fun s =>
  match s.toks with
  | t :: rest =>
    if t.isPunct c then (.ok (), { s with toks := rest })
    else (.err (.new s.span (.expectedPunct [c])), s)
  | [] => (.err (.new s.span (.expectedPunct [c])), s)

/-- `input.parse::<Token![,]>()`. -/
def parseComma : M Stream Unit := parsePunct ','

/-- `input.parse::<Nothing>()`: succeeds without looking at the input. -/
def parseNothing : M Stream Unit := fun s => (.ok (), s)

/-- `Parser::parse2`: runs the function on a fresh buffer, then rejects recorded and remaining
unexpected tokens. -/
def parse2 {α} (f : M Stream α) (toks : List Tok) : Res α :=
  match f ⟨toks, callSite, none⟩ with
  | (.ok a, s) =>
    match s.unexp with
    | some sp => .err (.new sp .unexpectedToken)
    | none =>
      match s.toks with
      | t :: _ => .err (.new t.span .unexpectedToken)
      | [] => .ok a
  | (.err e, _) => .err e
  | (.panic, _) => .panic

/-- `ParseDelimited::parse_delimited`, core/parse_helpers.rs:275-300: the content buffer (its scope is
the closing delimiter, its "unexpected" cell that of the parent) and the stream after the group. -/
def enter (d : Delim) (s : Stream) : Except SynErr (Stream × Stream) :=
  match s.toks with
  | .group d' inner sp close :: rest =>
    if d' = d then .ok (⟨inner, close, s.unexp⟩, { s with toks := rest })
    else .error (.new sp (.expectedDelim d))
  | _ => .error (s.error (.expectedDelim d))

/-- Runs a function on the content of a delimited group and drops the content buffer. -/
def withContent {α} (d : Delim) (f : M Stream α) : M Stream α := fun s =>
  match enter d s with
  | .error e => (.err e, s)
  | .ok (content, s') =>
    let (r, c') := f content
    (r, s'.dropChild c')

/-- Passes one stream as a one-element slice, `f(&[input])`. -/
def single {α} (f : M (List Stream) α) : M Stream α := fun s =>
  let (r, l) := f [s]
  (r, l.headD s)

/-! ## End of input -/

/-- core/parse_helpers.rs:314-326 -/
def parseEof : M Stream Unit := fun s =>
  let s := if s.peekPunct ',' then { s with toks := s.toks.tail } else s
  match s.toks with
  | t :: _ => (.err (.new t.span (.unexpectedTree t)), s)
  | [] => (.ok (), s)

/-- core/parse_helpers.rs:306-308 (on a fork, so the stream itself does not move) -/
def peekEof (s : Stream) : Bool := (parseEof s.fork).1.isOk

/-- core/parse_helpers.rs:255-263 -/
def parseDelimitedWith {α} (d : Delim) (f : M Stream α) : M Stream α :=
  withContent d do
    let r ← f
    parseEof
    pure r

/-! ## Empty input -/

/-- Error relocation of core/parse_helpers.rs:338-343: the first message is rebuilt with the new span
(`Error::new` with the `Display` of the first error), the others are combined unchanged. -/
def respanFirst (span : Span) (e : SynErr) : SynErr := ⟨⟨span, e.head.text⟩, e.tail⟩

/-- core/parse_helpers.rs:333-345 -/
def parseEmpty {α} (span : Span) (f : M Stream α) : Res α :=
  match parse2 f [] with
  | .err e => .err (respanFirst span e)
  | r => r

/-- core/parse_helpers.rs:354-359 (`f` is `T::parse_meta_item_inline` in the given mode) -/
def parseEmptyMetaItem {α} (span : Span) (f : M (List Stream) α) : Res α :=
  parseEmpty span (single f)

/-- core/parse_helpers.rs:363-384.  Streams after the first are only `parse::<Nothing>()`d, which
never fails. -/
def parseFirst {α} (f : Mode → M Stream α) (mode : Mode) : M (List Stream) α := fun inputs =>
  match inputs with
  | s :: rest =>
    let (r, s') := (do let ret ← f mode; parseEof; pure ret : M Stream α) s
    (r, s' :: rest)
  | [] => (parseEmpty (mode.namedSpan.getD callSite) (f mode), [])

/-! ## Named items -/

/-- core/parse_helpers.rs:448-471 -/
def parseNamedWith {α} (parse : Mode → M Stream α) (inline : Mode → M (List Stream) α)
    (flag : Span → Res α) (nameSpan : Span) : M Stream α := fun s =>
  if s.peekPunct '=' then
    parse (.named nameSpan) { s with toks := s.toks.tail }
  else if s.peekDelim .paren then
    parseDelimitedWith .paren (single (inline (.named nameSpan))) s
  else (flag nameSpan, s)

/-- `NamedParse`, core/parse_helpers.rs:415-422 -/
inductive NamedParse
  | equals
  | paren (content : Stream)
  | flag

/-- core/parse_helpers.rs:429-439.  The content buffer is returned, not dropped. -/
def tryParseNamed : M Stream NamedParse := fun s =>
  if s.peekPunct '=' then (.ok .equals, { s with toks := s.toks.tail })
  else if s.peekDelim .paren then
    match enter .paren s with
    | .ok (c, s') => (.ok (.paren c), s')
    | .error e => (.err e, s)
  else (.ok .flag, s)

/-! ## Key paths -/

/-- A key path: `leading` colon, segments, span (`Spanned for syn::Path`). -/
structure Path where
  leading : Bool
  segs : List Str
  span : Span

/-- `ToKeyString for syn::Path`, core/parse_meta.rs:1404-1418, for paths without generic arguments:
segments joined by `::`; the leading colon is not printed. -/
def keyString : List Str → Str
  | [] => []
  | [s] => s
  | s :: rest => s ++ [':', ':'] ++ keyString rest

/-- The segment loop of core/parse_helpers.rs:544-556: segments with spans, whether it ended after a
separator, remaining tokens. -/
def pathLoop : List Tok → List (Str × Span) × Bool × List Tok
  | .ident s sp :: .punct ':' true _ :: .punct ':' _ _ :: rest =>
    let (segs, trailing, rest') := pathLoop rest
    ((s, sp) :: segs, (if segs.isEmpty then true else trailing), rest')
  | .ident s sp :: rest => ([(s, sp)], false, rest)
  | toks => ([], false, toks)

/-- `Spanned::span` of several tokens: first joined with last, or first. -/
def joinSpans [Env] (first : Span) (rest : List Span) : Span :=
  match rest.getLast? with
  | none => first
  | some l => (Env.join first l).getD first

/-- `input.parse::<Option<Token![::]>>()`, core/parse_helpers.rs:542: spans of the two colons. -/
def leadColon : List Tok → List Span × List Tok
  | .punct ':' true sp :: .punct ':' _ sp2 :: rest => ([sp, sp2], rest)
  | toks => ([], toks)

/-- core/parse_helpers.rs:540-565 -/
def parseAnyPath [Env] : M Stream Path := fun s =>
  let (lead, toks) := leadColon s.toks
  let (segs, trailing, toks') := pathLoop toks
  let s' := { s with toks := toks' }
  if segs.isEmpty then (.err (s'.error .expectedPath), s')
  else if trailing then (.err (s'.error .expectedPathSegment), s')
  else
    let spans := lead ++ segs.map (·.2)
    (.ok ⟨!lead.isEmpty, segs.map (·.1), joinSpans (spans.headD callSite) spans.tail⟩, s')

/-! ## Loops over items -/

/-- Loop of core/parse_helpers.rs:588-597 on one stream.  The callback gets the key string and the
key span, and may change the captured state `κ` and the stream.  Fuel: out of fuel is a panic. -/
def structLoop [Env] {κ : Type} (func : Str → Span → M (κ × Stream) Unit) :
    Nat → M (κ × Stream) Unit
  | 0 => M.panic
  | n + 1 => fun st =>
    if st.2.isEmpty then (.ok (), st)
    else
      (do
        let path ← M.onSnd parseAnyPath
        func (keyString path.segs) path.span
        let st' ← M.get
        if st'.2.isEmpty then pure () else M.onSnd parseComma
        structLoop func n : M (κ × Stream) Unit) st

/-- Visits the streams one after the other, `for input in inputs { loop {..} }`. The body gets fuel
for the current stream (its number of tokens plus one). -/
def forStreams {κ : Type} (body : Nat → M (κ × Stream) Unit) : M (κ × List Stream) Unit :=
  fun st => go st.1 st.2
where
  go : κ → List Stream → Res Unit × (κ × List Stream)
    | k, [] => (.ok (), (k, []))
    | k, s :: rest =>
      match body (s.toks.length + 1) (k, s) with
      | (.ok (), (k', s')) =>
        let (r, (k'', rest')) := go k' rest
        (r, (k'', s' :: rest'))
      | (r, (k', s')) => (r, (k', s' :: rest))

/-- core/parse_helpers.rs:581-600 -/
def parseStruct [Env] {κ : Type} (func : Str → Span → M (κ × Stream) Unit) :
    M (κ × List Stream) Unit :=
  forStreams (structLoop func)

/-- Runs a computation on the first stream of a list. -/
def onHead {κ α : Type} (m : M Stream α) : M (κ × List Stream) α := fun st =>
  match st.2 with
  | [] => (.panic, st)
  | s :: rest =>
    let (r, s') := m s
    (r, (st.1, s' :: rest))

/-- Inner loop of core/parse_helpers.rs:521-533 with `rem = len - counter` items still allowed.
Returns the counter and whether the whole function returns (line 526). -/
def tupleLoop {κ : Type} (func : Nat → M (κ × List Stream) Unit) :
    (rem counter : Nat) → M (κ × List Stream) (Nat × Bool)
  | 0, counter => fun st =>
    match st.2 with
    | [] => (.ok (counter, false), st)
    | s :: _ => (.ok (counter, !s.isEmpty), st)
  | rem + 1, counter => fun st =>
    match st.2 with
    | [] => (.ok (counter, false), st)
    | s :: _ =>
      if s.isEmpty then (.ok (counter, false), st)
      else
        (do
          func counter
          let st' ← M.get
          if (st'.2.headD s).isEmpty || rem == 0 then pure () else onHead parseComma
          tupleLoop func rem (counter + 1) : M (κ × List Stream) (Nat × Bool)) st

/-- core/parse_helpers.rs:513-537.  The callback sees the index and the current and following
streams. -/
def parseTupleStruct {κ : Type} (func : Nat → M (κ × List Stream) Unit) (len : Nat) :
    M (κ × List Stream) Nat := fun st => go st.2.length 0 st
where
  go : Nat → Nat → M (κ × List Stream) Nat
    | 0, counter => fun st => (.ok counter, st)
    | n + 1, counter => fun st =>
      match tupleLoop func (len - counter) counter st with
      | (.ok (c, true), st') => (.ok c, st')
      | (.ok (c, false), (k, l)) =>
        match l with
        | [] => (.ok c, (k, []))
        | s :: rest =>
          let (r, (k', rest')) := go n c (k, rest)
          (r, (k', s :: rest'))
      | (.err e, st') => (.err e, st')
      | (.panic, st') => (.panic, st')

/-- core/parse_helpers.rs:606-621 -/
def skipToks : List Tok → List Tok
  | [] => []
  | t :: rest => if t.isComma then t :: rest else skipToks rest

/-- core/parse_helpers.rs:606-621 -/
def skipMetaItem (s : Stream) : Stream := { s with toks := skipToks s.toks }

/-- core/parse_helpers.rs:625-641 -/
def skipAll (inputs : List Stream) : List Stream := inputs.map fun s => { s with toks := [] }

/-! ## Attributes to streams -/

/-- core/parse_helpers.rs:644-665.  `func` errors and a trailing-token error are collected, but the
outer `parse2` fails first when tokens are left over or recorded as unexpected. -/
def parseTokens {α} (toks : List Tok) (func : M Stream α) : Res α :=
  let run := parse2 (fun stream =>
    match func stream with
    | (.panic, s') => (.panic, s')
    | (.ok a, s') =>
      match parseEof s' with
      | (.err e, s'') => (.ok (Errors.new.pushSyn e, some a), s'')
      | (_, s'') => (.ok (Errors.new, some a), s'')
    | (.err e, s') =>
      match parseEof s' with
      | (.err e', s'') => (.ok ((Errors.new.pushSyn e).pushSyn e', none), s'')
      | (_, s'') => (.ok (Errors.new.pushSyn e, none), s'')) toks
  match run with
  | .ok (errors, ret) =>
    match errors.check with
    | .ok () => match ret with
      | some a => .ok a
      | none => .panic
    | .err e => .err e
    | .panic => .panic
  | .err e => .err e
  | .panic => .panic

/-- Final check of core/parse_helpers.rs:716-718: every buffer must be at its end. -/
def eofAll : M (List Stream) Unit
  | [] => (.ok (), [])
  | s :: rest =>
    match parseEof s with
    | (.ok (), s') =>
      let (r, rest') := eofAll rest
      (r, s' :: rest')
    | (r, s') => (r, s' :: rest)

/-- `parse_next`, core/parse_helpers.rs:690-721.  `buffers` are the buffers collected so far; the
result also gives their final states, since each is dropped with its leftovers inside the function
and then counts as unexpected in its own `parse2`. -/
def parseNext {α} (func : List (Str × Span) → M (List Stream) α) :
    List (List Tok × Str × Span) → List (Str × Span) → M (List Stream) α
  | [], paths => fun buffers =>
    (do let r ← func paths; eofAll; pure r : M (List Stream) α) buffers
  | (toks, name, span) :: attrs, paths => fun buffers =>
    -- the result of `parse_tokens` and the final state of the outer buffers, computed together
    let inner : Stream → Res α × List Stream × Stream := fun stream =>
      if stream.isEmpty then
        let (r, l) := parseNext func attrs (paths ++ [(name, span)]) (buffers ++ [stream.fork])
        (r, l.take buffers.length, stream)
      else
        match enter .paren stream with
        | .error e => (.err e, buffers, stream)
        | .ok (content, stream') =>
          let (r, l) := parseNext func attrs (paths ++ [(name, span)]) (buffers ++ [content])
          (r, l.take buffers.length, stream'.dropChild (l.getD buffers.length content))
    (parseTokens toks (fun stream => let (r, _, s') := inner stream; (r, s')),
      (inner ⟨toks, callSite, none⟩).2.1)

/-- core/parse_helpers.rs:684-723 -/
def parseStructAttrTokens {α} (attrs : List (List Tok × Str × Span))
    (func : List (Str × Span) → M (List Stream) α) : Res α :=
  (parseNext func attrs [] []).1

/-- core/parse_helpers.rs:862-876 -/
def inputsSpan [Env] : List Stream → Span
  | [] => callSite
  | s :: rest => rest.foldl (fun sp t => (Env.join sp t.span).getD sp) s.span

/-- core/parse_helpers.rs:1008-1010 -/
def firstSpan (paths : List (Str × Span)) : Span :=
  match paths with
  | [] => callSite
  | p :: _ => p.2

/-- core/parse_helpers.rs:1016-1018 -/
def firstPathName (paths : List (Str × Span)) : Option Str := paths.head?.map (·.1)

/-- core/parse_helpers.rs:1025-1030 -/
def forkInputs (inputs : List Stream) : List Stream := inputs.map Stream.fork

/-! ## Errors with fixed texts -/

/-- core/parse_helpers.rs:882-884 -/
def missingFieldError (name : Str) (span : Span) : SynErr := .new span (.missingField name)

/-- core/parse_helpers.rs:890-892 -/
def flagDisallowedError (span : Span) : SynErr := .new span .flagDisallowed

/-- Candidate loop of core/parse_helpers.rs:901-907. -/
def closestLoop [Env] (path : Str) (closest : Option (Nat × Str)) : List Str → Option (Nat × Str)
  | [] => closest
  | field :: rest =>
    let sim := Env.sim path field
    let better := match closest with
      | some (s, _) => decide (s < sim)
      | none => true
    closestLoop path (if Env.simMin < sim ∧ better = true then some (sim, field) else closest) rest

/-- core/parse_helpers.rs:900-916 -/
def unknownError [Env] (path : Str) (span : Span) (fields : List Str) : SynErr :=
  .new span (.unknownField path ((closestLoop path none fields).map (·.2)))

/-- core/parse_helpers.rs:923-929 -/
def checkUnknownAttribute [Env] (path : Str) (span : Span) (fields : List Str) (errors : Errors) :
    Errors × Bool :=
  if fields.contains path then (errors, false)
  else (errors.pushSyn (unknownError path span fields), true)

end Deluxe
