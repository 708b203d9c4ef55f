import Verif.Model.Dict
/-!
# Provided implementations (core/parse_meta.rs:267-1551, core/util.rs:246-567)
-/
namespace Deluxe

/-! ## Literals and identifiers (syn, external) -/

/-- What `syn::Lit` distinguishes. -/
inductive LitVal
  | lit (l : Lit)
  | neg (l : Lit)
  | bool (b : Bool)

/-- `impl Parse for syn::Lit`: a literal, `true`/`false`, or `-` followed by a number. -/
def parseLitToks : List Tok → Option (LitVal × List Tok)
  | .lit l _ :: rest => some (.lit l, rest)
  | .ident s _ :: rest =>
    if s = "true".toList then some (.bool true, rest)
    else if s = "false".toList then some (.bool false, rest)
    else none
  | .punct '-' _ _ :: .lit (.int n) _ :: rest => some (.neg (.int n), rest)
  | .punct '-' _ _ :: .lit (.float r) _ :: rest => some (.neg (.float r), rest)
  | _ => none

/-- `impl Parse for LitStr` and friends: any literal is consumed, then its kind is checked. -/
def expectLit {α} (what : Str) (f : LitVal → Option α) : M Stream α := fun s =>
  match parseLitToks s.toks with
  | some (l, rest) =>
    match f l with
    | some a => (.ok a, { s with toks := rest })
    | none => (.err (s.error (.expected what)), { s with toks := rest })
  | none => (.err (s.error (.expected what)), s)

/-- `input.parse::<LitStr>()?.value()` -/
def parseLitStr : M Stream Str := expectLit "string literal".toList fun
  | .lit (.str v) => some v
  | _ => none

/-- `input.parse::<LitInt>()`, as sign (is there a `-`) and magnitude. -/
def parseLitInt : M Stream (Bool × Nat) := expectLit "integer literal".toList fun
  | .lit (.int n) => some (false, n)
  | .neg (.int n) => some (true, n)
  | _ => none

/-- `input.parse::<LitChar>()?.value()` -/
def parseLitChar : M Stream Char := expectLit "character literal".toList fun
  | .lit (.char c) => some c
  | _ => none

/-- `input.parse::<LitBool>()?.value()` -/
def parseLitBool : M Stream Bool := expectLit "boolean literal".toList fun
  | .bool b => some b
  | _ => none

/-- `Ident::parse_any`. -/
def parseIdentAny : M Stream Str := fun s =>
  match s.toks with
  | .ident x _ :: rest => (.ok x, { s with toks := rest })
  | _ => (.err (s.error (.expected "ident".toList)), s)

/-! ## Primitives -/

/-- core/parse_meta.rs:267-298, 314-321, 334-346: literal and conversion (`base10_parse`); the
conversion error is located at the literal. -/
def intDict {α} (conv : Bool × Nat → Option α) : Dict α :=
  .mk' (parse := fun _ s =>
    match parseLitInt s with
    | (.ok n, s') =>
      match conv n with
      | some a => (.ok a, s')
      | none => (.err (.new s.span (.custom "number out of range".toList)), s')
    | (.err e, s') => (.err e, s')
    | (.panic, s') => (.panic, s'))

/-- core/parse_meta.rs:300-312 -/
def u8Dict : Dict Nat :=
  .mk' (parse := fun _ s =>
    match s.toks with
    | .lit (.byte b) _ :: rest => (.ok b, { s with toks := rest })
    | .lit (.int n) sp :: rest =>
      if n < 256 then (.ok n, { s with toks := rest })
      else (.err (.new sp (.custom "number out of range".toList)), { s with toks := rest })
    | .punct '-' _ sp :: .lit (.int _) _ :: rest =>
      (.err (.new sp (.custom "number out of range".toList)), { s with toks := rest })
    | _ => (.err (s.error (.expected "byte literal or integer literal".toList)), s))

/-- core/parse_meta.rs:323-332 -/
def boolDict : Dict Bool :=
  .mk' (parse := fun _ => parseLitBool) (flag := fun _ => .ok true)

/-- core/parse_meta.rs:348 -/
def charDict : Dict Char := .mk' (parse := fun _ => parseLitChar)

/-- core/parse_meta.rs:350-355 (also `PathBuf`, `OsString`, 368-391) -/
def stringDict : Dict Str := .mk' (parse := fun _ => parseLitStr)

/-- core/parse_meta.rs:1357-1362 -/
def identDict : Dict Str := .mk' (parse := fun _ => parseIdentAny)

/-- core/parse_meta.rs:1277-1301: any syn node; its parser is a parameter. -/
def synDict {α} (p : M Stream α) : Dict α := .mk' (parse := fun _ => p)

/-- core/parse_meta.rs:1303-1319: syn nodes that may contain commas or `=`. -/
def synParenDict {α} (p : M Stream α) : Dict α :=
  .mk' (parse := fun mode =>
    match mode with
    | .named _ => withContent .paren do
        let ret ← p
        parseNothing
        pure ret
    | .unnamed => p)

/-- core/parse_meta.rs:947-956 -/
def tokenTreeDict : Dict Tok :=
  .mk' (parse := fun _ s =>
    match s.toks with
    | t :: rest => (.ok t, { s with toks := rest })
    | [] => (.err (.new s.scope (.custom "unexpected end of tokens".toList)), s))

/-- core/parse_meta.rs:1039-1048 -/
def literalDict : Dict Lit :=
  .mk' (parse := fun _ s =>
    match s.toks with
    | .lit l _ :: rest => (.ok l, { s with toks := rest })
    | _ => (.err (.new s.span (.custom "expected literal".toList)), s))

/-- core/parse_meta.rs:1052-1061.  The quote of a lifetime is no punctuation for `Cursor::punct`. -/
def punctDict : Dict Char :=
  .mk' (parse := fun _ s =>
    match s.toks with
    | .punct c _ sp :: rest =>
      if c = '\'' then (.err (.new sp (.custom "expected punctuation".toList)), s)
      else (.ok c, { s with toks := rest })
    | _ => (.err (.new s.span (.custom "expected punctuation".toList)), s))

/-- core/parse_meta.rs:1065-1082.  The rebuilt group has the call site span. -/
def groupDict : Dict (Delim × List Tok) :=
  .mk' (parse := fun _ s =>
    match s.toks with
    | .group d inner _ _ :: rest => (.ok (d, inner), { s with toks := rest })
    | _ => (.err (.new s.span (.custom "expected parenthesis or brace or bracket".toList)), s))

/-! ## `()` -/

/-- core/parse_meta.rs:1440-1461 -/
def unitDict : Dict Unit :=
  .mk' (parse := fun _ => withContent .paren parseNothing)
    (inline := fun _ inputs => (.ok (), inputs))
    (flag := fun _ => .ok ())

/-! ## TokenStream -/

/-- Collecting loop of core/parse_meta.rs:990-996: tokens before the next comma, and the rest. -/
def takeToks : List Tok → List Tok × List Tok
  | [] => ([], [])
  | t :: rest =>
    if t.isComma then ([], t :: rest)
    else
      let (a, b) := takeToks rest
      (t :: a, b)

/-- core/parse_meta.rs:983-1002 -/
def tokenStreamParse (mode : Mode) : M Stream (List Tok) := fun s =>
  if s.peekPunct ',' then (.err (.new s.span .unexpectedComma), s)
  else
    let (tts, rest) := takeToks s.toks
    if tts.isEmpty then (.err (.new (mode.toSpan s) .expectedToken), s)
    else (.ok tts, { s with toks := rest })

/-- core/parse_meta.rs:981-1011 -/
def tokenStreamDict : Dict (List Tok) :=
  .mk' (parse := tokenStreamParse) (flag := fun _ => .ok []) (missing := fun _ _ => .ok [])

/-- Inner loop of core/parse_meta.rs:1026-1031. -/
def tokenStreamLoop : Nat → M (List Tok × Stream) Unit
  | 0 => M.panic
  | n + 1 => fun (tts, s) =>
    if s.isEmpty then (.ok (), (tts, s))
    else
      match tokenStreamParse .unnamed s with
      | (.ok ts, s') => tokenStreamLoop n (tts ++ ts, s')
      | (.err e, s') => (.err e, (tts, s'))
      | (.panic, s') => (.panic, (tts, s'))

/-- core/parse_meta.rs:1013-1035 -/
def tokenStreamFlat : FlatUnnamed (List Tok) where
  fieldCount := none
  parse := fun _ _ inputs =>
    match forStreams tokenStreamLoop ([], inputs) with
    | (.ok (), (tts, l)) => (.ok tts, l)
    | (.err e, (_, l)) => (.err e, l)
    | (.panic, (_, l)) => (.panic, l)

/-! ## Option -/

/-- `input.parse::<keyword>()`, `peek` succeeded before. -/
def dropTok (s : Stream) : Stream := { s with toks := s.toks.tail }

/-- `lookahead.peek(keyword)`: an identifier with that text. -/
def peekIdent (x : Str) (s : Stream) : Bool :=
  match s.toks with
  | .ident y _ :: _ => y == x
  | _ => false

/-- core/parse_meta.rs:411-442.  `parse_meta_item_inline` and `parse_meta_item_named` are the
defaults, that is they go through `Option`'s own `parse_meta_item`. -/
def optionDict {α} (d : Dict α) : Dict (Option α) :=
  .mk' (parse := fun mode =>
      match mode with
      | .named _ => (d.parse mode).map some
      | .unnamed => fun s =>
        if peekIdent "Some".toList s then
          (parseDelimitedMetaItem .paren d.inline mode).map some (dropTok s)
        else if peekIdent "None".toList s then (.ok none, dropTok s)
        else (.err (s.error (.expected "`Some` or `None`".toList)), s))
    (flag := fun sp => (d.flag sp).map some)
    (missing := fun _ _ => .ok none)

/-! ## Wrappers -/

/-- core/parse_meta.rs:859-945: `Box`, `Rc`, `Cell`, `RefCell`, `Cow`.  Only `parse_meta_item` and
`parse_meta_item_flag` are forwarded.  The wrapper itself is the identity in the model. -/
def wrapperDict {α} (d : Dict α) : Dict α :=
  .mk' (parse := d.parse) (flag := d.flag)

/-- `SpannedValue`, core/util.rs:246-249. -/
structure Spanned (α : Type) where
  value : α
  span : Span

/-- core/util.rs:323-356; `missing_meta_item` is not forwarded. -/
def spannedDict [Env] {α} (d : Dict α) : Dict (Spanned α) where
  parse := fun mode s =>
    let (r, s') := d.parse mode s
    (r.map fun v => ⟨v, (Env.join s'.span s.span).getD s.span⟩, s')
  inline := fun mode inputs =>
    let first := inputs.head?.map Stream.span
    let (r, l) := d.inline mode inputs
    (r.map fun v => ⟨v, (first.bind fun f => l.getLast?.bind fun p => Env.join p.span f).getD callSite⟩, l)
  flag := fun sp => (d.flag sp).map fun v => ⟨v, sp⟩
  named := fun name sp s =>
    let (r, s') := d.named name sp s
    (r.map fun v => ⟨v, (Env.join s'.span sp).getD sp⟩, s')
  missing := fun name sp => .err (missingFieldError name sp)

/-- Span handling of core/util.rs:368-373, 389-394, 406-411, 420-425. -/
def spannedFlat [Env] {α} (m : M (List Stream) α) : M (List Stream) (Spanned α) := fun inputs =>
  let span := inputsSpan inputs
  let (r, l) := m inputs
  (r.map fun v => ⟨v, (Env.join span (inputsSpan l)).getD span⟩, l)

/-- core/util.rs:358-375 -/
def spannedFlatUnnamed [Env] {α} (d : FlatUnnamed α) : FlatUnnamed (Spanned α) where
  fieldCount := d.fieldCount
  parse := fun mode i => spannedFlat (d.parse mode i)

/-- core/util.rs:377-396 -/
def spannedFlatNamed [Env] {α} (d : FlatNamed α) : FlatNamed (Spanned α) where
  acceptsAll := d.acceptsAll
  fieldNames := d.fieldNames
  parse := fun mode pre v => spannedFlat (d.parse mode pre v)

/-- core/util.rs:398-413 -/
def spannedAppend [Env] {α} (d : Append α) : Append (Spanned α) := fun paths => spannedFlat (d paths)

/-- core/util.rs:415-427 -/
def spannedRest [Env] {α} (d : Rest α) : Rest (Spanned α) := fun ex => spannedFlat (d ex)

/-! ## Flag -/

/-- `Flag`, core/util.rs:464. -/
abbrev FlagV := Option Span

/-- core/util.rs:536-567 -/
def flagDict [Env] : Dict FlagV where
  parse := fun _ s => (.err (.new (inputsSpan [s]) .flagOnlyNamed), s)
  inline := fun _ inputs => (.err (.new (inputsSpan inputs) .flagOnlyNamed), inputs)
  flag := fun sp => .ok (some sp)
  named := fun _ sp s =>
    if s.isEmpty || s.peekPunct ',' then (.ok (some sp), s)
    else (.err (.new s.span .unexpectedToken), s)
  missing := fun _ _ => .ok none

/-! ## Arrays -/

/-- Callback of core/parse_meta.rs:485-494.  Pushing beyond the capacity of the `ArrayVec` panics. -/
def arrayStep {α} (n : Nat) (item : M Stream α) : M (Acc (List α × Nat) × Stream) Unit :=
  fun (acc, s) =>
    match item s with
    | (.ok v, s') =>
      if acc.val.1.length < n then
        (.ok (), ({ acc with val := (acc.val.1 ++ [v], acc.val.2) }, s'))
      else (.panic, (acc, s'))
    | (.err e, s') =>
      (.ok (), (⟨(acc.val.1, acc.val.2 + 1), acc.errs.pushSyn e⟩, skipMetaItem s'))
    | (.panic, s') => (.panic, (acc, s'))

/-- Runs a step on the first of the streams, as `parse_tuple_struct` callbacks do. -/
def stepHead {κ : Type} (m : M (κ × Stream) Unit) : M (κ × List Stream) Unit := fun (k, l) =>
  match l with
  | [] => (.panic, (k, []))
  | s :: rest =>
    let (r, (k', s')) := m (k, s)
    (r, (k', s' :: rest))

/-- core/parse_meta.rs:472-509 -/
def arrayFlat [Env] {α} (n : Nat) (d : Dict α) : FlatUnnamed (List α) where
  fieldCount := some n
  parse := fun _ index inputs =>
    let (r, (acc, l)) :=
      parseTupleStruct (fun _ => stepHead (arrayStep n (d.parse .unnamed))) n
        (⟨([], 0), Errors.new⟩, inputs)
    match r with
    | .panic => (.panic, l)
    | r =>
      let errs := match r with
        | .err e => acc.errs.pushSyn e
        | _ => acc.errs
      let got := acc.val.1.length + acc.val.2
      let errs := if got ≠ n then errs.push (inputsSpan l) (.arrayLen index n got) else errs
      match errs.check with
      | .ok () => ((if acc.val.1.length = n then .ok acc.val.1 else .panic), l)
      | .err e => (.err e, l)
      | .panic => (.panic, l)

/-- core/parse_meta.rs:458-470 -/
def arrayDict [Env] {α} (n : Nat) (d : Dict α) : Dict (List α) :=
  .mk' (parse := fun _ => parseDelimitedMetaItem .bracket (fun m => (arrayFlat n d).parse m 0) .unnamed)
    (inline := fun m => (arrayFlat n d).parse m 0)

/-! ## Tuples -/

/-- Callback of core/parse_meta.rs:1499-1505: position `index` of the statuses. -/
def tupleStep {α} (items : List (M Stream α)) (index : Nat) :
    M (Acc (List (FieldStatus α)) × Stream) Unit := fun (acc, s) =>
  match items[index]?, acc.val[index]? with
  | some item, some st =>
    let (r, (st', errs', s')) := st.parseUnnamedItemWith item acc.errs s
    (r, (⟨acc.val.set index st', errs'⟩, s'))
  | _, _ => (.panic, (acc, s))

/-- The `if $item.is_none() {..}` chain of core/parse_meta.rs:1506-1512: index of the first missing
item. -/
def firstMissing {α} : List (FieldStatus α) → Nat → Option Nat
  | [], _ => none
  | st :: rest, i => if st.isNone then some i else firstMissing rest (i + 1)

/-- core/parse_meta.rs:1514: unwraps every item. -/
def unwrapAll {α} : List (FieldStatus α) → Res (List α)
  | [] => .ok []
  | st :: rest =>
    match st.unwrap with
    | .ok a => (unwrapAll rest).map (a :: ·)
    | .err e => .err e
    | .panic => .panic

/-- core/parse_meta.rs:1487-1517.  Simplified: the components are mapped into one type; the source
has one instance per arity 1..16. -/
def tupleFlat [Env] {α} (ds : List (Dict α)) : FlatUnnamed (List α) where
  fieldCount := some ds.length
  parse := fun _ _ inputs =>
    let n := ds.length
    let (r, (acc, l)) :=
      parseTupleStruct (fun i => stepHead (tupleStep (ds.map (·.parse .unnamed)) i)) n
        (⟨List.replicate n .none, Errors.new⟩, inputs)
    match r with
    | .panic => (.panic, l)
    | r =>
      let errs := match r with
        | .err e => acc.errs.pushSyn e
        | _ => acc.errs
      match firstMissing acc.val 0 with
      | some i => ((errs.push (inputsSpan l) (.tupleLen n i)).bail, l)
      | none =>
        match errs.check with
        | .ok () => (unwrapAll acc.val, l)
        | .err e => (.err e, l)
        | .panic => (.panic, l)

/-- core/parse_meta.rs:1476-1485 -/
def tupleDict [Env] {α} (ds : List (Dict α)) : Dict (List α) :=
  .mk' (parse := fun _ => parseDelimitedMetaItem .paren (fun m => (tupleFlat ds).parse m 0) .unnamed)
    (inline := fun m => (tupleFlat ds).parse m 0)

/-! ## Sequences: `Vec`, `VecDeque`, `LinkedList`, `BinaryHeap` -/

/-- `v.push(item)`, `v.push_back(item)`.  A `BinaryHeap` is represented by its elements in the order
they were pushed. -/
def pushBack {α} (acc : Acc (List α)) (a : α) (_ _ : Stream) : Acc (List α) :=
  { acc with val := acc.val ++ [a] }

/-- core/parse_meta.rs:537-567 -/
def seqFlat {α} (d : Dict α) : FlatUnnamed (List α) where
  fieldCount := none
  parse := fun _ _ => runAcc [] (forStreams (itemLoop (stepPush (d.parse .unnamed) pushBack)))

/-- core/parse_meta.rs:526-535 -/
def seqDict {α} (d : Dict α) : Dict (List α) :=
  .mk' (parse := fun _ => parseDelimitedMetaItem .bracket (fun m => (seqFlat d).parse m 0) .unnamed)
    (inline := fun m => (seqFlat d).parse m 0)

/-- Skips an item and goes on (core/parse_meta.rs:587, 686). -/
def stepSkip {κ : Type} : M (κ × Stream) Unit := fun (k, s) => (.ok (), (k, skipMetaItem s))

/-- core/parse_meta.rs:569-594 -/
def seqAppend [Env] {α} (d : Dict α) : Append (List α) := fun paths =>
  runAccPush [] (parseStruct fun p pspan =>
    if paths.any (· == p) then stepPush (d.named p pspan) pushBack else stepSkip)

/-! ## Sets -/

/-- `set.insert(item)` and the duplicate error of core/parse_meta.rs:644-647.  A set is represented
by its elements in insertion order, without duplicates. -/
def setInsert [Env] {α} [DecidableEq α] (acc : Acc (List α)) (a : α) (s s' : Stream) :
    Acc (List α) :=
  if a ∈ acc.val then
    { acc with errs := acc.errs.push ((Env.join s'.span s.span).getD s.span) .duplicateKey }
  else { acc with val := acc.val ++ [a] }

/-- core/parse_meta.rs:624-658 -/
def setFlat [Env] {α} [DecidableEq α] (d : Dict α) : FlatUnnamed (List α) where
  fieldCount := none
  parse := fun _ _ => runAcc [] (forStreams (itemLoop (stepPush (d.parse .unnamed) setInsert)))

/-- core/parse_meta.rs:613-622 -/
def setDict [Env] {α} [DecidableEq α] (d : Dict α) : Dict (List α) :=
  .mk' (parse := fun _ => parseDelimitedMetaItem .bracket (fun m => (setFlat d).parse m 0) .unnamed)
    (inline := fun m => (setFlat d).parse m 0)

/-- core/parse_meta.rs:660-693 -/
def setAppend [Env] {α} [DecidableEq α] (d : Dict α) : Append (List α) := fun paths =>
  runAcc [] (parseStruct fun p pspan =>
    if paths.any (· == p) then stepPush (d.named p pspan) setInsert else stepSkip)

/-! ## Maps -/

/-- `map.insert(key, value)`: replaces the value of an existing key. -/
def mapInsert {κ ν} [DecidableEq κ] (m : List (κ × ν)) (k : κ) (v : ν) : List (κ × ν) :=
  if k ∈ m.map (·.1) then m.map fun e => if e.1 = k then (k, v) else e
  else m ++ [(k, v)]

/-- core/parse_meta.rs:752-763.  `keyStr` is `ToKeyString` of the key type. -/
def mapStep [Env] {κ ν} [DecidableEq κ] (kd : Dict κ) (keyStr : κ → Str) (vd : Dict ν) :
    M (Acc (List (κ × ν)) × Stream) Unit := fun (acc, s) =>
  match kd.parse .unnamed s with
  | (.ok key, s1) =>
    let span := (Env.join s1.span s.span).getD s.span
    stepPush (vd.named (keyStr key) s.span) (fun acc v _ _ =>
      { val := mapInsert acc.val key v
        errs := if key ∈ acc.val.map (·.1) then acc.errs.push span .duplicateKey else acc.errs })
      (acc, s1)
  | (.err e, s1) => (.err e, (acc, s1))
  | (.panic, s1) => (.panic, (acc, s1))

/-- core/parse_meta.rs:730-772 -/
def mapFlat [Env] {κ ν} [DecidableEq κ] (kd : Dict κ) (keyStr : κ → Str) (vd : Dict ν) :
    FlatUnnamed (List (κ × ν)) where
  fieldCount := none
  parse := fun _ _ => runAcc [] (forStreams (itemLoop (mapStep kd keyStr vd)))

/-- core/parse_meta.rs:715-728 -/
def mapDict [Env] {κ ν} [DecidableEq κ] (kd : Dict κ) (keyStr : κ → Str) (vd : Dict ν) :
    Dict (List (κ × ν)) :=
  .mk' (parse := fun mode =>
      parseDelimitedMetaItem .brace (fun m => (mapFlat kd keyStr vd).parse m 0) mode)
    (inline := fun m => (mapFlat kd keyStr vd).parse m 0)

/-- core/parse_meta.rs:791-806: excluded keys are skipped, a failing value is recorded but not
skipped. -/
def restStep [Env] {κ ν} [DecidableEq κ] (kd : Dict κ) (keyStr : κ → Str) (vd : Dict ν)
    (exclude : List Str) : M (Acc (List (κ × ν)) × Stream) Unit := fun (acc, s) =>
  match kd.parse .unnamed s with
  | (.ok key, s1) =>
    let span := (Env.join s1.span s.span).getD s.span
    if exclude.contains (keyStr key) then (.ok (), (acc, skipMetaItem s1))
    else
      match vd.named (keyStr key) s.span s1 with
      | (.ok v, s2) =>
        (.ok (), (⟨mapInsert acc.val key v,
          if key ∈ acc.val.map (·.1) then acc.errs.push span .duplicateKey else acc.errs⟩, s2))
      | (.err e, s2) => (.ok (), ({ acc with errs := acc.errs.pushSyn e }, s2))
      | (.panic, s2) => (.panic, (acc, s2))
  | (.err e, s1) => (.err e, (acc, s1))
  | (.panic, s1) => (.panic, (acc, s1))

/-- core/parse_meta.rs:774-815 -/
def mapRest [Env] {κ ν} [DecidableEq κ] (kd : Dict κ) (keyStr : κ → Str) (vd : Dict ν) :
    Rest (List (κ × ν)) := fun exclude =>
  runAcc [] (forStreams (itemLoop (restStep kd keyStr vd exclude)))

/-! ## Punctuated -/

/-- Skipping loop of core/parse_meta.rs:1244-1250: up to and including the next separator.  `peekP`
and `parseP` are the separator's `peek` and `parse`.  Structural on the tokens. -/
def punctSkip (peekP : Stream → Bool) (parseP : M Stream Unit) : List Tok → M Stream Unit
  | [] => fun s => (.ok (), s)
  | _ :: rest => fun s =>
    if peekP s then parseP s
    else punctSkip peekP parseP rest { s with toks := rest }

/-- core/parse_meta.rs:1231-1253.  The loop ends when the stream is empty or, line 1238-1239, right
after a separator was read. -/
def punctLoop {α} (item : M Stream α) (peekP : Stream → Bool) (parseP : M Stream Unit) :
    Nat → M (Acc (List α) × Stream) Unit
  | 0 => M.panic
  | n + 1 => fun (acc, s) =>
    if s.isEmpty then (.ok (), (acc, s))
    else
      match item s with
      | (.ok v, s') =>
        let acc := { acc with val := acc.val ++ [v] }
        if s'.isEmpty then punctLoop item peekP parseP n (acc, s')
        else
          match parseP s' with
          | (.ok (), s'') => (.ok (), (acc, s''))
          | (.err e, s'') =>
            punctLoop item peekP parseP n ({ acc with errs := acc.errs.pushSyn e }, s'')
          | (.panic, s'') => (.panic, (acc, s''))
      | (.err e, s') =>
        let acc := { acc with errs := acc.errs.pushSyn e }
        match punctSkip peekP parseP s'.toks s' with
        | (.ok (), s'') => punctLoop item peekP parseP n (acc, s'')
        | (.err e, s'') => (.err e, (acc, s''))
        | (.panic, s'') => (.panic, (acc, s''))
      | (.panic, s') => (.panic, (acc, s'))

/-- core/parse_meta.rs:1217-1258 -/
def punctFlat {α} (d : Dict α) (peekP : Stream → Bool) (parseP : M Stream Unit) :
    FlatUnnamed (List α) where
  fieldCount := none
  parse := fun _ _ => runAcc [] (forStreams (punctLoop (d.parse .unnamed) peekP parseP))

/-- core/parse_meta.rs:1203-1215 -/
def punctuatedDict {α} (d : Dict α) (peekP : Stream → Bool) (parseP : M Stream Unit) :
    Dict (List α) :=
  .mk' (parse := fun _ =>
      parseDelimitedMetaItem .bracket (fun m => (punctFlat d peekP parseP).parse m 0) .unnamed)
    (inline := fun m => (punctFlat d peekP parseP).parse m 0)

end Deluxe
