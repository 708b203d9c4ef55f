/-!
# Tokens, streams, errors and outcomes

The external vocabulary of deluxe: `proc_macro2` token trees, `syn`'s parse buffers and errors.
None of these types is defined in /repo; DESIGN.md section 2 lists the assumptions.
-/
namespace Deluxe

/-- Rust strings used as keys and names, as their sequence of characters. -/
abbrev Str := List Char

/-- `proc_macro2::Span`, an opaque location. -/
abbrev Span := Nat

/-- `Span::call_site()`. -/
def callSite : Span := 0

/-- What deluxe takes from other crates besides token streams.
`join` is `Span::join` (may fail), `sim` is `strsim::jaro_winkler` and `simMin` the constant `0.8`
it is compared with (core/parse_helpers.rs:903-904).  Simplified: the floats are replaced by natural
numbers, only their order matters. -/
class Env where
  join : Span → Span → Option Span
  sim : Str → Str → Nat
  simMin : Nat

/-- The delimiters of core/parse_helpers.rs:248-300. -/
inductive Delim
  | paren | brace | bracket
  deriving DecidableEq, Repr

/-- Literals, by what deluxe distinguishes (core/parse_meta.rs:267-409). -/
inductive Lit
  | str (v : Str)
  | int (n : Nat)
  | byte (n : Nat)
  | char (c : Char)
  | float (repr : Str)
  | other (repr : Str)
  deriving DecidableEq, Repr

/-- `proc_macro2::TokenTree`.  `joint` is the spacing of a punctuation character; a group carries its
own span and the span of its closing delimiter.  Simplified: no `None`-delimited groups. -/
inductive Tok
  | ident (s : Str) (sp : Span)
  | punct (c : Char) (joint : Bool) (sp : Span)
  | lit (l : Lit) (sp : Span)
  | group (d : Delim) (inner : List Tok) (sp close : Span)

/-- Span of a token tree. -/
def Tok.span : Tok → Span
  | .ident _ sp => sp
  | .punct _ _ sp => sp
  | .lit _ sp => sp
  | .group _ _ sp _ => sp

/-- Is the token the punctuation character `c`?  (`Punct::as_char() == c`.) -/
def Tok.isPunct (c : Char) : Tok → Bool
  | .punct c' _ _ => c' == c
  | _ => false

/-- Is the token a comma?  core/parse_helpers.rs:611-612 and `peek(Token![,])`. -/
def Tok.isComma (t : Tok) : Bool := t.isPunct ','

/-- Texts of the error messages deluxe produces, as data.  `render` below gives the literal text. -/
inductive Text
  /-- core/parse_helpers.rs:321 -/
  | unexpectedTree (t : Tok)
  /-- syn `parse2`/`check_unexpected`, core/util.rs:560 -/
  | unexpectedToken
  /-- syn, failing punctuation -/
  | expectedPunct (s : Str)
  /-- syn, failing delimiter -/
  | expectedDelim (d : Delim)
  /-- core/parse_helpers.rs:558 -/
  | expectedPath
  /-- core/parse_helpers.rs:560 -/
  | expectedPathSegment
  /-- syn, any other expectation -/
  | expected (what : Str)
  /-- syn, prefix of messages at the end of input -/
  | atEof (t : Text)
  /-- core/parse_helpers.rs:166 -/
  | duplicateAttr (name : Str)
  /-- core/parse_helpers.rs:883 -/
  | missingField (name : Str)
  /-- core/parse_helpers.rs:891 -/
  | flagDisallowed
  /-- core/parse_helpers.rs:908-915 -/
  | unknownField (path : Str) (closest : Option Str)
  /-- core/parse_helpers.rs:850 -/
  | notAllowedWith (path cur : Str)
  /-- core/parse_helpers.rs:1041 -/
  | onlyOneVariant (a b : Str)
  /-- core/parse_helpers.rs:1056-1081; variants, fields, names -/
  | expectedOneOf (variants : List (List (List Str)))
  /-- core/parse_meta.rs:499 -/
  | arrayLen (index len got : Nat)
  /-- core/parse_meta.rs:1509 -/
  | tupleLen (len got : Nat)
  /-- core/parse_meta.rs:646 and others -/
  | duplicateKey
  /-- core/util.rs:548 -/
  | flagOnlyNamed
  /-- core/parse_meta.rs:985 -/
  | unexpectedComma
  /-- core/parse_meta.rs:998 -/
  | expectedToken
  /-- core/validations.rs:30 -/
  | onlyOneOf (names : List Str)
  /-- core/validations.rs:66 -/
  | mustAlsoBeSet (names : List Str) (n : Str)
  /-- messages of external parsers and user functions -/
  | custom (s : Str)

/-- A located message (one entry of a `syn::Error`). -/
structure Msg where
  span : Span
  text : Text

/-- `syn::Error`: a non-empty list of located messages. -/
structure SynErr where
  head : Msg
  tail : List Msg

namespace SynErr
/-- The messages in iteration order (`IntoIterator for syn::Error`). -/
def toList (e : SynErr) : List Msg := e.head :: e.tail
/-- `syn::Error::new`. -/
def new (span : Span) (t : Text) : SynErr := ⟨⟨span, t⟩, []⟩
/-- `syn::Error::combine`: appends the messages of `b`. -/
def combine (a b : SynErr) : SynErr := ⟨a.head, a.tail ++ b.toList⟩
/-- `Extend<syn::Error>`: combines every error of the iterator. -/
def extend (a : SynErr) (bs : List SynErr) : SynErr := bs.foldl combine a
end SynErr

/-- `syn::Result<T>`, with panics (`panic!`, `unreachable!`, failed `unwrap`, non-termination of a
modelled loop) as a third outcome. -/
inductive Res (α : Type)
  | ok (a : α)
  | err (e : SynErr)
  | panic

namespace Res
def isOk {α} : Res α → Bool
  | .ok _ => true
  | _ => false
def bind {α β} : Res α → (α → Res β) → Res β
  | .ok a, f => f a
  | .err e, _ => .err e
  | .panic, _ => .panic
def map {α β} (f : α → β) : Res α → Res β
  | .ok a => .ok (f a)
  | .err e => .err e
  | .panic => .panic
end Res

/-- `syn::parse::ParseBuffer`: the remaining tokens, the span reported at the end of input (`scope`)
and the content of the "unexpected" cell shared with the enclosing buffer. -/
structure Stream where
  toks : List Tok
  scope : Span
  unexp : Option Span

namespace Stream
/-- `ParseBuffer::is_empty`. -/
def isEmpty (s : Stream) : Bool := s.toks.isEmpty
/-- `ParseBuffer::span`: span of the next token, or the scope at the end. -/
def span (s : Stream) : Span :=
  match s.toks with
  | [] => s.scope
  | t :: _ => t.span
/-- `ParseBuffer::fork`: same position, own "unexpected" cell. -/
def fork (s : Stream) : Stream := { s with unexp := none }
/-- `input.peek(Token![c])` for a one-character token. -/
def peekPunct (c : Char) (s : Stream) : Bool :=
  match s.toks with
  | t :: _ => t.isPunct c
  | [] => false
/-- `input.peek(Paren)` and friends. -/
def peekDelim (d : Delim) (s : Stream) : Bool :=
  match s.toks with
  | .group d' _ _ _ :: _ => d' == d
  | _ => false
/-- `input.error(..)`: message at the next token, or prefixed at the end of input. -/
def error (s : Stream) (t : Text) : SynErr :=
  match s.toks with
  | [] => .new s.scope (.atEof t)
  | tok :: _ => .new tok.span t
/-- Effect on the parent when a nested buffer `c` is dropped (`Drop for ParseBuffer`): a leftover token
is recorded unless one is recorded already. -/
def dropChild (s c : Stream) : Stream :=
  { s with unexp := match c.unexp with
      | some x => some x
      | none => c.toks.head?.map Tok.span }
end Stream

/-- Effectful computations: a state (one stream, several streams, or those plus captured variables)
and an outcome.  The state is returned also on failure, since deluxe keeps using the stream. -/
def M (σ α : Type) := σ → Res α × σ

namespace M
variable {σ α β : Type}
protected def pure (a : α) : M σ α := fun s => (.ok a, s)
protected def bind (m : M σ α) (f : α → M σ β) : M σ β := fun s =>
  match m s with
  | (.ok a, s') => f a s'
  | (.err e, s') => (.err e, s')
  | (.panic, s') => (.panic, s')
instance : Monad (M σ) where
  pure := M.pure
  bind := M.bind
/-- Returns an outcome without touching the state. -/
def lift (r : Res α) : M σ α := fun s => (r, s)
/-- Returns an error. -/
def fail (e : SynErr) : M σ α := fun s => (.err e, s)
/-- Panics. -/
def panic : M σ α := fun s => (.panic, s)
/-- Reads the state. -/
def get : M σ σ := fun s => (.ok s, s)
/-- Replaces the state. -/
def set (s : σ) : M σ Unit := fun _ => (.ok (), s)
/-- Runs a computation on the second component (the stream) of a pair. -/
def onSnd {κ : Type} (m : M σ α) : M (κ × σ) α := fun st =>
  let (r, s') := m st.2
  (r, (st.1, s'))
end M

/-- `ParseMode`, core/parse_meta.rs:18-25. -/
inductive Mode
  | named (sp : Span)
  | unnamed

namespace Mode
/-- core/parse_meta.rs:42-47 -/
def namedSpan : Mode → Option Span
  | .named sp => some sp
  | .unnamed => none
/-- core/parse_meta.rs:53-55 -/
def toSpan (m : Mode) (s : Stream) : Span := m.namedSpan.getD s.span
/-- core/parse_meta.rs:32-37 -/
def toNamed (m : Mode) (s : Stream) : Mode :=
  match m with
  | .unnamed => .named s.span
  | m => m
end Mode

end Deluxe
