import Verif.Model.Attributes
/-!
# The text of the messages

How the messages that the model keeps as data are printed.
-/
namespace Deluxe

/-- `[String]::join` of the standard library. -/
def joinStrs (sep : Str) : List Str → Str
  | [] => []
  | [s] => s
  | s :: t :: l => s ++ sep ++ joinStrs sep (t :: l)

/-- `` `{n}` `` in a format string. -/
def quoteName (n : Str) : Str := '`' :: n ++ ['`']

/-- The loops of core/validations.rs:19-28 and 51-61: a separator before each name unless nothing is written yet. -/
def quoteLoop : Str → List Str → Str
  | names, [] => names
  | names, n :: l =>
    if names.isEmpty then quoteLoop (names ++ quoteName n) l else quoteLoop (names ++ ", ".toList ++ quoteName n) l

/-- One variant in core/parse_helpers.rs:1064-1076: the names of each field, in parentheses unless there is exactly
one field. -/
def renderKey (key : List (List Str)) : Str :=
  let fields := key.map (joinStrs ['|'])
  match fields with
  | [x] => x
  | _ => '(' :: joinStrs ", ".toList fields ++ [')']

/-- `{}` of a number. -/
def renderNat (n : Nat) : Str := Nat.toDigits 10 n

/-- `syn`'s words for a delimiter that is expected. -/
def renderDelim : Delim → Str
  | .paren => "parentheses".toList
  | .bracket => "square brackets".toList
  | .brace => "curly braces".toList

/-- The text of a message.  `tree` prints a token (`proc_macro2`). -/
def Text.render (tree : Tok → Str) : Text → Str
  /- core/parse_helpers.rs:321 -/
  | .unexpectedTree t => "unexpected token ".toList ++ quoteName (tree t)
  /- core/util.rs:560 -/
  | .unexpectedToken => "unexpected token".toList
  | .expectedPunct s => "expected ".toList ++ quoteName s
  | .expectedDelim d => "expected ".toList ++ renderDelim d
  /- core/parse_helpers.rs:558 -/
  | .expectedPath => "expected path".toList
  /- core/parse_helpers.rs:560 -/
  | .expectedPathSegment => "expected path segment".toList
  | .expected what => "expected ".toList ++ what
  | .atEof t => "unexpected end of input, ".toList ++ t.render tree
  /- core/parse_helpers.rs:166 -/
  | .duplicateAttr n => "duplicate attribute for ".toList ++ quoteName n
  /- core/parse_helpers.rs:883 -/
  | .missingField n => "missing required field ".toList ++ n
  /- core/parse_helpers.rs:891 -/
  | .flagDisallowed => "unexpected flag, expected `=` or parentheses".toList
  /- core/parse_helpers.rs:908-915 -/
  | .unknownField p (some c) =>
    "unknown field ".toList ++ quoteName p ++ ", did you mean ".toList ++ quoteName c ++ ['?']
  | .unknownField p none => "unknown field ".toList ++ quoteName p
  /- core/parse_helpers.rs:850 -/
  | .notAllowedWith p c => quoteName p ++ " not allowed with variant ".toList ++ quoteName c
  /- core/parse_helpers.rs:1040-1044 -/
  | .onlyOneVariant a b =>
    "expected only one enum variant, got ".toList ++ quoteName a ++ " and ".toList ++ quoteName b
  /- core/parse_helpers.rs:1056-1081 -/
  | .expectedOneOf vs => "expected one of ".toList ++ joinStrs ", ".toList (vs.map renderKey)
  /- core/parse_meta.rs:498-503 -/
  | .arrayLen i n k =>
    "Expected array at index ".toList ++ renderNat i ++ " of length ".toList ++ renderNat n ++ ", got ".toList ++ renderNat k
  /- core/parse_meta.rs:1509 -/
  | .tupleLen n k => "Expected tuple of length ".toList ++ renderNat n ++ ", got ".toList ++ renderNat k
  /- core/parse_meta.rs:646, 681, 760, 804 -/
  | .duplicateKey => "Duplicate key".toList
  /- core/util.rs:548 -/
  | .flagOnlyNamed => "field with type `Flag` can only be a named field with no value".toList
  /- core/parse_meta.rs:985 -/
  | .unexpectedComma => "unexpected comma".toList
  /- core/parse_meta.rs:998 -/
  | .expectedToken => "expected token".toList
  /- core/validations.rs:19-30 -/
  | .onlyOneOf ns => "only one of ".toList ++ quoteLoop [] ns ++ " is allowed".toList
  /- core/validations.rs:51-67 -/
  | .mustAlsoBeSet ns n => quoteLoop [] ns ++ " must also be set in order to use ".toList ++ quoteName n
  | .custom s => s

end Deluxe
