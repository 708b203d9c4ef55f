import Verif.Model.Basic
/-!
# `SmallString` (core/small_string.rs)
-/
namespace Deluxe

/-- UTF-8 length in bytes, `str::len`. -/
def byteLen (s : Str) : Nat := (s.map Char.utf8Size).sum

/-- core/small_string.rs:5 -/
def maxInline : Nat := 56

/-- core/small_string.rs:7-11 -/
inductive SmallStr
  | heap (s : Str)
  | inline (s : Str)
  | borrowed (s : Str)

namespace SmallStr
/-- core/small_string.rs:19-21 -/
def new : SmallStr := .borrowed []
/-- `ArrayString::from` (external): fails when the capacity is exceeded. -/
def arrayFrom (s : Str) : Option Str := if byteLen s ≤ maxInline then some s else none
/-- `ArrayString::try_push_str` (external): fails, leaving the string alone, when the capacity is
exceeded. -/
def arrayTryPush (i s : Str) : Option Str :=
  if byteLen i + byteLen s ≤ maxInline then some (i ++ s) else none
/-- core/small_string.rs:25-32 -/
def intoOwned : SmallStr → SmallStr
  | .heap s => .heap s
  | .inline s => .inline s
  | .borrowed s =>
    match arrayFrom s with
    | some a => .inline a
    | none => .heap s
/-- core/small_string.rs:36-43 -/
def asStr : SmallStr → Str
  | .heap s => s
  | .inline s => s
  | .borrowed s => s
/-- core/small_string.rs:50-73; `none` is a panic (failed `unwrap` or `ArrayString::push_str`).
Simplified: the length sum does not overflow. -/
def pushStr (x : SmallStr) (s : Str) : Option SmallStr :=
  match x with
  | .heap h => some (.heap (h ++ s))
  | .inline i =>
    match arrayTryPush i s with
    | some i' => some (.inline i')
    | none => some (.heap (i ++ s))
  | .borrowed b =>
    if byteLen b + byteLen s > maxInline then some (.heap (b ++ s))
    else
      match arrayFrom b with
      | none => none
      | some v =>
        match arrayTryPush v s with
        | none => none
        | some v' => some (.inline v')
/-- core/small_string.rs:46-48 -/
def push (x : SmallStr) (c : Char) : Option SmallStr := x.pushStr [c]
/-- core/small_string.rs:162-167 -/
def ofBorrowed (s : Str) : SmallStr := .borrowed s
/-- core/small_string.rs:169-180; `none` is a panic -/
def ofString (s : Str) : Option SmallStr :=
  if byteLen s > maxInline then some (.heap s)
  else (arrayFrom s).map .inline
/-- core/small_string.rs:182-190: `Cow`, borrowed or owned -/
def ofCow (owned : Bool) (s : Str) : Option SmallStr :=
  if owned then ofString s else some (ofBorrowed s)
/-- core/small_string.rs:78-83 -/
def eq (a b : SmallStr) : Bool := a.asStr == b.asStr
/-- core/small_string.rs:99-104 -/
def cmp (strCmp : Str → Str → Ordering) (a b : SmallStr) : Ordering := strCmp a.asStr b.asStr
/-- core/small_string.rs:127-132; `strHash` is `<str as Hash>::hash` into some hasher state -/
def hash {H : Type} (strHash : Str → H → H) (a : SmallStr) (st : H) : H := strHash a.asStr st
/-- core/small_string.rs:85-90, 92-97: `SmallString == str` and `str == SmallString` -/
def eqStr (a : SmallStr) (s : Str) : Bool := a.asStr == s
def strEq (s : Str) (a : SmallStr) : Bool := s == a.asStr
/-- core/small_string.rs:106-111, 113-118, 120-125: `partial_cmp` with another `SmallString`, with a
`str`, and of a `str` with a `SmallString` -/
def partialCmp (strCmp : Str → Str → Ordering) (a b : SmallStr) : Option Ordering :=
  some (strCmp a.asStr b.asStr)
def partialCmpStr (strCmp : Str → Str → Ordering) (a : SmallStr) (s : Str) : Option Ordering :=
  some (strCmp a.asStr s)
def strPartialCmp (strCmp : Str → Str → Ordering) (s : Str) (a : SmallStr) : Option Ordering :=
  some (strCmp s a.asStr)
/-- core/small_string.rs:134-138 -/
def default : SmallStr := new
/-- core/small_string.rs:140-160, `Debug` and `Display`: the formatter is passed to the representation.
`strFmt` is that of `str`, which `String` and `ArrayString` (external) use. -/
def fmt {F : Type} (strFmt : Str → F → F) (a : SmallStr) (f : F) : F :=
  match a with
  | .heap s => strFmt s f
  | .inline s => strFmt s f
  | .borrowed s => strFmt s f
/-- core/small_string.rs:192-213, 236-241: `Deref`, `AsRef<str>`, `AsRef<[u8]>` (the bytes of this),
`Borrow<str>` and `ToTokens` (the literal of this) -/
def borrow (a : SmallStr) : Str := a.asStr
end SmallStr

end Deluxe
