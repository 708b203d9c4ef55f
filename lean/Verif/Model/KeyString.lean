import Verif.Model.SmallStr
import Verif.Model.Types
/-!
# `ToKeyString` and `key_to_string` (core/parse_meta.rs, core/parse_helpers.rs), `SmallString` as a field

A formatter is modelled by the strings that are written to it, in order.
-/
namespace Deluxe

/-- `key_to_string`, core/parse_helpers.rs:726-739, with `write_str` of core/small_string.rs:228-239: the strings
that `fmt_key_string` writes are pushed one by one; `none` is a panic. -/
def keyToString (pieces : List Str) : Option SmallStr := pieces.foldlM SmallStr.pushStr SmallStr.new

/-- `ToKeyString`, core/parse_meta.rs:255-266: what `fmt_key_string` writes, and what `with_key_string` calls its
function with (`none` is a panic). -/
structure KeyStr (α : Type) where
  fmt : α → List Str
  withKey : α → Option Str

/-- The default of `with_key_string`, core/parse_meta.rs:262-265. -/
def KeyStr.mk' {α : Type} (fmt : α → List Str) : KeyStr α :=
  ⟨fmt, fun a => (keyToString (fmt a)).map SmallStr.asStr⟩

namespace KeyStr
variable {α β κ ν : Type}

/-- Types that are written by `Display`: numbers and `char` (core/parse_meta.rs:275-280), tokens and streams of
tokens (957-979 and its uses), `syn::Ident` (1363-1368), `syn` nodes by way of their tokens (1287-1292, 1321-1326,
1392-1397).  `disp` is what `Display` writes. -/
def display (disp : α → List Str) : KeyStr α := .mk' disp

/-- `String`, core/parse_meta.rs:357-366, and `SmallString`, core/small_string.rs:254-263 (with `Display` 147-156):
`text` is the content. -/
def string (text : α → Str) : KeyStr α := ⟨fun a => [text a], fun a => some (text a)⟩

/-- `PathBuf` and `OsString`, core/parse_meta.rs:375-384, 393-402; `lossy` is `to_string_lossy`. -/
def lossy (lossy : α → Str) : KeyStr α := ⟨fun a => [lossy a], fun a => some (lossy a)⟩

/-- core/parse_meta.rs:444-456 -/
def option (k : KeyStr α) : KeyStr (Option α) := .mk' fun a =>
  match a with
  | some v => "Some(".toList :: k.fmt v ++ [")".toList]
  | none => ["None".toList]

/-- The loop `for (i, v) in self.iter().enumerate() { if i > 0 { .. } .. }`. -/
def commaLoop (fmt : α → List Str) : Nat → List α → List Str
  | _, [] => []
  | i, v :: vs => (if i > 0 then [", ".toList] else []) ++ fmt v ++ commaLoop fmt (i + 1) vs

/-- Arrays, collections and sets, core/parse_meta.rs:511-522, 596-607, 695-706. -/
def seq (k : KeyStr α) : KeyStr (List α) := .mk' fun vs =>
  ["[".toList] ++ commaLoop k.fmt 0 vs ++ ["]".toList]

/-- Maps, core/parse_meta.rs:817-836. -/
def map (k : KeyStr κ) (v : KeyStr ν) : KeyStr (List (κ × ν)) := .mk' fun es =>
  ["{".toList] ++ commaLoop (fun e => k.fmt e.1 ++ [" = ".toList] ++ v.fmt e.2) 0 es ++ ["}".toList]

/-- `Box`, `Rc`, `Cell`, `RefCell`, `Cow` (core/parse_meta.rs:876-885, 889-898, 901-910, 914-923, 936-945) and the key
type of `with` modules for maps (core/with.rs:627-636); `get` is what is inside. -/
def wrapper (get : β → α) (k : KeyStr α) : KeyStr β := ⟨fun b => k.fmt (get b), fun b => k.withKey (get b)⟩

/-- core/parse_meta.rs:1463-1472 -/
def unit : KeyStr Unit := ⟨fun _ => ["()".toList], fun _ => some "()".toList⟩

/-- Tuples, core/parse_meta.rs:1519-1531: all elements have the type `α` here. -/
def tuple (ks : List (KeyStr α)) : KeyStr (List α) := .mk' fun vs =>
  ["(".toList] ++ commaLoop (fun x => x) 0 (List.zipWith (fun k v => k.fmt v) ks vs) ++ [")".toList]

/-- The loop of core/parse_meta.rs:1407-1417 over segments, each with what is written for its generic arguments. -/
def pathLoop (disp : α → List Str) : Nat → List (Str × Option α) → List Str
  | _, [] => []
  | i, (ident, args) :: segs =>
    (if i > 0 then ["::".toList] else []) ++ [ident] ++ args.elim [] disp ++
      pathLoop disp (i + 1) segs

/-- `syn::Path`, core/parse_meta.rs:1404-1418; `disp` is `Display` of the tokens of generic arguments. -/
def path (disp : α → List Str) : KeyStr (List (Str × Option α)) := .mk' (pathLoop disp 0)

/-- `Punctuated`, core/parse_meta.rs:1260-1275: the separator of an element, or none. -/
def punctuated (k : KeyStr α) (disp : β → List Str) : KeyStr (List (α × Option β)) := .mk' fun ps =>
  ["[".toList] ++ ps.flatMap (fun p => k.fmt p.1 ++ p.2.elim [] fun sep => disp sep ++ [" ".toList]) ++ ["]".toList]
end KeyStr

/-- `SmallString` as a field, core/small_string.rs:242-252: the `Display` of the token of a string literal, which is
its source text; `text` gives it by the place of the literal. -/
def smallStringDict (text : Span → Str) : Dict SmallStr :=
  .mk' (parse := fun _ s =>
    match parseLitStr s with
    | (.ok _, s') =>
      match keyToString [text s.span] with
      | some x => (.ok x, s')
      | none => (.panic, s')
    | (.err e, s') => (.err e, s')
    | (.panic, s') => (.panic, s'))

end Deluxe
