import Verif.Model.Types
/-!
# The `with` modules (core/with.rs)

A `with` module offers the five functions of `ParseMetaItem`, so it is a `Dict`.  The macro
`parse_named_meta_item_with!(input, span, self)` in their `parse_meta_item_named` is `parseNamedWith`.

External, and parameters here: `FromStr::from_str` with the display of its error, and the conversion of a
string into tokens (`TokenStream::from_str`), `lex`.
-/
namespace Deluxe

/-- A `with` module: `parse_meta_item_named` is always `parse_named_meta_item_with!`. -/
def withModule {α} (parse : Mode → M Stream α) (inline : Mode → M (List Stream) α) (flag : Span → Res α)
    (missing : Str → Span → Res α) : Dict α where
  parse := parse
  inline := inline
  flag := flag
  named := fun _ sp => parseNamedWith parse inline flag sp
  missing := missing

/-- core/with.rs:14-20, also 63-68 -/
def fromStrParse {α} (conv : Str → Except Str α) (_ : Mode) : M Stream α := fun s =>
  match parseLitStr s with
  | (.ok v, s') =>
    match conv v with
    | .ok a => (.ok a, s')
    | .error m => (.err (.new s.span (.custom m)), s')
  | (.err e, s') => (.err e, s')
  | (.panic, s') => (.panic, s')

/-- core/with.rs:7-50 -/
def fromStrDict {α} (conv : Str → Except Str α) : Dict α :=
  withModule (fromStrParse conv) (parseFirst (fromStrParse conv)) (fun sp => .err (flagDisallowedError sp))
    (fun name sp => .err (missingFieldError name sp))

/-- core/with.rs:56-97 -/
def fromStrDefaultDict {α} (conv : Str → Except Str α) (dflt : α) : Dict α :=
  withModule (fromStrParse conv) (parseFirst (fromStrParse conv)) (fun _ => .ok dflt) (fun _ _ => .ok dflt)

/-- core/with.rs:104-137; `p` is `syn::Path::parse_mod_style` (external). -/
def modPathDict {α} (p : M Stream α) : Dict α :=
  withModule (fun _ => p) (parseFirst fun _ => p) (fun sp => .err (flagDisallowedError sp))
    (fun name sp => .err (missingFieldError name sp))

/-- core/with.rs:143-176 -/
def anyPathDict [Env] : Dict Path :=
  withModule (fun _ => parseAnyPath) (parseFirst fun _ => parseAnyPath)
    (fun sp => .err (flagDisallowedError sp)) (fun name sp => .err (missingFieldError name sp))

/-- core/with.rs:195-201 and 323-329: every message moves to the given span. -/
def SynErr.moveTo (sp : Span) (e : SynErr) : SynErr :=
  ⟨⟨sp, e.head.text⟩, e.tail.map fun m => ⟨sp, m.text⟩⟩

/-- `Parser::parse_str` (external): the tokens of the string, then `parse2`. -/
def parseStr {α} (lex : Str → Except SynErr (List Tok)) (f : M Stream α) (v : Str) : Res α :=
  match lex v with
  | .ok toks => parse2 f toks
  | .error e => .err e

/-- core/with.rs:189-202 (`f` is `T::parse_meta_item` in the mode), 321-330 (`f` is `T::parse`). -/
def quotedParse {α} (lex : Str → Except SynErr (List Tok)) (f : M Stream α) : M Stream α := fun s =>
  match parseLitStr s with
  | (.ok v, s') =>
    match parseStr lex f v with
    | .err e => (.err (e.moveTo s.span), s')
    | r => (r, s')
  | (.err e, s') => (.err e, s')
  | (.panic, s') => (.panic, s')

/-- core/with.rs:183-226 -/
def quotedDict {α} (lex : Str → Except SynErr (List Tok)) (d : Dict α) : Dict α :=
  withModule (fun m => quotedParse lex (d.parse m)) (parseFirst fun m => quotedParse lex (d.parse m)) d.flag
    d.missing

/-- `input.peek(syn::LitStr)`: a string literal is next. -/
def peekLitStr (s : Stream) : Bool :=
  match s.toks with
  | .lit (.str _) _ :: _ => true
  | _ => false

/-- core/with.rs:240-246 -/
def maybeQuotedParse {α} (lex : Str → Except SynErr (List Tok)) (d : Dict α) (mode : Mode) : M Stream α :=
  fun s => if peekLitStr s then quotedParse lex (d.parse mode) s else d.parse mode s

/-- core/with.rs:233-270 -/
def maybeQuotedDict {α} (lex : Str → Except SynErr (List Tok)) (d : Dict α) : Dict α :=
  withModule (maybeQuotedParse lex d) (parseFirst (maybeQuotedParse lex d)) d.flag d.missing

/-- core/with.rs:275-308; `p` is `T::parse`. -/
def withSynDict {α} (p : M Stream α) : Dict α :=
  withModule (fun _ => p) (parseFirst fun _ => p) (fun sp => parseEmpty sp p)
    (fun name sp => .err (missingFieldError name sp))

/-- core/with.rs:315-354 -/
def synQuotedDict {α} (lex : Str → Except SynErr (List Tok)) (p : M Stream α) : Dict α :=
  withModule (fun _ => quotedParse lex p) (parseFirst fun _ => quotedParse lex p) (fun sp => parseEmpty sp p)
    (fun name sp => .err (missingFieldError name sp))

/-- core/with.rs:761-794 -/
def identityDict {α} (d : Dict α) : Dict α := withModule d.parse d.inline d.flag d.missing

/-- The private types `Inner`, `InnerKey`, `InnerValue` of the `define_with_*` macros, core/with.rs:383-394,
468-479, 637-648, 650-661: only `parse_meta_item` is that of the module, the other functions are the trait's
defaults. -/
def innerDict {α} (d : Dict α) : Dict α := .mk' (parse := d.parse)

/-- `define_with_optional!`, core/with.rs:376-439 -/
def withOptional {α} (d : Dict α) : Dict (Option α) :=
  withModule (optionDict (innerDict d)).parse (optionDict (innerDict d)).inline (fun _ => .ok none)
    (fun _ _ => .ok none)

/-- `define_with_collection!` for sequences, core/with.rs:461-534.  (For the provided set types the generated
code does not compile, as `Inner` implements none of `Eq`, `Hash` and `Ord`.) -/
def withSeq {α} (d : Dict α) : Dict (List α) :=
  withModule (seqDict (innerDict d)).parse (seqDict (innerDict d)).inline (fun _ => .ok []) (fun _ _ => .ok [])

/-- core/with.rs:535-554 -/
def withSeqFlat {α} (d : Dict α) : FlatUnnamed (List α) where
  fieldCount := none
  parse := (seqFlat (innerDict d)).parse

/-- core/with.rs:555-578 -/
def withSeqAppend [Env] {α} (d : Dict α) : Append (List α) := seqAppend (innerDict d)

/-- `define_with_map!`, core/with.rs:604-717.  The entries are collected from a `HashMap`; their order is not
part of the model. -/
def withMap [Env] {κ ν} [DecidableEq κ] (kd : Dict κ) (keyStr : κ → Str) (vd : Dict ν) :
    Dict (List (κ × ν)) :=
  withModule (mapDict (innerDict kd) keyStr (innerDict vd)).parse
    (mapDict (innerDict kd) keyStr (innerDict vd)).inline (fun _ => .ok []) (fun _ _ => .ok [])

/-- core/with.rs:718-737 -/
def withMapFlat [Env] {κ ν} [DecidableEq κ] (kd : Dict κ) (keyStr : κ → Str) (vd : Dict ν) :
    FlatUnnamed (List (κ × ν)) where
  fieldCount := none
  parse := (mapFlat (innerDict kd) keyStr (innerDict vd)).parse

/-- core/with.rs:738-753 -/
def withMapRest [Env] {κ ν} [DecidableEq κ] (kd : Dict κ) (keyStr : κ → Str) (vd : Dict ν) :
    Rest (List (κ × ν)) := mapRest (innerDict kd) keyStr (innerDict vd)

end Deluxe
