import Verif.Model.Derive
/-!
# The types of the compiler's own `proc_macro` (feature `proc-macro`, core/parse_meta.rs:1084-1201)

Their values are represented by those of `proc_macro2`: a converted token is again a `Tok`.
-/
namespace Deluxe

/-- `proc_macro::Ident::new` takes no raw identifiers: the compiler panics with "is not a valid identifier"
(external; `Ident::new_raw` would be the function for them). -/
def isRaw (s : Str) : Bool := (stripPrefix "r#".toList s).isSome

/-- core/parse_meta.rs:1086-1122.  Groups and punctuation are rebuilt at the call site.  `relit` is
`str::parse::<proc_macro::Literal>` on the text of a literal (external).  The call happens inside a procedural
macro, where `Span::unwrap` does not panic. -/
def convertTok (relit : Lit → Except Str Lit) : Tok → Res Tok
  | .group d inner _ _ => .ok (.group d inner callSite callSite)
  | .ident s sp => if isRaw s then .panic else .ok (.ident s sp)
  | .punct c joint _ => .ok (.punct c joint callSite)
  | .lit l sp =>
    match relit l with
    | .ok l' => .ok (.lit l' sp)
    | .error m => .err (.new sp (.custom m))

/-- `convert_token_tree(..input.parse()?..)?` for the token types: `accept` says whether `syn` parses the next
token as one of this kind, and the text of its message otherwise. -/
def convertNext (relit : Lit → Except Str Lit) (accept : Tok → Option Text) (atEnd : Text) : M Stream Tok :=
  fun s =>
    match s.toks with
    | t :: rest =>
      match accept t with
      | none => (convertTok relit t, { s with toks := rest })
      | some text => (.err (s.error text), s)
    | [] => (.err (s.error atEnd), s)

/-- core/parse_meta.rs:1127-1132 -/
def pmTokenTreeDict (relit : Lit → Except Str Lit) : Dict Tok :=
  .mk' (parse := fun _ => convertNext relit (fun _ => none) (.expected "token tree".toList))

/-- core/parse_meta.rs:1138-1143.  `impl Parse for TokenStream` takes all that is left. -/
def pmTokenStreamDict : Dict (List Tok) :=
  .mk' (parse := fun _ s => (.ok s.toks, { s with toks := [] }))

/-- The literal of a token, `_ => unreachable!()` otherwise. -/
def Tok.literal? : Tok → Res Lit
  | .lit l _ => .ok l
  | _ => .panic

/-- The character of a punctuation token, `_ => unreachable!()` otherwise. -/
def Tok.char? : Tok → Res Char
  | .punct c _ _ => .ok c
  | _ => .panic

/-- Delimiter and content of a group, `_ => unreachable!()` otherwise. -/
def Tok.content? : Tok → Res (Delim × List Tok)
  | .group d inner _ _ => .ok (d, inner)
  | _ => .panic

/-- The name of an identifier, `_ => unreachable!()` otherwise. -/
def Tok.name? : Tok → Res Str
  | .ident s _ => .ok s
  | _ => .panic

/-- core/parse_meta.rs:1149-1157 -/
def pmLiteralDict (relit : Lit → Except Str Lit) : Dict Lit :=
  .mk' (parse := fun _ => (convertNext relit
    (fun | .lit _ _ => none | _ => some (.expected "literal token".toList))
    (.expected "literal token".toList)).mapRes (·.bind Tok.literal?))

/-- core/parse_meta.rs:1163-1171 -/
def pmPunctDict (relit : Lit → Except Str Lit) : Dict Char :=
  .mk' (parse := fun _ => (convertNext relit
    (fun | .punct c _ _ => if c = '\'' then some (.expected "punctuation token".toList) else none
         | _ => some (.expected "punctuation token".toList))
    (.expected "punctuation token".toList)).mapRes (·.bind Tok.char?))

/-- core/parse_meta.rs:1177-1185 -/
def pmGroupDict (relit : Lit → Except Str Lit) : Dict (Delim × List Tok) :=
  .mk' (parse := fun _ => (convertNext relit
    (fun | .group _ _ _ _ => none | _ => some (.expected "group token".toList))
    (.expected "group token".toList)).mapRes (·.bind Tok.content?))

/-- `impl Parse for Ident` of `syn` (external) refuses keywords; `keyword` says which they are. -/
def acceptIdent (keyword : Str → Bool) : Tok → Option Text
  | .ident s _ => if keyword s then some (.expected "identifier".toList) else none
  | _ => some (.expected "identifier".toList)

/-- core/parse_meta.rs:1191-1199 -/
def pmIdentDict (relit : Lit → Except Str Lit) (keyword : Str → Bool) : Dict Str :=
  .mk' (parse := fun _ => (convertNext relit (acceptIdent keyword)
    (.expected "identifier".toList)).mapRes (·.bind Tok.name?))

end Deluxe
