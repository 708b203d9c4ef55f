import Verif.Model.Attributes
/-!
# Where messages point

A set of places, and what it means that tokens, streams and errors lie in it.
-/
namespace Deluxe

/-- A set of places that is closed under joining spans and contains the call site. -/
class Area [Env] (P : Span → Prop) : Prop where
  join : ∀ {a b c}, P a → P b → Env.join a b = some c → P c
  callSite : P callSite

/-- The token lies in `P`, and so does everything in it. -/
inductive Tok.In (P : Span → Prop) : Tok → Prop
  | ident {s : Str} {sp : Span} : P sp → Tok.In P (.ident s sp)
  | punct {c : Char} {j : Bool} {sp : Span} : P sp → Tok.In P (.punct c j sp)
  | lit {l : Lit} {sp : Span} : P sp → Tok.In P (.lit l sp)
  | group {d : Delim} {inner : List Tok} {sp close : Span} : (∀ t ∈ inner, t.In P) → P sp → P close →
      Tok.In P (.group d inner sp close)

/-- What is left of the stream lies in `P`, with its end. -/
structure Stream.In (P : Span → Prop) (s : Stream) : Prop where
  toks : ∀ t ∈ s.toks, t.In P
  scope : P s.scope
  unexp : ∀ sp, s.unexp = some sp → P sp

/-- All messages point into `P`. -/
def SynErr.In (P : Span → Prop) (e : SynErr) : Prop := ∀ m ∈ e.toList, P m.span

/-- The name before the value lies in `P`, if there is one. -/
def Mode.In (P : Span → Prop) (m : Mode) : Prop := ∀ sp, m.namedSpan = some sp → P sp

/-- If it fails, then with messages that point into `P`; if it succeeds, then with a value in `Q`. -/
def Res.In {α : Type} (P : Span → Prop) (Q : α → Prop) : Res α → Prop
  | .ok a => Q a
  | .err e => e.In P
  | .panic => True

/-- The computation, started in a state that satisfies `I`, ends in one, and its messages point into `P`. -/
def Keeps {σ α : Type} (P : Span → Prop) (I : σ → Prop) (Q : α → Prop) (m : M σ α) : Prop :=
  ∀ s, I s → (m s).1.In P Q ∧ I (m s).2

/-- Several streams. -/
def StreamsIn (P : Span → Prop) (l : List Stream) : Prop := ∀ s ∈ l, s.In P

/-- Parsers of one stream, and of several. -/
def Loc {α : Type} (P : Span → Prop) (m : M Stream α) : Prop := Keeps P (Stream.In P) (fun _ => True) m
@[inherit_doc Loc]
def LocL {α : Type} (P : Span → Prop) (m : M (List Stream) α) : Prop := Keeps P (StreamsIn P) (fun _ => True) m

/-- Reading a value of the type from tokens in `P` gives messages in `P` only, in all forms of an item. -/
structure Dict.In {α : Type} (P : Span → Prop) (d : Dict α) : Prop where
  parse : ∀ m : Mode, m.In P → Loc P (d.parse m)
  inline : ∀ m : Mode, m.In P → LocL P (d.inline m)
  flag : ∀ sp, P sp → (d.flag sp).In P fun _ => True
  named : ∀ n sp, P sp → Loc P (d.named n sp)
  missing : ∀ n sp, P sp → (d.missing n sp).In P fun _ => True

/-- The same for flattened values. -/
structure FlatUnnamed.In {α : Type} (P : Span → Prop) (d : FlatUnnamed α) : Prop where
  parse : ∀ (m : Mode) (i : Nat), m.In P → LocL P (d.parse m i)

@[inherit_doc FlatUnnamed.In]
structure FlatNamed.In {α : Type} (P : Span → Prop) (d : FlatNamed α) : Prop where
  parse : ∀ (m : Mode) (pre : Str) (v : Bool), m.In P → LocL P (d.parse m pre v)

/-- All implementations of the type of a field are such, and so are its `and_then` functions. -/
structure Field.In {V : Type} (P : Span → Prop) (f : Field V) : Prop where
  item : f.item.In P
  flatNamed : f.flatNamed.In P
  flatUnnamed : f.flatUnnamed.In P
  append : ∀ names, LocL P (f.appendP names)
  rest : ∀ names, LocL P (f.restP names)
  andThen : ∀ g, .andThen g ∈ f.transforms → ∀ v e, g v = .error e → e.In P

/-- A structure whose fields and `and_then` functions are such. -/
structure StructDef.In {V : Type} (P : Span → Prop) (d : StructDef V) : Prop where
  fields : ∀ f ∈ d.fields, f.In P
  andThen : ∀ g ∈ d.andThens, ∀ v e, g v = .error e → e.In P

@[inherit_doc StructDef.In]
structure EnumDef.In {V : Type} (P : Span → Prop) (d : EnumDef V) : Prop where
  fields : ∀ v ∈ d.variants, ∀ f ∈ v.fields, f.In P
  andThen : ∀ g ∈ d.andThens, ∀ v e, g v = .error e → e.In P

/-- The tokens of an attribute's body as written (the delimiters of a list are not kept by deluxe). -/
def Meta.written : Meta → List Tok
  | .path => []
  | .list _ toks => toks
  | .nameValue toks => toks

/-- The attribute lies in `P`. -/
structure Attr.In (P : Span → Prop) (a : Attr) : Prop where
  path : P a.path.span
  body : ∀ t ∈ a.body.written, t.In P

end Deluxe
