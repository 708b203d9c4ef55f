import Verif.Model.Transparent
import Verif.Model.With
/-!
# Changing the locations of tokens

`f` says where each location goes.  Everything but the locations stays as it is.
-/
namespace Deluxe

mutual
/-- The token with other locations. -/
def Tok.reloc (f : Span → Span) : Tok → Tok
  | .ident s sp => .ident s (f sp)
  | .punct c j sp => .punct c j (f sp)
  | .lit l sp => .lit l (f sp)
  | .group d inner sp close => .group d (Tok.relocs f inner) (f sp) (f close)
/-- The tokens with other locations. -/
def Tok.relocs (f : Span → Span) : List Tok → List Tok
  | [] => []
  | t :: ts => t.reloc f :: Tok.relocs f ts
end

/-- A text quotes at most a token. -/
def Text.reloc (f : Span → Span) : Text → Text
  | .unexpectedTree t => .unexpectedTree (t.reloc f)
  | .atEof t => .atEof (t.reloc f)
  | t => t

def Msg.reloc (f : Span → Span) (m : Msg) : Msg := ⟨f m.span, m.text.reloc f⟩
def SynErr.reloc (f : Span → Span) (e : SynErr) : SynErr := ⟨e.head.reloc f, e.tail.map (Msg.reloc f)⟩

/-- The outcome with other locations; `v` does that for values. -/
def Res.reloc {α β : Type} (f : Span → Span) (v : α → β) : Res α → Res β
  | .ok a => .ok (v a)
  | .err e => .err (e.reloc f)
  | .panic => .panic

def Stream.reloc (f : Span → Span) (s : Stream) : Stream := ⟨Tok.relocs f s.toks, f s.scope, s.unexp.map f⟩

def Mode.reloc (f : Span → Span) : Mode → Mode
  | .named sp => .named (f sp)
  | .unnamed => .unnamed

def Path.reloc (f : Span → Span) (p : Path) : Path := { p with span := f p.span }
def Spanned.reloc {α β : Type} (f : Span → Span) (v : α → β) (x : Spanned α) : Spanned β := ⟨v x.value, f x.span⟩
def APath.reloc (f : Span → Span) (p : APath) : APath := { p with span := f p.span }

def Meta.reloc (f : Span → Span) : Meta → Meta
  | .path => .path
  | .list d toks => .list d (Tok.relocs f toks)
  | .nameValue toks => .nameValue (Tok.relocs f toks)

def Attr.reloc (f : Span → Span) (a : Attr) : Attr := ⟨a.path.reloc f, a.body.reloc f⟩

/-- `f` maps the locations of the world `E` to those of the world `E'`: the call site stays, and joined locations go
to the joined location, or else to the one that is used instead.  Everything else is the same in both worlds. -/
structure Relocates (E E' : Env) (f : Span → Span) : Prop where
  site : f callSite = callSite
  join : ∀ a b c, (E'.join (f a) (f b)).getD (f c) = f ((E.join a b).getD c)
  sim : E'.sim = E.sim
  simMin : E'.simMin = E.simMin

/-- The second parser does with other locations what the first one does. -/
def RelocM {σ σ' α β : Type} (f : Span → Span) (g : σ → σ') (v : α → β) (m : M σ α) (m' : M σ' β) : Prop :=
  ∀ s, m' (g s) = ((m s).1.reloc f v, g (m s).2)

abbrev RelocS {α β : Type} (f : Span → Span) (v : α → β) (m : M Stream α) (m' : M Stream β) : Prop :=
  RelocM f (Stream.reloc f) v m m'

abbrev RelocL {α β : Type} (f : Span → Span) (v : α → β) (m : M (List Stream) α) (m' : M (List Stream) β) : Prop :=
  RelocM f (List.map (Stream.reloc f)) v m m'

/-- The second implementation of `ParseMetaItem` does with other locations what the first one does. -/
structure Dict.Reloc {α β : Type} (f : Span → Span) (v : α → β) (d : Dict α) (d' : Dict β) : Prop where
  parse : ∀ m, RelocS f v (d.parse m) (d'.parse (m.reloc f))
  inline : ∀ m, RelocL f v (d.inline m) (d'.inline (m.reloc f))
  flag : ∀ sp, d'.flag (f sp) = (d.flag sp).reloc f v
  named : ∀ n sp, RelocS f v (d.named n sp) (d'.named n (f sp))
  missing : ∀ n sp, d'.missing n (f sp) = (d.missing n sp).reloc f v

structure FlatUnnamed.Reloc {α β : Type} (f : Span → Span) (v : α → β) (d : FlatUnnamed α) (d' : FlatUnnamed β) :
    Prop where
  fieldCount : d'.fieldCount = d.fieldCount
  parse : ∀ m i, RelocL f v (d.parse m i) (d'.parse (m.reloc f) i)

structure FlatNamed.Reloc {α β : Type} (f : Span → Span) (v : α → β) (d : FlatNamed α) (d' : FlatNamed β) : Prop where
  acceptsAll : d'.acceptsAll = d.acceptsAll
  fieldNames : d'.fieldNames = d.fieldNames
  parse : ∀ m p b, RelocL f v (d.parse m p b) (d'.parse (m.reloc f) p b)

/-- The outcome of a user function with other locations. -/
def relocExcept {α β : Type} (f : Span → Span) (v : α → β) : Except SynErr α → Except SynErr β
  | .ok a => .ok (v a)
  | .error e => .error (e.reloc f)

/-- The second way of reading a string as tokens gives the tokens of the first one with other locations. -/
def LexReloc (f : Span → Span) (lex lex' : Str → Except SynErr (List Tok)) : Prop :=
  ∀ v, lex' v = relocExcept f (Tok.relocs f) (lex v)

/-- Lists of the same length whose elements are related one by one. -/
def All2 {α β : Type} (P : α → β → Prop) : List α → List β → Prop
  | [], [] => True
  | a :: as, b :: bs => P a b ∧ All2 P as bs
  | _, _ => False

/-- A user function does not look at locations. -/
def Transform.Reloc {V W : Type} (f : Span → Span) (v : V → W) : Transform V → Transform W → Prop
  | .map g, .map g' => ∀ x, g' (v x) = v (g x)
  | .andThen g, .andThen g' => ∀ x, g' (v x) = relocExcept f v (g x)
  | _, _ => False

/-- The same definition of a field, for types whose implementations differ in the locations only. -/
structure Field.Reloc {V W : Type} (f : Span → Span) (v : V → W) (x : Field V) (y : Field W) : Prop where
  ident : y.ident = x.ident
  idents : y.idents = x.idents
  default : y.default = x.default.map v
  flatten : y.flatten = x.flatten
  append : y.append = x.append
  rest : y.rest = x.rest
  container : y.container = x.container
  skip : y.skip = x.skip
  transforms : All2 (Transform.Reloc f v) x.transforms y.transforms
  item : x.item.Reloc f v y.item
  flatNamed : x.flatNamed.Reloc f v y.flatNamed
  flatUnnamed : x.flatUnnamed.Reloc f v y.flatUnnamed
  appendP : ∀ paths, RelocL f v (x.appendP paths) (y.appendP paths)
  restP : ∀ ex, RelocL f v (x.restP ex) (y.restP ex)

/-- The same field data. -/
structure Fields.Reloc {V W : Type} (f : Span → Span) (v : V → W) (d : Fields V) (d' : Fields W) : Prop where
  fields : All2 (Field.Reloc f v) d.fields d'.fields
  target : d'.target = d.target.map (List.map v)
  transparent : d'.transparent = d.transparent
  allowUnknown : d'.allowUnknown = d.allowUnknown
  obj : d'.obj = d.obj.map v
  attrName : d'.attrName = d.attrName
  emptySpan : d'.emptySpan = f d.emptySpan

/-- The same structure. -/
structure StructDef.Reloc {V W : Type} (f : Span → Span) (v : V → W) (d : StructDef V) (d' : StructDef W) : Prop where
  shape : d'.shape = d.shape
  fields : All2 (Field.Reloc f v) d.fields d'.fields
  default : d'.default = d.default.map (List.map v)
  transparent : d'.transparent = d.transparent
  allowUnknown : d'.allowUnknown = d.allowUnknown
  andThens : All2 (fun g g' => ∀ x, g' (x.map v) = relocExcept f (List.map v) (g x)) d.andThens d'.andThens

/-- The same variant. -/
structure Variant.Reloc {V W : Type} (f : Span → Span) (v : V → W) (x : Variant V) (y : Variant W) : Prop where
  ident : y.ident = x.ident
  shape : y.shape = x.shape
  fields : All2 (Field.Reloc f v) x.fields y.fields
  idents : y.idents = x.idents
  flatten : y.flatten = x.flatten
  transparent : y.transparent = x.transparent
  skip : y.skip = x.skip
  allowUnknown : y.allowUnknown = x.allowUnknown

/-- The same enum. -/
structure EnumDef.Reloc {V W : Type} (f : Span → Span) (v : V → W) (d : EnumDef V) (d' : EnumDef W) : Prop where
  variants : All2 (Variant.Reloc f v) d.variants d'.variants
  default : d'.default = d.default.map (Prod.map id (List.map v))
  allowUnknown : d'.allowUnknown = d.allowUnknown
  andThens : All2 (fun g g' => ∀ x, g' (Prod.map id (List.map v) x) = relocExcept f (Prod.map id (List.map v)) (g x))
    d.andThens d'.andThens

/-- The same container value and attribute path. -/
structure Site.Reloc {V W : Type} (v : V → W) (x : Site V) (y : Site W) : Prop where
  obj : y.obj = x.obj.map v
  attrName : y.attrName = x.attrName

end Deluxe
