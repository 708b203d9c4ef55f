import Verif.Model.Defs
import Verif.Spec.Items
/-!
# Specification vocabulary: attributes in definitions
-/
namespace Deluxe

/-- The attributes that the derives read: those with the path `deluxe`. -/
def deluxeAttrs (attrs : List Attr) : List Attr :=
  attrs.filter fun a => !a.path.leading && a.path.segs == [("deluxe".toList, false)]

variable [Env]

/-- One attribute of a field with its value; `rename` and `alias` with the span of the key. -/
inductive FieldAttr
  | flatten (x : FlattenD)
  | append (x : Spanned Bool)
  | rest (x : Spanned Bool)
  | default (x : DefaultD)
  | with_ (x : List Tok)
  | rename (sp : Span) (name : Str × Span)
  | alias (sp : Span) (name : Str × Span)
  | container (x : ContainerD)
  | skip (x : Spanned Bool)
  | map (x : List Tok)
  | andThen (x : List Tok)

namespace FieldAttr
/-- The key that it is written with. -/
def key : FieldAttr → String
  | .flatten _ => "flatten"
  | .append _ => "append"
  | .rest _ => "rest"
  | .default _ => "default"
  | .with_ _ => "with"
  | .rename .. => "rename"
  | .alias .. => "alias"
  | .container _ => "container"
  | .skip _ => "skip"
  | .map _ => "map"
  | .andThen _ => "and_then"

/-- The name that it gives to the field. -/
def name? : FieldAttr → Option (Str × Span)
  | .rename _ n => some n
  | .alias _ n => some n
  | _ => none
def rename? : FieldAttr → Option (Str × Span)
  | .rename _ n => some n
  | _ => none
def alias? : FieldAttr → Option (Str × Span)
  | .alias _ n => some n
  | _ => none
def flatten? : FieldAttr → Option FlattenD
  | .flatten x => some x
  | _ => none
def append? : FieldAttr → Option (Spanned Bool)
  | .append x => some x
  | _ => none
def rest? : FieldAttr → Option (Spanned Bool)
  | .rest x => some x
  | _ => none
def default? : FieldAttr → Option DefaultD
  | .default x => some x
  | _ => none
def with? : FieldAttr → Option (List Tok)
  | .with_ x => some x
  | _ => none
def container? : FieldAttr → Option ContainerD
  | .container x => some x
  | _ => none
def skip? : FieldAttr → Option (Spanned Bool)
  | .skip x => some x
  | _ => none
def transform? : FieldAttr → Option TransformD
  | .map x => some (.map x)
  | .andThen x => some (.andThen x)
  | _ => none

/-- Where a complaint about it is reported. -/
def span : FieldAttr → Span
  | .flatten x => x.span
  | .append x => x.span
  | .rest x => x.span
  | .default x => x.span
  | .with_ x => toksSpan x
  | .rename sp _ => sp
  | .alias sp _ => sp
  | .container x => x.span
  | .skip x => x.span
  | .map x => toksSpan x
  | .andThen x => toksSpan x
end FieldAttr

/-- `p` reads exactly the tokens `v`, and all tokens of the groups in them that it enters. -/
def ReadsFully {α : Type} (p : M Stream α) (v rest : List Tok) (sc : Span) (x : α) : Prop :=
  ∀ u, p ⟨v ++ rest, sc, u⟩ = (.ok x, ⟨rest, sc, u⟩)

/-- The tokens are an attribute of a field: its key, then tokens that read as its value. -/
inductive FieldSeg (lib : SynLib) (v rest : List Tok) (sc : Span) : FieldAttr → Prop
  | flatten {sp vt x} : KeyToks [txt "flatten"] sp v vt →
      ReadsFully (flattenDict.named (txt "flatten") sp) vt rest sc x → FieldSeg lib v rest sc (.flatten x)
  | append {sp vt x} : KeyToks [txt "append"] sp v vt →
      ReadsFully ((spannedDict boolDict).named (txt "append") sp) vt rest sc x →
      FieldSeg lib v rest sc (.append x)
  | rest {sp vt x} : KeyToks [txt "rest"] sp v vt →
      ReadsFully ((spannedDict boolDict).named (txt "rest") sp) vt rest sc x →
      FieldSeg lib v rest sc (.rest x)
  | default {sp vt x} : KeyToks [txt "default"] sp v vt →
      ReadsFully (defaultDict.named (txt "default") sp) vt rest sc x → FieldSeg lib v rest sc (.default x)
  | with_ {sp vt x} : KeyToks [txt "with"] sp v vt →
      ReadsFully ((synDict lib.path).named (txt "with") sp) vt rest sc x → FieldSeg lib v rest sc (.with_ x)
  | rename {sp vt x} : KeyToks [txt "rename"] sp v vt →
      ReadsFully (identSpDict.named (txt "rename") sp) vt rest sc x → FieldSeg lib v rest sc (.rename sp x)
  | alias {sp vt x} : KeyToks [txt "alias"] sp v vt →
      ReadsFully (identSpDict.named (txt "alias") sp) vt rest sc x → FieldSeg lib v rest sc (.alias sp x)
  | container {sp vt x} : KeyToks [txt "container"] sp v vt →
      ReadsFully ((containerDict lib).named (txt "container") sp) vt rest sc x →
      FieldSeg lib v rest sc (.container x)
  | skip {sp vt x} : KeyToks [txt "skip"] sp v vt →
      ReadsFully ((spannedDict boolDict).named (txt "container") sp) vt rest sc x →
      FieldSeg lib v rest sc (.skip x)
  | map {sp vt x} : KeyToks [txt "map"] sp v vt →
      ReadsFully (tokenStreamDict.named (txt "map") sp) vt rest sc x → FieldSeg lib v rest sc (.map x)
  | andThen {sp vt x} : KeyToks [txt "and_then"] sp v vt →
      ReadsFully (tokenStreamDict.named (txt "and_then") sp) vt rest sc x → FieldSeg lib v rest sc (.andThen x)

/-- The pairs of attributes that exclude each other. -/
def exclusivePairs : List (String × String) :=
  [("flatten", "append"), ("flatten", "rest"), ("append", "rest"), ("container", "flatten"),
    ("container", "rename"), ("container", "with"), ("container", "alias"), ("default", "flatten"),
    ("flatten", "rename"), ("flatten", "alias")]

/-- They are checked in these groups, each of which may have at most one of its attributes present. -/
def exclusiveGroups : List (List String) :=
  [["flatten", "append", "rest"], ["container", "flatten"], ["container", "rename"], ["container", "with"],
    ["container", "alias"], ["default", "flatten"], ["flatten", "rename"], ["flatten", "alias"]]

/-- The messages about a group: one for each attribute of it that is present, at its first occurrence, naming
all of the group. -/
def groupMsgs (bs : List FieldAttr) (g : List String) : List Msg :=
  let present := g.filterMap fun key => (bs.find? (·.key == key)).map FieldAttr.span
  if 2 ≤ present.length then present.map fun sp => ⟨sp, .onlyOneOf (g.map String.toList)⟩ else []

/-- Attributes that may be given more than once. -/
def repeatable : List String := ["alias", "map", "and_then"]

/-- Nothing is wrong with the attributes one by one: none is repeated that must not be, a field without name is
not appended, rest, renamed or aliased, and the names given are new. -/
structure FieldListOk (f : FieldIn) (bs : List FieldAttr) : Prop where
  once : ((bs.map FieldAttr.key).filter (· ∉ repeatable)).Nodup
  tuple : f.ident = none → ∀ b ∈ bs, b.key ∉ ["append", "rest", "rename", "alias"]
  names : ((bs.filterMap FieldAttr.name?).map (·.1)).Nodup
  own : ∀ b ∈ bs, ∀ n, b.name? = some n → f.ident.map (·.1) ≠ some n.1

/-- No two attributes exclude each other. -/
def Compatible (bs : List FieldAttr) : Prop :=
  ∀ p ∈ exclusivePairs, ¬ (p.1 ∈ bs.map FieldAttr.key ∧ p.2 ∈ bs.map FieldAttr.key)

/-- The name of a field or a variant as it is written in an input: without `r#`. -/
def bareName : Str → Str
  | 'r' :: '#' :: n => n
  | n => n

/-- The field that the attributes declare: its names are its own one, unless it is renamed or flattened, and
the aliases. -/
def declared (f : FieldIn) (bs : List FieldAttr) : FieldDecl where
  ident := f.ident
  idents :=
    (match bs.findSome? FieldAttr.rename? with
    | some n => [n]
    | none =>
      if ((bs.findSome? FieldAttr.flatten?).map (·.value)).getD false then []
      else (f.ident.map fun n => (bareName n.1, n.2)).toList) ++ bs.filterMap FieldAttr.alias?
  default := bs.findSome? FieldAttr.default?
  with_ := bs.findSome? FieldAttr.with?
  flatten := bs.findSome? FieldAttr.flatten?
  append := bs.findSome? FieldAttr.append?
  rest := bs.findSome? FieldAttr.rest?
  container := bs.findSome? FieldAttr.container?
  skip := bs.findSome? FieldAttr.skip?
  transforms := bs.filterMap FieldAttr.transform?

/-! ## Structures -/

/-- One attribute of a structure with its value. -/
inductive StructAttr
  | transparent (x : TransparentD)
  | allowUnknown (x : Bool)
  | default (x : DefaultD)
  | crate (x : List Tok)
  | andThen (x : List Tok)
  | attributes (x : List (List Tok))

namespace StructAttr
def key : StructAttr → String
  | .transparent _ => "transparent"
  | .allowUnknown _ => "allow_unknown_fields"
  | .default _ => "default"
  | .crate _ => "crate"
  | .andThen _ => "and_then"
  | .attributes _ => "attributes"
def transparent? : StructAttr → Option TransparentD
  | .transparent x => some x
  | _ => none
def allowUnknown? : StructAttr → Option Bool
  | .allowUnknown x => some x
  | _ => none
def default? : StructAttr → Option DefaultD
  | .default x => some x
  | _ => none
def crate? : StructAttr → Option (List Tok)
  | .crate x => some x
  | _ => none
def andThen? : StructAttr → Option (List Tok)
  | .andThen x => some x
  | _ => none
/-- The paths that it declares. -/
def paths : StructAttr → List (List Tok)
  | .attributes x => x
  | _ => []
end StructAttr

/-- The tokens are an attribute of a structure. -/
inductive StructDefSeg (lib : SynLib) (v rest : List Tok) (sc : Span) : StructAttr → Prop
  | transparent {sp vt x} : KeyToks [txt "transparent"] sp v vt →
      ReadsFully (transparentDict.named (txt "transparent") sp) vt rest sc x →
      StructDefSeg lib v rest sc (.transparent x)
  | allowUnknown {sp vt x} : KeyToks [txt "allow_unknown_fields"] sp v vt →
      ReadsFully (boolDict.named (txt "allow_unknown_fields") sp) vt rest sc x →
      StructDefSeg lib v rest sc (.allowUnknown x)
  | default {sp vt x} : KeyToks [txt "default"] sp v vt →
      ReadsFully (defaultDict.named (txt "default") sp) vt rest sc x → StructDefSeg lib v rest sc (.default x)
  | crate {sp vt x} : KeyToks [txt "crate"] sp v vt →
      ReadsFully ((synDict lib.path).named (txt "crate") sp) vt rest sc x → StructDefSeg lib v rest sc (.crate x)
  | andThen {sp vt x} : KeyToks [txt "and_then"] sp v vt →
      ReadsFully (tokenStreamDict.named (txt "and_then") sp) vt rest sc x → StructDefSeg lib v rest sc (.andThen x)
  | attributes {sp vt x} : KeyToks [txt "attributes"] sp v vt →
      ReadsFully ((modPathVec lib).named (txt "attributes") sp) vt rest sc x →
      StructDefSeg lib v rest sc (.attributes x)

/-- A structure or variant can be transparent: it has one field that is parsed, with an item of its own. -/
def CanBeTransparent (fields : List FieldDecl) : Prop :=
  ∃ f, fields.filter (·.isParsable) = [f] ∧ f.isFlatten = false ∧ f.isAppend = false

/-- Nothing is wrong with the attributes of a structure one by one. -/
structure StructListOk (shape : Shape) (fields : List FieldDecl) (bs : List StructAttr) : Prop where
  once : ((bs.map StructAttr.key).filter (· ∉ ["and_then", "attributes"])).Nodup
  tuple : shape = .unnamed → "allow_unknown_fields" ∉ bs.map StructAttr.key
  unit : shape = .unit → "default" ∉ bs.map StructAttr.key
  transparent : "transparent" ∈ bs.map StructAttr.key → CanBeTransparent fields

/-- The field with a default if it is skipped and has none. -/
def withSkipDefault (f : FieldDecl) : FieldDecl :=
  { f with default := f.default.or (f.skip.bind fun sk => if sk.value then some (.default sk.span) else none) }

/-- The structure that the attributes declare.  Skipped fields get a default unless the structure has one. -/
def declaredStruct (shape : Shape) (fields : List FieldDecl) (bs : List StructAttr) : StructDecl where
  shape := shape
  fields := if (bs.findSome? StructAttr.default?).isSome then fields else fields.map withSkipDefault
  default := bs.findSome? StructAttr.default?
  crate := bs.findSome? StructAttr.crate?
  transparent := bs.findSome? StructAttr.transparent?
  allowUnknown := bs.findSome? StructAttr.allowUnknown?
  attributes := bs.flatMap StructAttr.paths
  andThens := bs.filterMap StructAttr.andThen?

/-- All names and aliases of the fields. -/
def fieldNames (fs : List FieldDecl) : List Str := fs.flatMap fun f => f.idents.map (·.1)

/-- The field takes an item of a tuple. -/
def FieldDecl.takesItem (f : FieldDecl) : Prop := f.isParsable = true ∧ f.isFlat = false

/-- No field that takes an item and has a default is before one that has none. -/
def DefaultsLast (fs : List FieldDecl) : Prop :=
  fs.Pairwise fun f g => f.takesItem → g.takesItem → f.default.isSome → g.default.isSome

/-- At most one field is marked as the container. -/
def OneContainer (fs : List FieldDecl) : Prop := (fs.filter (·.container.isSome)).length ≤ 1

/-! ## Variants -/

/-- One attribute of a variant with its value. -/
inductive VariantAttr
  | transparent (x : Option (Spanned Bool))
  | allowUnknown (x : Bool)
  | flatten (x : Option (Spanned Bool))
  | rename (sp : Span) (name : Str × Span)
  | alias (sp : Span) (name : Str × Span)
  | skip (x : Spanned Bool)

namespace VariantAttr
def key : VariantAttr → String
  | .transparent _ => "transparent"
  | .allowUnknown _ => "allow_unknown_fields"
  | .flatten _ => "flatten"
  | .rename .. => "rename"
  | .alias .. => "alias"
  | .skip _ => "skip"
def name? : VariantAttr → Option (Str × Span)
  | .rename _ n => some n
  | .alias _ n => some n
  | _ => none
def rename? : VariantAttr → Option (Str × Span)
  | .rename _ n => some n
  | _ => none
def alias? : VariantAttr → Option (Str × Span)
  | .alias _ n => some n
  | _ => none
def transparent? : VariantAttr → Option (Spanned Bool)
  | .transparent x => x
  | _ => none
def flatten? : VariantAttr → Option (Spanned Bool)
  | .flatten x => x
  | _ => none
def allowUnknown? : VariantAttr → Option Bool
  | .allowUnknown x => some x
  | _ => none
def skip? : VariantAttr → Option (Spanned Bool)
  | .skip x => some x
  | _ => none
end VariantAttr

/-- The tokens are an attribute of a variant. -/
inductive VariantSeg (v rest : List Tok) (sc : Span) : VariantAttr → Prop
  | transparent {sp vt x} : KeyToks [txt "transparent"] sp v vt →
      ReadsFully ((optionDict (spannedDict boolDict)).named (txt "transparent") sp) vt rest sc x →
      VariantSeg v rest sc (.transparent x)
  | allowUnknown {sp vt x} : KeyToks [txt "allow_unknown_fields"] sp v vt →
      ReadsFully (boolDict.named (txt "allow_unknown_fields") sp) vt rest sc x →
      VariantSeg v rest sc (.allowUnknown x)
  | flatten {sp vt x} : KeyToks [txt "flatten"] sp v vt →
      ReadsFully ((optionDict (spannedDict boolDict)).named (txt "flatten") sp) vt rest sc x →
      VariantSeg v rest sc (.flatten x)
  | rename {sp vt x} : KeyToks [txt "rename"] sp v vt →
      ReadsFully (identSpDict.named (txt "rename") sp) vt rest sc x → VariantSeg v rest sc (.rename sp x)
  | alias {sp vt x} : KeyToks [txt "alias"] sp v vt →
      ReadsFully (identSpDict.named (txt "alias") sp) vt rest sc x → VariantSeg v rest sc (.alias sp x)
  | skip {sp vt x} : KeyToks [txt "skip"] sp v vt →
      ReadsFully ((spannedDict boolDict).named (txt "skip") sp) vt rest sc x → VariantSeg v rest sc (.skip x)

/-- Nothing is wrong with the attributes of a variant one by one. -/
structure VariantListOk (v : VariantIn) (fields : List FieldDecl) (bs : List VariantAttr) : Prop where
  once : ((bs.map VariantAttr.key).filter (· ≠ "alias")).Nodup
  tuple : v.shape = .unnamed → "allow_unknown_fields" ∉ bs.map VariantAttr.key
  transparent : "transparent" ∈ bs.map VariantAttr.key → CanBeTransparent fields
  names : ((bs.filterMap VariantAttr.name?).map (·.1)).Nodup
  own : ∀ b ∈ bs, ∀ n, b.name? = some n → n.1 ≠ v.ident.1

/-- A variant with `flatten` is neither renamed nor aliased. -/
def VariantCompatible (bs : List VariantAttr) : Prop :=
  (bs.findSome? VariantAttr.flatten?).isSome → bs.filterMap VariantAttr.name? = []

/-- Unless it is renamed or flattened, the name of the variant in snake case is an identifier.  That of `_1` or `__`
is not. -/
def OwnNameOk (lib : SynLib) (v : VariantIn) (bs : List VariantAttr) : Prop :=
  bs.findSome? VariantAttr.rename? = none → (bs.findSome? VariantAttr.flatten?).map (·.value) ≠ some true →
    lib.isIdent (lib.snake (bareName v.ident.1)) = true

/-- The variant that the attributes declare: its names are its own one in snake case, unless it is renamed or
flattened, and the aliases. -/
def declaredVariant (lib : SynLib) (v : VariantIn) (fields : List FieldDecl) (bs : List VariantAttr) :
    VariantDecl where
  ident := v.ident
  span := v.span
  shape := v.shape
  fields := fields.map withSkipDefault
  idents :=
    (match bs.findSome? VariantAttr.rename? with
    | some n => [n]
    | none =>
      if ((bs.findSome? VariantAttr.flatten?).map (·.value)).getD false then []
      else [(lib.snake (bareName v.ident.1), v.ident.2)]) ++ bs.filterMap VariantAttr.alias?
  flatten := (bs.findSome? VariantAttr.flatten?).map (·.value)
  transparent := (bs.findSome? VariantAttr.transparent?).map (·.value)
  skip := bs.findSome? VariantAttr.skip?
  allowUnknown := bs.findSome? VariantAttr.allowUnknown?

/-! ## Enums -/

/-- One attribute of an enum with its value. -/
inductive EnumAttr
  | default (x : DefaultD)
  | crate (x : List Tok)
  | andThen (x : List Tok)
  | attributes (x : List (List Tok))
  | allowUnknown (x : Bool)

namespace EnumAttr
def key : EnumAttr → String
  | .default _ => "default"
  | .crate _ => "crate"
  | .andThen _ => "and_then"
  | .attributes _ => "attributes"
  | .allowUnknown _ => "allow_unknown_fields"
def allowUnknown? : EnumAttr → Option Bool
  | .allowUnknown x => some x
  | _ => none
def default? : EnumAttr → Option DefaultD
  | .default x => some x
  | _ => none
def crate? : EnumAttr → Option (List Tok)
  | .crate x => some x
  | _ => none
def andThen? : EnumAttr → Option (List Tok)
  | .andThen x => some x
  | _ => none
def paths : EnumAttr → List (List Tok)
  | .attributes x => x
  | _ => []
end EnumAttr

/-- The tokens are an attribute of an enum. -/
inductive EnumDefSeg (lib : SynLib) (v rest : List Tok) (sc : Span) : EnumAttr → Prop
  | default {sp vt x} : KeyToks [txt "default"] sp v vt →
      ReadsFully (defaultDict.named (txt "default") sp) vt rest sc x → EnumDefSeg lib v rest sc (.default x)
  | crate {sp vt x} : KeyToks [txt "crate"] sp v vt →
      ReadsFully ((synDict lib.path).named (txt "crate") sp) vt rest sc x → EnumDefSeg lib v rest sc (.crate x)
  | andThen {sp vt x} : KeyToks [txt "and_then"] sp v vt →
      ReadsFully (tokenStreamDict.named (txt "and_then") sp) vt rest sc x → EnumDefSeg lib v rest sc (.andThen x)
  | attributes {sp vt x} : KeyToks [txt "attributes"] sp v vt →
      ReadsFully ((modPathVec lib).named (txt "attributes") sp) vt rest sc x →
      EnumDefSeg lib v rest sc (.attributes x)
  | allowUnknown {sp vt x} : KeyToks [txt "allow_unknown_fields"] sp v vt →
      ReadsFully (boolDict.named (txt "allow_unknown_fields") sp) vt rest sc x →
      EnumDefSeg lib v rest sc (.allowUnknown x)

/-- No attribute of an enum is repeated that must not be. -/
def EnumListOk (bs : List EnumAttr) : Prop :=
  ((bs.map EnumAttr.key).filter (· ∉ ["and_then", "attributes"])).Nodup

/-- The enum that the attributes declare. -/
def declaredEnum (vs : List VariantDecl) (bs : List EnumAttr) : EnumDecl where
  variants := vs
  default := bs.findSome? EnumAttr.default?
  crate := bs.findSome? EnumAttr.crate?
  attributes := bs.flatMap EnumAttr.paths
  andThens := bs.filterMap EnumAttr.andThen?
  allowUnknown := bs.findSome? EnumAttr.allowUnknown?

/-- The names that each need an item for a flattened variant to be selected: those of its required plain fields. -/
def VariantDecl.required (v : VariantDecl) : List FieldDecl :=
  v.fields.filter fun f => f.default.isNone && !f.isFlat && f.isParsable && !f.idents.isEmpty

/-- The two variants need the same fields: each required field of one has the same names as one of the other. -/
def SameRequired (fs gs : List FieldDecl) : Prop :=
  (∀ f ∈ fs, ∃ g ∈ gs, ∀ x, x ∈ f.idents.map (·.1) ↔ x ∈ g.idents.map (·.1)) ∧
  (∀ g ∈ gs, ∃ f ∈ fs, ∀ x, x ∈ f.idents.map (·.1) ↔ x ∈ g.idents.map (·.1))

/-- The names of the variants that are selected by name. -/
def variantNames (vs : List VariantDecl) : List Str :=
  (vs.filter fun v => !v.isFlatten).flatMap fun v => v.idents.map (·.1)

/-- The container of a variant: its first field marked as such. -/
def VariantDecl.HasContainer (v : VariantDecl) (c : ContainerD) : Prop :=
  (v.fields.filterMap (·.container)).find? (·.value) = some c

/-- The variants fit together. -/
structure VariantsOk (vs : List VariantDecl) (hasDefault : Bool) : Prop where
  /-- The names are distinct. -/
  names : (variantNames vs).Nodup
  /-- Only the first container says what lifetime or type it has. -/
  container : vs.Pairwise fun v w => ∀ b c, v.HasContainer b → w.HasContainer c → c.lifetime = none ∧ c.ty = none
  /-- Only variants with named fields are flattened. -/
  flatNamed : ∀ v ∈ vs, v.isFlatten = true → v.shape = .named
  /-- No two flattened variants need the same fields. -/
  flatKeys : vs.Pairwise fun v w => v.isFlatten = true → w.isFlatten = true → ¬ SameRequired v.required w.required
  /-- No flattened variant just needs a field with the names of another variant. -/
  flatNames : ∀ v ∈ vs, v.isFlatten = true → ∀ w ∈ vs, w.isFlatten = false →
    ¬ (v.required ≠ [] ∧ ∀ f ∈ v.required, ∀ x, x ∈ f.idents.map (·.1) ↔ x ∈ w.idents.map (·.1))
  /-- With a default, every flattened variant needs some field. -/
  default : hasDefault = true → ∀ v ∈ vs, v.isFlatten = true → v.required ≠ []

end Deluxe
