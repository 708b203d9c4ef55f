import Verif.Spec.Defs
/-!
# Specification vocabulary: how the attributes of a definition are written

Attributes without the spans that the derives keep for their messages, and the tokens that they are written with.
-/
namespace Deluxe

/-- The token of a boolean. -/
def boolTok (b : Bool) (sp : Span) : Tok := .ident (if b then "true".toList else "false".toList) sp

/-- After the key of an attribute with a value: `= v` or `(v)`. -/
inductive ValueToks (v : List Tok) : List Tok → Prop
  | eq (j : Bool) (sp : Span) : ValueToks v (.punct '=' j sp :: v)
  | paren (a b : Span) : ValueToks v [.group .paren v a b]

/-- After the key of an attribute that is on or off: nothing, `= true` or `(true)`, `= false` or `(false)`. -/
inductive Switch : List Tok → Bool → Prop
  | bare : Switch [] true
  | value {vt : List Tok} {b : Bool} (sp : Span) : ValueToks [boolTok b sp] vt → Switch vt b

/-- After the key of an attribute with a list of options: `(..)` or `= {..}`; `close` is the end of the list. -/
inductive Options (inner : List Tok) (close : Span) : List Tok → Prop
  | paren (a : Span) : Options inner close [.group .paren inner a close]
  | brace (j : Bool) (sp a : Span) : Options inner close [.punct '=' j sp, .group .brace inner a close]

/-- Such an attribute can also be switched on and off. -/
inductive OptionsSwitch : List Tok → Bool → Prop
  | bare : OptionsSwitch [] true
  | value (b j : Bool) (sp sp' : Span) : OptionsSwitch [.punct '=' j sp, boolTok b sp'] b

/-- After the key of an attribute with a list of values: `(..)` or `= [..]`; `close` is the end of the list. -/
inductive Listed (inner : List Tok) (close : Span) : List Tok → Prop
  | paren (a : Span) : Listed inner close [.group .paren inner a close]
  | bracket (j : Bool) (sp a : Span) : Listed inner close [.punct '=' j sp, .group .bracket inner a close]

/-- After a key: a value that an external parser reads, as `= ..` or `(..)`. -/
inductive ValueOf {α : Type} (p : M Stream α) (rest : List Tok) (sc : Span) (x : α) : List Tok → Prop
  | eq {v : List Tok} (j : Bool) (sp : Span) : ReadsFully p v rest sc x → ValueOf p rest sc x (.punct '=' j sp :: v)
  | paren {v : List Tok} (a b : Span) : ReadsFully p v [] b x → ValueOf p rest sc x [.group .paren v a b]

variable [Env]

/-- The tokens `v` are the key and `value` of them what follows. -/
def KeyedBy (key : String) (value : List Tok → Prop) (v : List Tok) : Prop :=
  ∃ sp vt, KeyToks [key.toList] sp v vt ∧ value vt

/-- `prefix = a::b` -/
def PrefixText (v _rest : List Tok) (_sc : Span) (segs : List Str) : Prop :=
  KeyedBy "prefix" (fun vt => ∃ lead pt, PathToks lead segs pt ∧ ValueToks pt vt) v

/-- The options of `container`. -/
inductive ContainerOption
  | lifetime (x : List Tok)
  | ty (x : List Tok)

namespace ContainerOption
def key : ContainerOption → String
  | .lifetime _ => "lifetime"
  | .ty _ => "ty"
def lifetime? : ContainerOption → Option (List Tok)
  | .lifetime x => some x
  | _ => none
def ty? : ContainerOption → Option (List Tok)
  | .ty x => some x
  | _ => none
end ContainerOption

/-- `lifetime = 'a` and `ty = T` -/
inductive ContainerText (lib : SynLib) (v rest : List Tok) (sc : Span) : ContainerOption → Prop
  | lifetime {x} : KeyedBy "lifetime" (ValueOf lib.lifetime rest sc x) v → ContainerText lib v rest sc (.lifetime x)
  | ty {x} : KeyedBy "ty" (ValueOf lib.ty rest sc x) v → ContainerText lib v rest sc (.ty x)

/-- The options of `transparent`. -/
def transparentKeys : List String := ["flatten_named", "flatten_unnamed", "append", "rest"]

/-- `append`, `rest = false` -/
def TransparentText (v _rest : List Tok) (_sc : Span) (x : String × Bool) : Prop :=
  x.1 ∈ transparentKeys ∧ KeyedBy x.1 (Switch · x.2) v

/-- One attribute of a field as it is written. -/
inductive FieldWord
  | flatten (on : Bool) (pre : Option (List Str))
  | append (on : Bool)
  | rest (on : Bool)
  | default (x : Option (List Tok))
  | with_ (x : List Tok)
  | rename (name : Str)
  | alias (name : Str)
  | container (on : Bool) (lifetime ty : Option (List Tok))
  | skip (on : Bool)
  | map (x : List Tok)
  | andThen (x : List Tok)

namespace FieldWord
/-- The key that it is written with. -/
def key : FieldWord → String
  | .flatten .. => "flatten"
  | .append _ => "append"
  | .rest _ => "rest"
  | .default _ => "default"
  | .with_ _ => "with"
  | .rename _ => "rename"
  | .alias _ => "alias"
  | .container .. => "container"
  | .skip _ => "skip"
  | .map _ => "map"
  | .andThen _ => "and_then"
/-- The name that it gives to the field. -/
def name? : FieldWord → Option Str
  | .rename n => some n
  | .alias n => some n
  | _ => none
def rename? : FieldWord → Option Str
  | .rename n => some n
  | _ => none
def alias? : FieldWord → Option Str
  | .alias n => some n
  | _ => none
def flatten? : FieldWord → Option (Bool × Option (List Str))
  | .flatten on pre => some (on, pre)
  | _ => none
def append? : FieldWord → Option Bool
  | .append on => some on
  | _ => none
def rest? : FieldWord → Option Bool
  | .rest on => some on
  | _ => none
def default? : FieldWord → Option (Option (List Tok))
  | .default x => some x
  | _ => none
def with? : FieldWord → Option (List Tok)
  | .with_ x => some x
  | _ => none
def container? : FieldWord → Option (Bool × Option (List Tok) × Option (List Tok))
  | .container on l t => some (on, l, t)
  | _ => none
def skip? : FieldWord → Option Bool
  | .skip on => some on
  | _ => none
def transform? : FieldWord → Option TransformD
  | .map x => some (.map x)
  | .andThen x => some (.andThen x)
  | _ => none
end FieldWord

/-- `default`, `default(..)`, and `default = ..` up to the end of the list. -/
inductive DefaultText (rest : List Tok) : List Tok → Option (List Tok) → Prop
  | bare : DefaultText rest [] none
  | paren (x : List Tok) (a b : Span) : DefaultText rest [.group .paren x a b] (some x)
  | eq (x : List Tok) (j : Bool) (sp : Span) : rest = [] → DefaultText rest (.punct '=' j sp :: x) (some x)

/-- The default that is written; without an expression it is `Default::default()`. -/
def writtenDefault (sp : Span) : Option (List Tok) → DefaultD
  | some e => .expr e
  | none => .default sp

/-- An expression without commas at top level. -/
def ExprText (vt x : List Tok) : Prop := x ≠ [] ∧ NoComma x ∧ ValueToks x vt

/-- The ways to write the attributes of a field. -/
inductive FieldText (lib : SynLib) (v rest : List Tok) (sc : Span) : FieldWord → Prop
  | flattenSwitch {b} : KeyedBy "flatten" (OptionsSwitch · b) v → FieldText lib v rest sc (.flatten b none)
  | flatten {inner close ps} : KeyedBy "flatten" (Options inner close) v → Items PrefixText close inner ps →
      ps.length ≤ 1 → FieldText lib v rest sc (.flatten true ps.head?)
  | append {b} : KeyedBy "append" (Switch · b) v → FieldText lib v rest sc (.append b)
  | rest {b} : KeyedBy "rest" (Switch · b) v → FieldText lib v rest sc (.rest b)
  | default {x} : KeyedBy "default" (DefaultText rest · x) v → FieldText lib v rest sc (.default x)
  | with_ {x} : KeyedBy "with" (ValueOf lib.path rest sc x) v → FieldText lib v rest sc (.with_ x)
  | rename {name sp} : KeyedBy "rename" (ValueToks [.ident name sp]) v → FieldText lib v rest sc (.rename name)
  | alias {name sp} : KeyedBy "alias" (ValueToks [.ident name sp]) v → FieldText lib v rest sc (.alias name)
  | containerSwitch {b} : KeyedBy "container" (OptionsSwitch · b) v → FieldText lib v rest sc (.container b none none)
  | container {inner close os} : KeyedBy "container" (Options inner close) v →
      Items (ContainerText lib) close inner os → (os.map ContainerOption.key).Nodup →
      FieldText lib v rest sc (.container true (os.findSome? ContainerOption.lifetime?)
        (os.findSome? ContainerOption.ty?))
  | skip {b} : KeyedBy "skip" (Switch · b) v → FieldText lib v rest sc (.skip b)
  | map {x} : KeyedBy "map" (ExprText · x) v → FieldText lib v rest sc (.map x)
  | andThen {x} : KeyedBy "and_then" (ExprText · x) v → FieldText lib v rest sc (.andThen x)

/-- The attributes of a field are fine: none is repeated that must not be, a field without name is not appended,
rest, renamed or aliased, the names given are new, and no two exclude each other. -/
structure WordsOk (own : Option Str) (ws : List FieldWord) : Prop where
  once : ((ws.map FieldWord.key).filter (· ∉ repeatable)).Nodup
  tuple : own = none → ∀ w ∈ ws, w.key ∉ ["append", "rest", "rename", "alias"]
  names : (ws.filterMap FieldWord.name?).Nodup
  own : ∀ w ∈ ws, ∀ n, w.name? = some n → own ≠ some n
  compatible : ∀ p ∈ exclusivePairs, ¬ (p.1 ∈ ws.map FieldWord.key ∧ p.2 ∈ ws.map FieldWord.key)

/-- The names of a field: its own one, unless it is renamed or flattened, and the aliases. -/
def wordNames (own : Option Str) (ws : List FieldWord) : List Str :=
  (match ws.findSome? FieldWord.rename? with
  | some n => [n]
  | none => if ((ws.findSome? FieldWord.flatten?).map (·.1)).getD false then [] else (own.map bareName).toList) ++
    ws.filterMap FieldWord.alias?

/-- The field `g` of the generated code is what is written. -/
structure Means {V : Type} (own : Option Str) (ws : List FieldWord) (sem : FieldSem V) (g : Field V) : Prop where
  ident : g.ident = own
  idents : g.idents = wordNames own ws
  default : ∃ sp, g.default = (ws.findSome? FieldWord.default?).map fun x => sem.default (writtenDefault sp x)
  flatten : g.flatten = (ws.findSome? FieldWord.flatten?).map fun x => ⟨x.1, x.2.map keyString⟩
  append : g.append = ws.findSome? FieldWord.append?
  rest : g.rest = ws.findSome? FieldWord.rest?
  container : g.container = (ws.findSome? FieldWord.container?).map (·.1)
  skip : g.skip = ws.findSome? FieldWord.skip?
  transforms : g.transforms = (ws.filterMap FieldWord.transform?).map sem.transform
  item : g.item = sem.item
  flatNamed : g.flatNamed = sem.flatNamed
  flatUnnamed : g.flatUnnamed = sem.flatUnnamed
  appendP : g.appendP = sem.appendP
  restP : g.restP = sem.restP

/-- One attribute of a structure as it is written. -/
inductive StructWord
  | transparent (on : Bool) (options : List (String × Bool))
  | allowUnknown (on : Bool)
  | default (x : Option (List Tok))
  | crate (x : List Tok)
  | andThen (x : List Tok)
  | attributes (x : List (List Tok))

namespace StructWord
def key : StructWord → String
  | .transparent .. => "transparent"
  | .allowUnknown _ => "allow_unknown_fields"
  | .default _ => "default"
  | .crate _ => "crate"
  | .andThen _ => "and_then"
  | .attributes _ => "attributes"
def transparent? : StructWord → Option (Bool × List (String × Bool))
  | .transparent on os => some (on, os)
  | _ => none
def allowUnknown? : StructWord → Option Bool
  | .allowUnknown x => some x
  | _ => none
def default? : StructWord → Option (Option (List Tok))
  | .default x => some x
  | _ => none
def crate? : StructWord → Option (List Tok)
  | .crate x => some x
  | _ => none
def andThen? : StructWord → Option (List Tok)
  | .andThen x => some x
  | _ => none
def paths : StructWord → List (List Tok)
  | .attributes x => x
  | _ => []
end StructWord

/-- Paths, without or with a list of them. -/
inductive PathsText (lib : SynLib) : List Tok → List (List Tok) → Prop
  | bare : PathsText lib [] []
  | list {inner close xs vt} : Listed inner close vt →
      Items (fun v rest sc x => ReadsFully lib.modPath v rest sc x) close inner xs → PathsText lib vt xs

/-- The ways to write the attributes of a structure. -/
inductive StructText (lib : SynLib) (v rest : List Tok) (sc : Span) : StructWord → Prop
  | transparentSwitch {b} : KeyedBy "transparent" (OptionsSwitch · b) v →
      StructText lib v rest sc (.transparent b [])
  | transparent {inner close os} : KeyedBy "transparent" (Options inner close) v →
      Items TransparentText close inner os → (os.map (·.1)).Nodup → StructText lib v rest sc (.transparent true os)
  | allowUnknown {b} : KeyedBy "allow_unknown_fields" (Switch · b) v → StructText lib v rest sc (.allowUnknown b)
  | default {x} : KeyedBy "default" (DefaultText rest · x) v → StructText lib v rest sc (.default x)
  | crate {x} : KeyedBy "crate" (ValueOf lib.path rest sc x) v → StructText lib v rest sc (.crate x)
  | andThen {x} : KeyedBy "and_then" (ExprText · x) v → StructText lib v rest sc (.andThen x)
  | attributes {x} : KeyedBy "attributes" (PathsText lib · x) v → StructText lib v rest sc (.attributes x)

/-- The value that the derive keeps is what is written. -/
def StructWord.Is : StructWord → StructAttr → Prop
  | .transparent on os, .transparent x => x.value = on ∧ x.flattenNamed = os.lookup "flatten_named" ∧
      x.flattenUnnamed = os.lookup "flatten_unnamed" ∧ x.append = os.lookup "append" ∧ x.rest = os.lookup "rest"
  | .allowUnknown on, .allowUnknown x => x = on
  | .default e, .default x => ∃ sp, x = writtenDefault sp e
  | .crate e, .crate x => x = e
  | .andThen e, .andThen x => x = e
  | .attributes e, .attributes x => x = e
  | _, _ => False

/-- One attribute of a variant as it is written. -/
inductive VariantWord
  | transparent (on : Bool)
  | allowUnknown (on : Bool)
  | flatten (on : Bool)
  | rename (name : Str)
  | alias (name : Str)
  | skip (on : Bool)

namespace VariantWord
def key : VariantWord → String
  | .transparent _ => "transparent"
  | .allowUnknown _ => "allow_unknown_fields"
  | .flatten _ => "flatten"
  | .rename _ => "rename"
  | .alias _ => "alias"
  | .skip _ => "skip"
def transparent? : VariantWord → Option Bool
  | .transparent x => some x
  | _ => none
def allowUnknown? : VariantWord → Option Bool
  | .allowUnknown x => some x
  | _ => none
def flatten? : VariantWord → Option Bool
  | .flatten x => some x
  | _ => none
def rename? : VariantWord → Option Str
  | .rename x => some x
  | _ => none
def alias? : VariantWord → Option Str
  | .alias x => some x
  | _ => none
def skip? : VariantWord → Option Bool
  | .skip x => some x
  | _ => none
end VariantWord

/-- The ways to write the attributes of a variant. -/
inductive VariantText (v : List Tok) : VariantWord → Prop
  | transparent {b} : KeyedBy "transparent" (Switch · b) v → VariantText v (.transparent b)
  | allowUnknown {b} : KeyedBy "allow_unknown_fields" (Switch · b) v → VariantText v (.allowUnknown b)
  | flatten {b} : KeyedBy "flatten" (Switch · b) v → VariantText v (.flatten b)
  | rename {name sp} : KeyedBy "rename" (ValueToks [.ident name sp]) v → VariantText v (.rename name)
  | alias {name sp} : KeyedBy "alias" (ValueToks [.ident name sp]) v → VariantText v (.alias name)
  | skip {b} : KeyedBy "skip" (Switch · b) v → VariantText v (.skip b)

/-- The value that the derive keeps is what is written. -/
def VariantWord.Is : VariantWord → VariantAttr → Prop
  | .transparent on, .transparent x => x.map (·.value) = some on
  | .allowUnknown on, .allowUnknown x => x = on
  | .flatten on, .flatten x => x.map (·.value) = some on
  | .rename n, .rename _ x => x.1 = n
  | .alias n, .alias _ x => x.1 = n
  | .skip on, .skip x => x.value = on
  | _, _ => False

/-- The names of a variant: its own one in snake case, unless it is renamed or flattened, and the aliases. -/
def variantWordNames (lib : SynLib) (own : Str) (ws : List VariantWord) : List Str :=
  (match ws.findSome? VariantWord.rename? with
  | some n => [n]
  | none => if (ws.findSome? VariantWord.flatten?).getD false then [] else [lib.snake (bareName own)]) ++
    ws.filterMap VariantWord.alias?

/-- One attribute of an enum as it is written. -/
inductive EnumWord
  | default (x : Option (List Tok))
  | crate (x : List Tok)
  | andThen (x : List Tok)
  | attributes (x : List (List Tok))
  | allowUnknown (on : Bool)

namespace EnumWord
def key : EnumWord → String
  | .default _ => "default"
  | .crate _ => "crate"
  | .andThen _ => "and_then"
  | .attributes _ => "attributes"
  | .allowUnknown _ => "allow_unknown_fields"
def default? : EnumWord → Option (Option (List Tok))
  | .default x => some x
  | _ => none
def crate? : EnumWord → Option (List Tok)
  | .crate x => some x
  | _ => none
def andThen? : EnumWord → Option (List Tok)
  | .andThen x => some x
  | _ => none
def paths : EnumWord → List (List Tok)
  | .attributes x => x
  | _ => []
def allowUnknown? : EnumWord → Option Bool
  | .allowUnknown x => some x
  | _ => none
end EnumWord

/-- The ways to write the attributes of an enum. -/
inductive EnumText (lib : SynLib) (v rest : List Tok) (sc : Span) : EnumWord → Prop
  | default {x} : KeyedBy "default" (DefaultText rest · x) v → EnumText lib v rest sc (.default x)
  | crate {x} : KeyedBy "crate" (ValueOf lib.path rest sc x) v → EnumText lib v rest sc (.crate x)
  | andThen {x} : KeyedBy "and_then" (ExprText · x) v → EnumText lib v rest sc (.andThen x)
  | attributes {x} : KeyedBy "attributes" (PathsText lib · x) v → EnumText lib v rest sc (.attributes x)
  | allowUnknown {b} : KeyedBy "allow_unknown_fields" (Switch · b) v → EnumText lib v rest sc (.allowUnknown b)

/-- The value that the derive keeps is what is written. -/
def EnumWord.Is : EnumWord → EnumAttr → Prop
  | .default e, .default x => ∃ sp, x = writtenDefault sp e
  | .crate e, .crate x => x = e
  | .andThen e, .andThen x => x = e
  | .attributes e, .attributes x => x = e
  | .allowUnknown on, .allowUnknown x => x = on
  | _, _ => False

end Deluxe
