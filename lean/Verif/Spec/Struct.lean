import Verif.Model.Derive
import Verif.Spec.Items
/-!
# Specification vocabulary: the items of a derived structure
-/
namespace Deluxe

variable {V : Type}

/-- A field that is read from an item of its own: not flattened, appended, rest, skipped or a
container. -/
def Field.Plain (f : Field V) : Prop := f.isFlat = false ∧ f.isParsable = true

/-- `f`, at position `i`, is the field that takes items with this key: the key is the prefix and one of
the names of `f`, and no earlier plain field has that name. -/
def Owns (fields : List (Field V)) (pre key : Str) (f : Field V) (i : Nat) : Prop :=
  ∃ k, key = pre ++ k ∧ fields[i]? = some f ∧ f.Plain ∧ k ∈ f.idents ∧
    ∀ j g, j < i → fields[j]? = some g → g.Plain → k ∉ g.idents

/-- An item of a structure: it belongs to field `i` and its value reads as `x`, or to no field. -/
inductive SItem (V : Type)
  | field (i : Nat) (name : Str) (sp : Span) (x : Except SynErr V)
  | other (key : Str) (sp : Span)

/-- The tokens `v` are an item: a key, then tokens which the owner of the key reads as `x`; or a key
without owner, then any tokens without comma. -/
inductive StructSeg [Env] (fields : List (Field V)) (pre : Str) (v rest : List Tok) (sc : Span) :
    SItem V → Prop
  | field {segs sp vt f i x} : KeyToks segs sp v vt → Owns fields pre (keyString segs) f i →
      ReadsAs (f.item.named (f.idents.headD []) sp) vt rest sc x →
      StructSeg fields pre v rest sc (.field i (f.idents.headD []) sp x)
  | other {segs sp vt} : KeyToks segs sp v vt → (∀ f i, ¬ Owns fields pre (keyString segs) f i) →
      NoComma vt → StructSeg fields pre v rest sc (.other (keyString segs) sp)

/-- What the first item of field `i` reads as. -/
def given (i : Nat) : List (SItem V) → Option (Except SynErr V)
  | [] => none
  | .field j _ _ x :: bs => if j = i then some x else given i bs
  | .other _ _ :: bs => given i bs

/-- The messages of an unknown key, if keys are checked. -/
def unknownMsgs [Env] (check : Bool) (allowed : List Str) (key : Str) (sp : Span) : List Msg :=
  if check = true ∧ key ∉ allowed then (unknownError key sp allowed).toList else []

/-- The messages about the items: each further item of a field is a duplicate, each failing value has
its messages, each unknown key is reported. -/
def itemMsgs [Env] (check : Bool) (allowed : List Str) : List Nat → List (SItem V) → List Msg
  | _, [] => []
  | seen, .field i name sp x :: bs =>
    (if i ∈ seen then [⟨sp, .duplicateAttr name⟩] else []) ++
      (match x with | .error e => e.toList | .ok _ => []) ++ itemMsgs check allowed (i :: seen) bs
  | seen, .other key sp :: bs => unknownMsgs check allowed key sp ++ itemMsgs check allowed seen bs

/-- One transform applied to a value. -/
def Transform.apply : Transform V → V → Except SynErr V
  | .map g, v => .ok (g v)
  | .andThen g, v => g v

/-- Transforms from left to right, up to the first failure. -/
def runTransforms : List (Transform V) → V → Except SynErr V
  | [], v => .ok v
  | t :: ts, v =>
    match t.apply v with
    | .ok v' => runTransforms ts v'
    | .error e => .error e

/-- What a flat field (flattened, append, rest) at position `i` gets from the streams: its own parser is
run on them, on a fork unless it is the last flat field. -/
def flatOut (fields : List (Field V)) (pre : Str) (span : Span) (allowed : List Str)
    (l : List Stream) (f : Field V) (i : Nat) : Res V :=
  (f.flatCall pre span allowed
    (if (fields.drop (i + 1)).any (·.flatParsable) then forkInputs l else l)).1

/-- No tokens and no container value are given for the field; `g` is what its item reads as. -/
def NotGiven (d : Fields V) (f : Field V) (g : Option (Except SynErr V)) : Prop :=
  (f.Plain ∧ g = none) ∨
    (f.isParsable = false ∧ ¬ (f.isContainer = true ∧ d.obj.isSome = true))

/-- Where the value of a field comes from, before its transforms; `none` if the field is left to the
default of the structure. `g` is what the item of the field reads as, `fl` what its own parser makes of
the streams if it is a flat field, `ms` what its type gives if the field is missing. -/
inductive Source (d : Fields V) (f : Field V) (g : Option (Except SynErr V)) (fl ms : Res V) :
    Option V → Prop
  | item {v} : f.Plain → g = some (.ok v) → Source d f g fl ms (some v)
  | flat {v} : f.flatParsable = true → fl = .ok v → Source d f g fl ms (some v)
  | container {v} : f.isContainer = true → d.obj = some v → Source d f g fl ms (some v)
  | default {v} : NotGiven d f g → f.default = some v → Source d f g fl ms (some v)
  | missing {v} : f.Plain → g = none → f.default = none → d.target = none → ms = .ok v →
      Source d f g fl ms (some v)
  | target {t} : NotGiven d f g → f.default = none → d.target = some t → Source d f g fl ms none

/-- The field at position `i` ends up with the value `v`. -/
def Ends (d : Fields V) (f : Field V) (g : Option (Except SynErr V)) (fl ms : Res V) (i : Nat) (v : V) :
    Prop :=
  (∃ b, Source d f g fl ms (some b) ∧ runTransforms f.transforms b = .ok v) ∨
    (Source d f g fl ms none ∧ ∃ t, d.target = some t ∧ t[i]? = some v)

/-- Where the value of a field of a structure with named fields comes from. -/
abbrev Base (d : Fields V) (allowed : List Str) (pre : Str) (span : Span) (l : List Stream)
    (bs : List (SItem V)) (f : Field V) (i : Nat) : Option V → Prop :=
  Source d f (given i bs) (flatOut d.fields pre span allowed l f i)
    (f.item.missing (missingName d pre f) span)

/-- The field ends up with the value `v`. -/
abbrev Holds (d : Fields V) (allowed : List Str) (pre : Str) (span : Span) (l : List Stream)
    (bs : List (SItem V)) (f : Field V) (i : Nat) (v : V) : Prop :=
  Ends d f (given i bs) (flatOut d.fields pre span allowed l f i)
    (f.item.missing (missingName d pre f) span) i v

/-- The positions of the fields that the items belong to. -/
def owners : List (SItem V) → List Nat
  | [] => []
  | .field i _ _ _ :: bs => i :: owners bs
  | .other _ _ :: bs => owners bs

/-- Nothing is wrong with the items: no field is given twice, all values parse, and if keys are checked
every other key is an allowed one. -/
structure ItemsOk (check : Bool) (allowed : List Str) (bs : List (SItem V)) : Prop where
  once : (owners bs).Nodup
  values : ∀ i name sp x, .field i name sp x ∈ bs → ∃ v, x = .ok v
  known : ∀ key sp, .other key sp ∈ bs → check = true → key ∈ allowed

/-- What the derive ensures of the definitions it accepts: a field that is not parsed has a default, from
its own attribute or added by the macro (macros/types/struct.rs:502-516, macros/parse_meta_item.rs:40-46),
or the structure has one, or it is the container field and there is a container; the struct default is a
value of the structure. -/
structure Accepted (d : Fields V) : Prop where
  filled : ∀ f ∈ d.fields, f.isParsable = false →
    f.default.isSome = true ∨ d.target.isSome = true ∨ (f.isContainer = true ∧ d.obj.isSome = true)
  target : ∀ t, d.target = some t → t.length = d.fields.length

/-- The messages of a field that is not given, has no default and cannot do without a value. -/
def missingMsgs (d : Fields V) (pre : Str) (span : Span) (bs : List (SItem V)) (f : Field V) (i : Nat) :
    List Msg :=
  if f.isFlat = false ∧ f.isParsable = true ∧ (given i bs).isNone = true ∧ f.default.isNone = true ∧
      d.target.isNone = true then
    match f.item.missing (missingName d pre f) span with
    | .err e => e.toList
    | _ => []
  else []

/-- The messages of a flat field whose own parser fails. -/
def flatFailMsgs (fields : List (Field V)) (pre : Str) (span : Span) (allowed : List Str)
    (l : List Stream) (f : Field V) (i : Nat) : List Msg :=
  if f.flatParsable = true then
    match flatOut fields pre span allowed l f i with
    | .err e => e.toList
    | _ => []
  else []

/-- The messages of the transforms of a field: those of the first failing one, if the field has a value
to transform. -/
def TransMsgs (d : Fields V) (f : Field V) (g : Option (Except SynErr V)) (fl ms : Res V)
    (msgs : List Msg) : Prop :=
  (∃ b e, Source d f g fl ms (some b) ∧ runTransforms f.transforms b = .error e ∧
      msgs = e.toList) ∨
    (msgs = [] ∧ ∀ b e, Source d f g fl ms (some b) → runTransforms f.transforms b ≠ .error e)

/-- The messages of the transforms of a field of a structure with named fields. -/
abbrev TransformMsgs (d : Fields V) (allowed : List Str) (pre : Str) (span : Span) (l : List Stream)
    (bs : List (SItem V)) (f : Field V) (i : Nat) (ms : List Msg) : Prop :=
  TransMsgs d f (given i bs) (flatOut d.fields pre span allowed l f i)
    (f.item.missing (missingName d pre f) span) ms

/-- The messages of all fields, in declaration order. -/
def eachField (fields : List (Field V)) (g : Field V → Nat → List Msg) : List Msg :=
  (fields.zipIdx.map fun x => g x.1 x.2).flatten

end Deluxe
