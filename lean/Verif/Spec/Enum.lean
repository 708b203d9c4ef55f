import Verif.Model.Enum
import Verif.Spec.Struct
/-!
# Specification vocabulary: the items of a derived enum
-/
namespace Deluxe

variable {V : Type}

/-- A variant that is selected by its own name: neither flattened nor skipped. -/
def Variant.ByName (v : Variant V) : Prop := v.isFlatten = false ∧ v.isSkipped = false

/-- `v`, at position `i`, is the variant selected by this key: the key is the prefix and a name `k` of `v`,
and no earlier variant has that name. -/
def Selects (vs : List (Variant V)) (pre key k : Str) (v : Variant V) (i : Nat) : Prop :=
  key = pre ++ k ∧ vs[i]? = some v ∧ v.ByName ∧ k ∈ v.idents ∧
    ∀ j w, j < i → vs[j]? = some w → w.ByName → k ∉ w.idents

/-- An item of an enum: the name `k` of the variant `i` with a value that reads as `x`, or something
else. -/
inductive EItem (V : Type)
  | variant (i : Nat) (k : Str) (sp : Span) (x : Except SynErr (List V))
  | other (key : Str) (sp : Span)

/-- The tokens `v` are an item: the key of a variant, then tokens without comma that the variant reads as
`x`; or a key of no variant, then any tokens without comma. -/
inductive EnumSeg [Env] (e : EnumDef V) (site : Site V) (pre : Str) (v rest : List Tok) (sc : Span) :
    EItem V → Prop
  | variant {segs sp vt w k i x} : KeyToks segs sp v vt → Selects e.variants pre (keyString segs) k w i →
      NoComma vt → ReadsAs (w.item site pre (keyString segs) sp) vt rest sc x →
      EnumSeg e site pre v rest sc (.variant i k sp x)
  | other {segs sp vt} : KeyToks segs sp v vt →
      (∀ k w i, ¬ Selects e.variants pre (keyString segs) k w i) → NoComma vt →
      EnumSeg e site pre v rest sc (.other (keyString segs) sp)

/-- The items that name a variant: its position, the name used, where, and what the value reads as. -/
def named : List (EItem V) → List (Nat × Str × Span × Except SynErr (List V))
  | [] => []
  | .variant i k sp x :: bs => (i, k, sp, x) :: named bs
  | .other _ _ :: bs => named bs

/-- The messages about the items: each variant after the first is one too many, each failing value has
its messages. `first` is the name of the first variant so far. -/
def variantMsgs (pre : Str) : Option Str → List (EItem V) → List Msg
  | _, [] => []
  | first, .variant _ k sp x :: bs =>
    (match first with
      | some a => [⟨sp, .onlyOneVariant (joinPath pre a) (joinPath pre k)⟩]
      | none => []) ++
    (match x with | .error e => e.toList | .ok _ => []) ++ variantMsgs pre (some (first.getD k)) bs
  | first, .other _ _ :: bs => variantMsgs pre first bs

/-- The keys of the items, without the prefix, in order; items without the prefix are left out. -/
def seenKeys (pre : Str) : List (EItem V) → List (Str × Span)
  | [] => []
  | .variant _ k sp _ :: bs => (k, sp) :: seenKeys pre bs
  | .other key sp :: bs =>
    (if pre <+: key then [(key.drop pre.length, sp)] else []) ++ seenKeys pre bs

/-- The keys of all items, in order. -/
def allKeys (pre : Str) (bs : List (EItem V)) : List (Str × Span) :=
  bs.map fun b => match b with
    | .variant _ k sp _ => (pre ++ k, sp)
    | .other key sp => (key, sp)

/-- The messages of the keys that are not allowed, if keys are checked. -/
def checkMsgs [Env] (check : Bool) (allowed : List Str) (ks : List (Str × Span)) : List Msg :=
  ks.flatMap fun k => unknownMsgs check allowed k.1 k.2

/-- Functions from left to right, up to the first failure. -/
def runThens {α : Type} : List (α → Except SynErr α) → α → Except SynErr α
  | [], x => .ok x
  | f :: fs, x =>
    match f x with
    | .ok y => runThens fs y
    | .error e => .error e

/-- The outcome for a variant with fields `x`, if the messages are `msgs`: the `and_then` functions are
applied; a failure among them adds its messages. -/
def Finishes (e : EnumDef V) (x : EnumVal V) (msgs : List Msg) (out : Res (EnumVal V)) : Prop :=
  match runThens e.andThens x with
  | .ok y => Collects out y msgs
  | .error err => FailsWith out (msgs ++ err.toList)

/-- Where the key occurs last. -/
def lastSpan (ks : List (Str × Span)) (k : Str) : Option Span :=
  (ks.filter (·.1 = k)).getLast?.map (·.2)

/-- The keys of the fields of a flattened variant. -/
def Variant.spelled (v : Variant V) : List Str :=
  if v.isFlatten then
    v.fields.flatMap fun f =>
      match f.flatten with
      | some ⟨true, p⟩ => f.flatNamed.fieldNames.map (joinPath (p.getD []))
      | _ => f.idents
  else []

/-- One message for each key of a flattened variant, other than the one at position `skip`, that is
there. -/
def otherMsgs (e : EnumDef V) (skip : Option Nat) (cur : Str) (span : Str → Option Span) : List Msg :=
  (e.variants.zipIdx.flatMap fun x => if some x.2 = skip then [] else x.1.spelled).filterMap fun n =>
    (span n).map fun sp => ⟨sp, .notAllowedWith n cur⟩

/-- The outcome for a flattened variant at position `i`, if its fields parse to `r`. -/
def FlatOut (e : EnumDef V) (i : Nat) (r : Res (List V)) (extra : List Msg) (out : Res (EnumVal V)) :
    Prop :=
  match r with
  | .ok x => Finishes e (i, x) extra out
  | .err err => FailsWith out (err.toList ++ extra)
  | .panic => False

/-- The messages about keys of other flattened variants beside the flattened variant `v`.  They are only
given if `v` itself takes any key. -/
def Variant.extraMsgs (v : Variant V) (e : EnumDef V) (i : Nat) (ks : List (Str × Span)) : List Msg :=
  if v.acceptsAll && !v.allowUnknown.getD false && !e.unknownOk then
    otherMsgs e (some i) v.ident fun n => if n ∈ v.spelled then none else lastSpan ks n
  else []

/-- A field that must be given: it is read from an item of its own and has no default. -/
def Field.Required (f : Field V) : Prop :=
  f.isFlat = false ∧ f.isParsable = true ∧ f.default = none

/-- Each required field of the variant has one of the given keys. -/
def Variant.Present (v : Variant V) (keys : List Str) : Prop :=
  ∀ f ∈ v.fields, f.Required → f.idents ≠ [] → ∃ k ∈ f.idents, k ∈ keys

/-- The variant has no required field. -/
def Variant.Keyless (v : Variant V) : Prop := ∀ f ∈ v.fields, f.Required → f.idents = []

/-- A variant that is selected by the keys of its fields. -/
def Variant.ByFields (v : Variant V) : Prop := v.isFlatten = true ∧ v.isSkipped = false

/-- The required fields of the two variants have the same names. -/
def Variant.SameKey (v w : Variant V) : Prop :=
  ∀ names : Str → Prop,
    (∃ f ∈ v.fields, f.Required ∧ f.idents ≠ [] ∧ ∀ n, names n ↔ n ∈ f.idents) ↔
    (∃ f ∈ w.fields, f.Required ∧ f.idents ≠ [] ∧ ∀ n, names n ↔ n ∈ f.idents)

/-- No two flattened variants have the same key. -/
def EnumDef.DistinctKeys (e : EnumDef V) : Prop :=
  ∀ (i j : Nat) v w, e.variants[i]? = some v → e.variants[j]? = some w → v.ByFields → w.ByFields →
    v.SameKey w → i = j

/-- The flattened variant at position `i` has required fields, and all of them are given. -/
structure Applies (e : EnumDef V) (keys : List Str) (i : Nat) (v : Variant V) : Prop where
  at_ : e.variants[i]? = some v
  flat : v.ByFields
  required : ¬ v.Keyless
  present : v.Present keys

end Deluxe
