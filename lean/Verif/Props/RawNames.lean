import Verif.Props.Defs
import Verif.Props.Structs
import Verif.Props.Forms
/-!
# Identifiers with and without `r#` (C115)

`r#x` and `x` are the same identifier in Rust.
-/
namespace Deluxe

/-- `r#x` for `x`. -/
def rawName (x : Str) : Str := 'r' :: '#' :: x

section
variable [Env]

/-- The field under another identifier. -/
def FieldDecl.called (d : FieldDecl) (ident : Option (Str × Span)) : FieldDecl := { d with ident := ident }

/-- The attributes do not rename or alias the field to its own name, with or without `r#`. -/
def NoOwnName (x : Str) (bs : List FieldAttr) : Prop := ∀ b ∈ bs, ∀ n, b.name? = some n → bareName n.1 ≠ x

/-- C115: a field declared as `r#x` is accepted and rejected like one declared as `x`, and has the same names, `x` if it is not
renamed, defaults, and so on.

Missing: attributes that rename the field to its own name, see `c115_own_violated`. -/
theorem c115_field_partial {lib : SynLib} {x : Str} {sp : Span} {attrs : List Attr} {ss : List Stream} {bs : List FieldAttr}
    (hx : bareName x = x) (hm : ListStreams (deluxeAttrs attrs) ss) (hi : ItemsAll (FieldSeg lib) ss bs)
    (hn : NoOwnName x bs) (d : FieldDecl) :
    FieldIn.read lib ⟨some (x, sp), attrs⟩ = .ok (d.called (some (x, sp))) ↔
      FieldIn.read lib ⟨some (rawName x, sp), attrs⟩ = .ok (d.called (some (rawName x, sp))) := by
  have hb : bareName (rawName x) = x := rfl
  have hd : declared ⟨some (rawName x, sp), attrs⟩ bs = (declared ⟨some (x, sp), attrs⟩ bs).called (some (rawName x, sp)) := by
    simp [declared, FieldDecl.called, hb, hx]
  have ok : FieldListOk ⟨some (x, sp), attrs⟩ bs ↔ FieldListOk ⟨some (rawName x, sp), attrs⟩ bs := by
    constructor
    · intro h
      refine ⟨h.once, (fun e => nomatch e), h.names, fun b hb' n hn' e => hn b hb' n hn' ?_⟩
      rw [← show rawName x = n.1 from Option.some.inj e, hb]
    · intro h
      refine ⟨h.once, (fun e => nomatch e), h.names, fun b hb' n hn' e => hn b hb' n hn' ?_⟩
      rw [← show x = n.1 from Option.some.inj e, hx]
  rw [c47_field hm hi, c47_field hm hi, ok, hd]
  refine and_congr Iff.rfl (and_congr Iff.rfl ⟨fun e => ?_, fun e => ?_⟩)
  · have := congrArg (FieldDecl.called · (some (rawName x, sp))) e
    exact this
  · have := congrArg (FieldDecl.called · (some (x, sp))) e
    exact this

/-- C115: a field that is not renamed or flattened is given under its name without `r#`, whichever way it is declared. -/
theorem c115_own_name {lib : SynLib} {f : FieldIn} {x : Str} {sp : Span} (hf : f.ident = some (x, sp)) {ss : List Stream}
    {bs : List FieldAttr} (hm : ListStreams (deluxeAttrs f.attrs) ss) (hi : ItemsAll (FieldSeg lib) ss bs)
    (hr : bs.findSome? FieldAttr.rename? = none) (hfl : bs.findSome? FieldAttr.flatten? = none) {d : FieldDecl}
    (h : f.read lib = .ok d) : d.idents.head? = some (bareName x, sp) := by
  obtain ⟨-, -, rfl⟩ := (c47_field hm hi d).1 h
  simp [declared, hr, hfl, hf]

/-- C115: a variant declared as `r#X` is accepted like one declared as `X`, and is chosen by the same names.

Missing: attributes that rename the variant to its own name. -/
theorem c115_variant_partial {lib : SynLib} {x : Str} {sp : Span} {v : VariantIn} {ss : List Stream}
    {bs : List VariantAttr} (hx : bareName x = x) (hm : ListStreams (deluxeAttrs v.attrs) ss) (hi : ItemsAll VariantSeg ss bs)
    (hn : ∀ b ∈ bs, ∀ n, b.name? = some n → bareName n.1 ≠ x) (d : VariantDecl) :
    VariantIn.read lib { v with ident := (x, sp) } = .ok { d with ident := (x, sp) } ↔
      VariantIn.read lib { v with ident := (rawName x, sp) } = .ok { d with ident := (rawName x, sp) } := by
  have hb : bareName (rawName x) = x := rfl
  have hd : ∀ ds, declaredVariant lib { v with ident := (rawName x, sp) } ds bs =
      { declaredVariant lib { v with ident := (x, sp) } ds bs with ident := (rawName x, sp) } := by
    intro ds
    simp [declaredVariant, hb, hx]
  have ok : ∀ ds, VariantListOk { v with ident := (x, sp) } ds bs ↔ VariantListOk { v with ident := (rawName x, sp) } ds bs := by
    intro ds
    constructor
    · intro h
      refine ⟨h.once, h.tuple, h.transparent, h.names, fun b hb' n hn' e => hn b hb' n hn' ?_⟩
      rw [show n.1 = rawName x from e, hb]
    · intro h
      refine ⟨h.once, h.tuple, h.transparent, h.names, fun b hb' n hn' e => hn b hb' n hn' ?_⟩
      rw [show n.1 = x from e, hx]
  have own : OwnNameOk lib { v with ident := (x, sp) } bs ↔ OwnNameOk lib { v with ident := (rawName x, sp) } bs := by
    simp only [OwnNameOk, hb, hx]
  rw [c48_variant (v := { v with ident := (x, sp) }) hm hi, c48_variant (v := { v with ident := (rawName x, sp) }) hm hi]
  constructor
  · rintro ⟨ds, h1, h2, h3, h4, h5, h6, h7⟩
    refine ⟨ds, h1, (ok ds).1 h2, own.1 h3, h4, h5, h6, ?_⟩
    rw [hd]
    exact congrArg (fun r : VariantDecl => { r with ident := (rawName x, sp) }) h7
  · rintro ⟨ds, h1, h2, h3, h4, h5, h6, h7⟩
    refine ⟨ds, h1, (ok ds).2 h2, own.2 h3, h4, h5, h6, ?_⟩
    rw [hd] at h7
    exact congrArg (fun r : VariantDecl => { r with ident := (x, sp) }) h7

/-! ## Where `r#` makes a difference -/

/-- `#[deluxe(rename = y)] x: ..` -/
def renamedIn (x y : Str) : FieldIn :=
  ⟨some (x, 1), [deluxeList [.ident (txt "rename") 2, .punct '=' false 3, .ident y 4]]⟩

/-- The code violates: `#[deluxe(rename = x)] x` is refused, since it is the own name of the field, but
`#[deluxe(rename = x)] r#x` and `#[deluxe(rename = r#x)] x` are accepted. -/
theorem c115_own_violated (lib : SynLib) :
    (∃ e, (renamedIn (txt "x") (txt "x")).read lib = .err e ∧ e.toList = [⟨2, ownNameText (txt "rename") (txt "field")⟩]) ∧
    (∃ d, (renamedIn (rawName (txt "x")) (txt "x")).read lib = .ok d ∧ d.idents = [(txt "x", 4)]) ∧
    (∃ d, (renamedIn (txt "x") (rawName (txt "x"))).read lib = .ok d ∧ d.idents = [(rawName (txt "x"), 4)]) :=
  ⟨⟨_, rfl, rfl⟩, ⟨_, rfl, rfl⟩, ⟨_, rfl, rfl⟩⟩

/-- The code violates: a key that is written as `r#n` does not mean the field `n`.  In a structure whose names are without `r#`, as
they are unless a field is renamed, it is unknown. -/
theorem c115_key_violated {V : Type} (d : StructDef V) (ha : d.Accepted) (ht : d.isTransparent = false)
    (hs : d.shape = .named) (hg : d.FieldsFine) (hall : d.acceptsAll = false) (n : Str)
    (hn : ∀ f ∈ d.fields, rawName n ∉ f.idents) (hk : rawName n ∉ Field.fieldNames d.fields) (name : Str)
    (sp ksp : Span) {vt : List Tok} (hv : NoComma vt) (hc : ¬StartsColon2 vt) (o c sc : Span) (rest : List Tok) (u : Option Span) :
    ∃ e cl at', ⟨at', .unknownField (rawName n) cl⟩ ∈ e.toList ∧
      (d.dict.named name sp ⟨.group .paren (.ident (rawName n) ksp :: vt) o c :: rest, sc, u⟩).1 = .err e := by
  have hno : ∀ f i, ¬Owns d.fields [] (keyString [rawName n]) f i := by
    rintro f i ⟨k, h1, h2, -, h3, -⟩
    refine hn f (List.mem_of_getElem? h2) ?_
    rwa [show rawName n = k from h1]
  have hi : Items (StructSeg d.fields []) c (.ident (rawName n) ksp :: vt) [.other (keyString [rawName n]) _] :=
    .last (by simp) (.other (.mk (pt := [.ident (rawName n) ksp]) (.plain (.one _ _)) hc) hno hv)
  obtain ⟨e, cl, h1, h2, -⟩ := c83_struct_unknown d ha ht hs hg hall name sp (o := o) (rest := rest) (sc := sc) (u := u) hi
    List.mem_cons_self hk
  exact ⟨e, cl, _, h1, h2⟩

/-- The code violates: the attributes of a variant are compared with its identifier, but the name it has is that in snake case.
So a variant `X` cannot be given the name `X`, which it does not have, by any attributes. -/
theorem c115_camel_violated {lib : SynLib} {v : VariantIn} {ss : List Stream} {bs : List VariantAttr}
    (hm : ListStreams (deluxeAttrs v.attrs) ss) (hi : ItemsAll VariantSeg ss bs)
    (hs : lib.snake (bareName v.ident.1) ≠ v.ident.1) {d : VariantDecl} (h : v.read lib = .ok d) :
    v.ident.1 ∉ d.idents.map (·.1) := by
  obtain ⟨ds, -, hok, -, -, -, -, rfl⟩ := (c48_variant hm hi d).1 h
  intro hmem
  obtain ⟨n, hn, e⟩ := List.mem_map.1 hmem
  rcases List.mem_append.1 hn with hn | hn
  · cases hr : bs.findSome? VariantAttr.rename? with
    | some m =>
      rw [hr] at hn
      obtain ⟨b, hb, hb'⟩ := List.exists_of_findSome?_eq_some hr
      cases List.mem_singleton.1 hn
      refine hok.own b hb n ?_ e
      cases b <;> simp_all [VariantAttr.rename?, VariantAttr.name?]
    | none =>
      rw [hr] at hn
      simp only at hn
      split at hn
      · cases hn
      · cases List.mem_singleton.1 hn
        exact hs e
  · obtain ⟨b, hb, hb'⟩ := List.mem_filterMap.1 hn
    refine hok.own b hb n ?_ e
    cases b <;> simp_all [VariantAttr.alias?, VariantAttr.name?]

/-- C115: `#[deluxe(rename = A)] A` is refused where the name of the variant would be `a`. -/
example : ∃ e, VariantIn.read { demoLib with snake := List.map Char.toLower }
    ⟨(txt "A", 1), 1, .unit, [], [deluxeList [.ident (txt "rename") 2, .punct '=' false 3, .ident (txt "A") 4]]⟩ = .err e ∧
    e.toList = [⟨2, ownNameText (txt "rename") (txt "variant")⟩] := ⟨_, rfl, rfl⟩

/-- C115: `#[deluxe(alias = B)] A` has the names `a` and `B`, as `c115_camel_violated` allows. -/
example : ∃ d, VariantIn.read { demoLib with snake := List.map Char.toLower }
    ⟨(txt "A", 1), 1, .unit, [], [deluxeList [.ident (txt "alias") 2, .punct '=' false 3, .ident (txt "B") 4]]⟩ = .ok d ∧
    d.idents = [(txt "a", 1), (txt "B", 4)] := ⟨_, rfl, rfl⟩

/-- C115: `type: T`, which has to be written as `r#type`, is called `type`. -/
example : ∃ d, FieldIn.read demoLib ⟨some (rawName (txt "type"), 1), []⟩ = .ok d ∧ d.idents = [(txt "type", 1)] ∧
    FieldIn.read demoLib ⟨some (txt "type", 1), []⟩ = .ok (d.called (some (txt "type", 1))) := by
  refine ⟨_, rfl, rfl, ?_⟩
  exact (c115_field_partial (x := txt "type") (attrs := []) rfl .nil .nil (by simp [NoOwnName]) _).2 rfl

/-- C115: `A` and `r#A`. -/
example (d : VariantDecl) :
    VariantIn.read demoLib ⟨(txt "A", 1), 1, .unit, [], []⟩ = .ok { d with ident := (txt "A", 1) } ↔
      VariantIn.read demoLib ⟨(rawName (txt "A"), 1), 1, .unit, [], []⟩ = .ok { d with ident := (rawName (txt "A"), 1) } :=
  c115_variant_partial (v := ⟨(txt "A", 1), 1, .unit, [], []⟩) rfl .nil .nil (by simp) d

/-- `d(r#a = true)` for `demoDef` of C30, which has a field `a`. -/
example : ∃ e cl at', ⟨at', .unknownField (rawName (txt "a")) cl⟩ ∈ e.toList ∧
    (demoDef.dict.named (txt "d") 0 ⟨[.group .paren [.ident (rawName (txt "a")) 5, .punct '=' false 6,
      .ident (txt "true") 7] 8 9], 10, none⟩).1 = .err e :=
  c115_key_violated demoDef ⟨demo_accepted, by simp [demoDef, StructDef.isTransparent], by simp [demoDef]⟩ rfl rfl
    demoDef_fine rfl (txt "a") (by decide) (by decide) _ _ _ (by simp [NoComma, Comma]) (by simp [StartsColon2]) _ _ _ _ _

end
end Deluxe
