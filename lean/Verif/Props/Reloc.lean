import Verif.Lemmas.RelocAttrs
import Verif.Lemmas.RelocTypes
import Verif.Props.Primitives
/-!
# C109: What is read does not depend on where it is written

A type is a family of implementations, one for each `Env`: it may join locations as the compiler in use allows.  `w f`
is the value with other locations.
-/
namespace Deluxe

/-- All provided types, derived structures and enums, and the `with` modules, in any combination.  Node parsers and user
functions come with the assumption that they do not look at locations; the keys of sets and maps carry none. -/
inductive LocType : {α : Type} → ((Span → Span) → α → α) → (Env → Dict α) → Prop
  | int {α} (conv : Bool × Nat → Option α) : LocType (fun _ => id) fun _ => intDict conv
  | u8 : LocType (fun _ => id) fun _ => u8Dict
  | bool : LocType (fun _ => id) fun _ => boolDict
  | char : LocType (fun _ => id) fun _ => charDict
  | string : LocType (fun _ => id) fun _ => stringDict
  | ident : LocType (fun _ => id) fun _ => identDict
  | tokenTree : LocType Tok.reloc fun _ => tokenTreeDict
  | literal : LocType (fun _ => id) fun _ => literalDict
  | punct : LocType (fun _ => id) fun _ => punctDict
  | group : LocType (fun f => Prod.map id (Tok.relocs f)) fun _ => groupDict
  | unit : LocType (fun _ => id) fun _ => unitDict
  | tokenStream : LocType Tok.relocs fun _ => tokenStreamDict
  | flag : LocType (fun f => Option.map f) fun E => @flagDict E
  | syn {α} (w : (Span → Span) → α → α) (p : M Stream α) : (∀ f, f callSite = callSite → RelocS f (w f) p p) →
      LocType w fun _ => synDict p
  | synParen {α} (w : (Span → Span) → α → α) (p : M Stream α) : (∀ f, f callSite = callSite → RelocS f (w f) p p) →
      LocType w fun _ => synParenDict p
  | option {α} {w : (Span → Span) → α → α} {T : Env → Dict α} : LocType w T →
      LocType (fun f => Option.map (w f)) fun E => optionDict (T E)
  | wrapper {α} {w : (Span → Span) → α → α} {T : Env → Dict α} : LocType w T → LocType w fun E => wrapperDict (T E)
  | spanned {α} {w : (Span → Span) → α → α} {T : Env → Dict α} : LocType w T →
      LocType (fun f => Spanned.reloc f (w f)) fun E => @spannedDict E α (T E)
  | array {α} {w : (Span → Span) → α → α} {T : Env → Dict α} (n : Nat) : LocType w T →
      LocType (fun f => List.map (w f)) fun E => @arrayDict E α n (T E)
  | tuple {α} {w : (Span → Span) → α → α} {Ts : List (Env → Dict α)} : (∀ T ∈ Ts, LocType w T) →
      LocType (fun f => List.map (w f)) fun E => @tupleDict E α (Ts.map (· E))
  | seq {α} {w : (Span → Span) → α → α} {T : Env → Dict α} : LocType w T →
      LocType (fun f => List.map (w f)) fun E => seqDict (T E)
  | set {α} [DecidableEq α] {w : (Span → Span) → α → α} {T : Env → Dict α} : (∀ f a b, w f a = w f b → a = b) →
      LocType w T → LocType (fun f => List.map (w f)) fun E => @setDict E α _ (T E)
  | map {κ ν} [DecidableEq κ] (ks : κ → Str) {w : (Span → Span) → κ → κ} {u : (Span → Span) → ν → ν}
      {K : Env → Dict κ} {T : Env → Dict ν} : (∀ f a b, w f a = w f b → a = b) → (∀ f a, ks (w f a) = ks a) →
      LocType w K → LocType u T →
      LocType (fun f => List.map (Prod.map (w f) (u f))) fun E => @mapDict E κ ν _ (K E) ks (T E)
  | punctuated {α} {w : (Span → Span) → α → α} {T : Env → Dict α} (peekP : Stream → Bool) (parseP : M Stream Unit) :
      (∀ f s, peekP (Stream.reloc f s) = peekP s) → (∀ f, RelocS f id parseP parseP) → LocType w T →
      LocType (fun f => List.map (w f)) fun E => punctuatedDict (T E) peekP parseP
  | fromStr {α} (conv : Str → Except Str α) : LocType (fun _ => id) fun _ => fromStrDict conv
  | fromStrDefault {α} (conv : Str → Except Str α) (dflt : α) : LocType (fun _ => id) fun _ => fromStrDefaultDict conv dflt
  | modPath {α} (w : (Span → Span) → α → α) (p : M Stream α) : (∀ f, f callSite = callSite → RelocS f (w f) p p) →
      LocType w fun _ => modPathDict p
  | anyPath : LocType Path.reloc fun E => @anyPathDict E
  | quoted {α} {w : (Span → Span) → α → α} {T : Env → Dict α} (lex : Str → Except SynErr (List Tok)) :
      (∀ f, f callSite = callSite → LexReloc f lex lex) → LocType w T → LocType w fun E => quotedDict lex (T E)
  | maybeQuoted {α} {w : (Span → Span) → α → α} {T : Env → Dict α} (lex : Str → Except SynErr (List Tok)) :
      (∀ f, f callSite = callSite → LexReloc f lex lex) → LocType w T → LocType w fun E => maybeQuotedDict lex (T E)
  | withSyn {α} (w : (Span → Span) → α → α) (p : M Stream α) : (∀ f, f callSite = callSite → RelocS f (w f) p p) →
      LocType w fun _ => withSynDict p
  | synQuoted {α} (w : (Span → Span) → α → α) (lex : Str → Except SynErr (List Tok)) (p : M Stream α) :
      (∀ f, f callSite = callSite → LexReloc f lex lex) → (∀ f, f callSite = callSite → RelocS f (w f) p p) →
      LocType w fun _ => synQuotedDict lex p
  | identity {α} {w : (Span → Span) → α → α} {T : Env → Dict α} : LocType w T → LocType w fun E => identityDict (T E)
  | withOptional {α} {w : (Span → Span) → α → α} {T : Env → Dict α} : LocType w T →
      LocType (fun f => Option.map (w f)) fun E => withOptional (T E)
  | withSeq {α} {w : (Span → Span) → α → α} {T : Env → Dict α} : LocType w T →
      LocType (fun f => List.map (w f)) fun E => withSeq (T E)
  | withMap {κ ν} [DecidableEq κ] (ks : κ → Str) {w : (Span → Span) → κ → κ} {u : (Span → Span) → ν → ν}
      {K : Env → Dict κ} {T : Env → Dict ν} : (∀ f a b, w f a = w f b → a = b) → (∀ f a, ks (w f a) = ks a) →
      LocType w K → LocType u T →
      LocType (fun f => List.map (Prod.map (w f) (u f))) fun E => @withMap E κ ν _ (K E) ks (T E)
  | struct {V} {w : (Span → Span) → V → V} (d : Env → StructDef V) :
      (∀ E E' f, Relocates E E' f → (d E).Reloc f (w f) (d E')) →
      LocType (fun f => List.map (w f)) fun E => @StructDef.dict V E (d E)
  | enum {V} {w : (Span → Span) → V → V} (e : Env → EnumDef V) :
      (∀ E E' f, Relocates E E' f → (e E).Reloc f (w f) (e E')) →
      LocType (fun f => Prod.map id (List.map (w f))) fun E => @EnumDef.dict V E (e E)
  | embed {α β} {w : (Span → Span) → α → α} {u : (Span → Span) → β → β} {T : Env → Dict α} (g : α → β) :
      (∀ f x, g (w f x) = u f (g x)) → LocType w T → LocType u fun E => (T E).map g

theorem All2.of_map {α β γ : Type} {P : β → γ → Prop} {l : List α} {g : α → β} {h : α → γ}
    (H : ∀ a ∈ l, P (g a) (h a)) : All2 P (l.map g) (l.map h) := by
  induction l with
  | nil => exact trivial
  | cons a l ih => exact ⟨H a (List.mem_cons_self ..), ih fun b hb => H b (List.mem_cons_of_mem _ hb)⟩

/-- **C109.**  Every type does with other locations what it does: the same value with the other locations in it, the
same messages at the other locations, and it stops at the same token. -/
theorem c109_every_type {α : Type} {w : (Span → Span) → α → α} {T : Env → Dict α} (h : LocType w T) {E E' : Env}
    {f : Span → Span} (R : Relocates E E' f) : (T E).Reloc f (w f) (T E') := by
  have hs := R.site
  induction h with
  | int conv => exact intDict_reloc hs conv
  | u8 => exact u8Dict_reloc hs
  | bool => exact boolDict_reloc hs
  | char => exact charDict_reloc hs
  | string => exact stringDict_reloc hs
  | ident => exact identDict_reloc hs
  | tokenTree => exact tokenTreeDict_reloc hs
  | literal => exact literalDict_reloc hs
  | punct => exact punctDict_reloc hs
  | group => exact groupDict_reloc hs
  | unit => exact unitDict_reloc
  | tokenStream => exact tokenStreamDict_reloc hs
  | flag => exact flagDict_reloc R
  | syn w p h => exact synDict_reloc hs (h f hs)
  | synParen w p h => exact synParenDict_reloc hs (h f hs)
  | option _ ih => exact optionDict_reloc hs ih
  | wrapper _ ih => exact wrapperDict_reloc hs ih
  | spanned _ ih => exact spannedDict_reloc R ih
  | array n _ ih => exact arrayDict_reloc R n ih
  | tuple _ ih => exact tupleDict_reloc R (All2.of_map ih)
  | seq _ ih => exact seqDict_reloc ih
  | set hi _ ih => exact setDict_reloc R (hi f) ih
  | map ks hi hk _ _ ih ih' => exact mapDict_reloc R (hi f) (hk f) ih ih'
  | punctuated a b ha hb _ ih => exact punctuatedDict_reloc (ha f) (hb f) ih
  | fromStr conv => exact fromStrDict_reloc hs conv
  | fromStrDefault conv d => exact fromStrDefaultDict_reloc hs conv d
  | modPath w p h => exact modPathDict_reloc hs (h f hs)
  | anyPath => exact anyPathDict_reloc hs R
  | quoted lex hl _ ih => exact quotedDict_reloc hs (hl f hs) ih
  | maybeQuoted lex hl _ ih => exact maybeQuotedDict_reloc hs (hl f hs) ih
  | withSyn w p h => exact withSynDict_reloc hs (h f hs)
  | synQuoted w lex p hl h => exact synQuotedDict_reloc hs (hl f hs) (h f hs)
  | identity _ ih => exact identityDict_reloc ih
  | withOptional _ ih => exact withOptional_reloc hs ih
  | withSeq _ ih => exact withSeq_reloc hs ih
  | withMap ks hi hk _ _ ih ih' => exact withMap_reloc R (hi f) (hk f) ih ih'
  | struct d h => exact (h E E' f R).dict R
  | enum e h => exact (h E E' f R).dict R
  | embed g hg _ ih => exact ih.map (hg f)

/-! ## The text alone decides -/

/-- All locations forgotten. -/
def nowhere : Span → Span := fun _ => callSite

/-- The world that joins no locations, as on a stable compiler. -/
@[instance_reducible] def stable (E : Env) : Env := { E with join := fun _ _ => none }

theorem stable_relocates (E : Env) : Relocates E (stable E) nowhere := ⟨rfl, fun _ _ _ => rfl, rfl, rfl⟩

theorem stable_eq {E E' : Env} (h1 : E'.sim = E.sim) (h2 : E'.simMin = E.simMin) : stable E' = stable E := by
  simp only [stable, h1, h2]

/-- The same tokens, wherever they are. -/
def Stream.SameText (s s' : Stream) : Prop := s.reloc nowhere = s'.reloc nowhere

/-- The same in all but locations. -/
def Res.SameText {α : Type} (w : (Span → Span) → α → α) (r r' : Res α) : Prop :=
  r.reloc nowhere (w nowhere) = r'.reloc nowhere (w nowhere)

section
variable {α : Type} {w : (Span → Span) → α → α} {T : Env → Dict α} (h : LocType w T) {E E' : Env}
  (h1 : E'.sim = E.sim) (h2 : E'.simMin = E.simMin)
include h h1 h2

/-- **C109.**  Two inputs with the same text, whatever their locations and whatever the compiler can join: the same
value, or the same messages, up to locations; and the same tokens remain. -/
theorem c109_text_parse {m m' : Mode} (hm : m.reloc nowhere = m'.reloc nowhere) {s s' : Stream} (hs : s.SameText s') :
    ((T E).parse m s).1.SameText w ((T E').parse m' s').1 ∧ ((T E).parse m s).2.SameText ((T E').parse m' s').2 := by
  have a := (c109_every_type h (stable_relocates E)).parse m s
  have b := (c109_every_type h (stable_relocates E')).parse m' s'
  rw [stable_eq h1 h2, ← hm, ← hs, a] at b
  exact ⟨congrArg Prod.fst b, congrArg Prod.snd b⟩

theorem c109_text_named (n : Str) {sp sp' : Span} {s s' : Stream} (hs : s.SameText s') :
    ((T E).named n sp s).1.SameText w ((T E').named n sp' s').1 ∧
      ((T E).named n sp s).2.SameText ((T E').named n sp' s').2 := by
  have a := (c109_every_type h (stable_relocates E)).named n sp s
  have b := (c109_every_type h (stable_relocates E')).named n sp' s'
  have e : nowhere sp' = nowhere sp := rfl
  rw [stable_eq h1 h2, ← hs, e, a] at b
  exact ⟨congrArg Prod.fst b, congrArg Prod.snd b⟩

theorem c109_text_inline {m m' : Mode} (hm : m.reloc nowhere = m'.reloc nowhere) {l l' : List Stream}
    (hl : l.map (Stream.reloc nowhere) = l'.map (Stream.reloc nowhere)) :
    ((T E).inline m l).1.SameText w ((T E').inline m' l').1 := by
  have a := (c109_every_type h (stable_relocates E)).inline m l
  have b := (c109_every_type h (stable_relocates E')).inline m' l'
  rw [stable_eq h1 h2, ← hm, ← hl, a] at b
  exact congrArg Prod.fst b

/-- An item without value, and one that is missing. -/
theorem c109_text_absent (n : Str) (sp sp' : Span) :
    ((T E).flag sp).SameText w ((T E').flag sp') ∧ ((T E).missing n sp).SameText w ((T E').missing n sp') := by
  have a := c109_every_type h (stable_relocates E)
  have b := c109_every_type h (stable_relocates E')
  rw [stable_eq h1 h2] at b
  exact ⟨(a.flag sp).symm.trans (b.flag sp'), (a.missing n sp).symm.trans (b.missing n sp')⟩

/-- An input is accepted, whether its text is written or comes from another macro. -/
theorem c109_accepted (m : Mode) {s s' : Stream} (hs : s.SameText s') :
    ((T E).parse m s).1.isOk = ((T E').parse m s').1.isOk := by
  have := congrArg Res.isOk (c109_text_parse h h1 h2 (m := m) rfl hs).1
  simpa using this

end

/-- The texts of messages, without locations. -/
def SynErr.placelessTexts (e : SynErr) : List Text := e.toList.map fun m => m.text.reloc nowhere

/-- What `SameText` says of values without locations. -/
theorem c109_plain_value {α : Type} {r r' : Res α} (h : Res.SameText (fun _ => id) r r') :
    (∀ a, r = .ok a ↔ r' = .ok a) ∧ (∀ e e', r = .err e → r' = .err e' → e.placelessTexts = e'.placelessTexts) ∧
      (r = .panic ↔ r' = .panic) := by
  cases r <;> cases r' <;> simp_all [Res.SameText, Res.reloc]
  rename_i e e'
  have := congrArg (fun e => e.toList.map Msg.text) h
  simpa [SynErr.reloc_toList, SynErr.placelessTexts, Function.comp_def, Msg.reloc] using this

/-! ## Attributes -/

section
variable {V W α β O O' : Type} {v : V → W} {u : α → β} {f : Span → Span}

/-- A target of the attribute derives whose code does not look at locations. -/
def AttrTarget.Reloc (f : Span → Span) (v : V → W) (u : α → β) (t : AttrTarget V α) (t' : AttrTarget W β) : Prop :=
  t'.attributes = t.attributes ∧
    ∀ (site : Site V) (site' : Site W), site.Reloc v site' → ∀ m, RelocL f u (t.body site m) (t'.body site' (m.reloc f))

/-- **C109.**  The attribute derives: structures. -/
theorem c109_struct_target {d : StructDef V} {d' : StructDef W} (h : d.Reloc f v d') {E E' : Env} (R : Relocates E E' f)
    (attributes : List (List Str)) :
    (@StructDef.attrTarget V E d attributes).Reloc f v (List.map v) (@StructDef.attrTarget W E' d' attributes) :=
  ⟨rfl, fun _ _ hs m => h.attrBody R hs m⟩

/-- Enums. -/
theorem c109_enum_target {e : EnumDef V} {e' : EnumDef W} (h : e.Reloc f v e') {E E' : Env} (R : Relocates E E' f)
    (attributes : List (List Str)) :
    (@EnumDef.attrTarget V E e attributes).Reloc f v (relocEnumVal v) (@EnumDef.attrTarget W E' e' attributes) :=
  ⟨rfl, fun _ _ hs m => h.attrBody R hs m⟩

variable {t : AttrTarget V α} {t' : AttrTarget W β} (ht : t.Reloc f v u t') (hc : f callSite = callSite)
  {h : HasAttrs O} {h' : HasAttrs O'} {container : O → V} {container' : O' → W} {o : O} {o' : O'}
include ht hc

/-- `parse_attributes` on an object whose attributes are the same but for their locations. -/
theorem c109_parse_attributes (ho : h'.attrs o' = (h.attrs o).map (Attr.reloc f))
    (hv : container' o' = v (container o)) :
    t'.parseAttributes h' container' o' = (t.parseAttributes h container o).reloc f u := by
  have hm : t'.matches_ = t.matches_ := by
    funext p
    simp only [AttrTarget.matches_, ht.1]
  simp only [AttrTarget.parseAttributes, hm, ho, refTokens_reloc hc (t.matches_reloc (f := f)), hv]
  exact parseStructAttrTokens_reloc hc (AttrTarget.func_reloc hc ht.1 ht.2 _) _

/-- `extract_attributes`: also, the same attributes remain. -/
theorem c109_extract_attributes {put : List Attr → O} {put' : List Attr → O'} {attrs : List Attr}
    (ho : h.attrsMut o = .ok (attrs, put)) (ho' : h'.attrsMut o' = .ok (attrs.map (Attr.reloc f), put'))
    (hv : ∀ l, container' (put' (l.map (Attr.reloc f))) = v (container (put l))) :
    ∃ rest, (t.extractAttributes h container o).2 = put rest ∧
      t'.extractAttributes h' container' o' =
        ((t.extractAttributes h container o).1.reloc f u, put' (rest.map (Attr.reloc f))) := by
  have hm : t'.matches_ = t.matches_ := by
    funext p
    simp only [AttrTarget.matches_, ht.1]
  refine ⟨(takeTokens t.matches_ attrs).2, by simp only [AttrTarget.extractAttributes, ho], ?_⟩
  simp only [AttrTarget.extractAttributes, ho, ho', hm, takeTokens_reloc hc (t.matches_reloc (f := f)), Prod.map_fst,
    Prod.map_snd, hv]
  refine congrArg (·, _) ?_
  exact parseStructAttrTokens_reloc hc (AttrTarget.func_reloc hc ht.1 ht.2 _) _

end

/-- **C109.**  The outcome of `parse_attributes` is decided by the text of the attributes. -/
theorem c109_text_attributes {V α O : Type} {w : (Span → Span) → V → V} {u : (Span → Span) → α → α}
    {t : Env → AttrTarget V α} (ht : ∀ E E' f, Relocates E E' f → (t E).Reloc f (w f) (u f) (t E'))
    {E E' : Env} (h1 : E'.sim = E.sim) (h2 : E'.simMin = E.simMin) {h : HasAttrs O} {container : O → V} {o o' : O}
    (ho : (h.attrs o).map (Attr.reloc nowhere) = (h.attrs o').map (Attr.reloc nowhere))
    (hv : w nowhere (container o) = w nowhere (container o')) :
    ((t E).parseAttributes h container o).SameText u ((t E').parseAttributes h container o') := by
  have a := ht _ _ _ (stable_relocates E)
  have b := ht _ _ _ (stable_relocates E')
  rw [stable_eq h1 h2] at b
  have x := c109_parse_attributes (h := h) (h' := HasAttrs.vec) (container := container)
    (container' := fun _ => w nowhere (container o)) (o := o) (o' := (h.attrs o).map (Attr.reloc nowhere)) a rfl rfl rfl
  have y := c109_parse_attributes (h := h) (h' := HasAttrs.vec) (container := container)
    (container' := fun _ => w nowhere (container o)) (o := o') (o' := (h.attrs o).map (Attr.reloc nowhere)) b rfl
    (by rw [ho]; rfl) hv
  exact x.symm.trans y

/-! ## The other traits of derived types -/

section
variable {V W : Type} {v : V → W} {f : Span → Span} {E E' : Env} (R : Relocates E E' f)
include R

/-- Flattened structures and enums. -/
theorem c109_flat {d : StructDef V} {d' : StructDef W} (h : d.Reloc f v d') {e : EnumDef V} {e' : EnumDef W}
    (he : e.Reloc f v e') :
    (@StructDef.flatNamed V E d).Reloc f (List.map v) (@StructDef.flatNamed W E' d') ∧
    (@StructDef.flatUnnamed V E d).Reloc f (List.map v) (@StructDef.flatUnnamed W E' d') ∧
    (@EnumDef.flatNamed V E e).Reloc f (Prod.map id (List.map v)) (@EnumDef.flatNamed W E' e') ∧
    (@EnumDef.flatUnnamed V E e).Reloc f (Prod.map id (List.map v)) (@EnumDef.flatUnnamed W E' e') :=
  ⟨h.flatNamed R, h.flatUnnamed R, he.flatNamed R, he.flatUnnamed R⟩

/-- The traits of transparent structures. -/
theorem c109_transparent {d : StructDef V} {d' : StructDef W} (h : d.Reloc f v d') (o : TransparentOpts) :
    OptRel (FlatNamed.Reloc f (List.map v)) (@StructDef.implFlatNamed V E d o) (@StructDef.implFlatNamed W E' d' o) ∧
    OptRel (FlatUnnamed.Reloc f (List.map v)) (@StructDef.implFlatUnnamed V E d o)
      (@StructDef.implFlatUnnamed W E' d' o) ∧
    OptRel (fun p q => ∀ x, RelocL f (List.map v) (p x) (q x)) (d.implRest o) (d'.implRest o) ∧
    OptRel (fun p q => ∀ x, RelocL f (List.map v) (p x) (q x)) (d.implAppend o) (d'.implAppend o) :=
  ⟨h.implFlatNamed R o, h.implFlatUnnamed R o, h.implRest R.site o, h.implAppend R.site o⟩

end

/-! ## A structure with locations in its values -/

/-- A value of a field: a flag or a located `bool`. -/
abbrev LocVal := Option Span ⊕ Spanned Bool

def LocVal.reloc (f : Span → Span) : LocVal → LocVal := Sum.map (Option.map f) (Spanned.reloc f id)

/-- A field `name` without options. -/
def locField (name : String) (item : Dict LocVal) : Field LocVal :=
  ⟨some name.toList, [name.toList], none, none, none, none, none, none, [], item, ⟨false, [], fun _ _ _ => M.panic⟩,
    ⟨none, fun _ _ => M.panic⟩, fun _ => M.panic, fun _ => M.panic⟩

theorem locField_reloc (name : String) {f : Span → Span} {d d' : Dict LocVal} (h : d.Reloc f (LocVal.reloc f) d') :
    (locField name d).Reloc f (LocVal.reloc f) (locField name d') :=
  ⟨rfl, rfl, rfl, rfl, rfl, rfl, rfl, rfl, trivial, h, ⟨rfl, rfl, fun _ _ _ => RelocM.panic⟩,
    ⟨rfl, fun _ _ => RelocM.panic⟩, fun _ => RelocM.panic, fun _ => RelocM.panic⟩

/-- `struct S { verbose: Flag, on: SpannedValue<bool> }` -/
def locStruct (E : Env) : StructDef LocVal :=
  ⟨.named, [locField "verbose" ((@flagDict E).map .inl), locField "on" ((@spannedDict E Bool boolDict).map .inr)],
    none, none, none, []⟩

theorem locStruct_reloc (E E' : Env) (f : Span → Span) (R : Relocates E E' f) :
    (locStruct E).Reloc f (LocVal.reloc f) (locStruct E') :=
  ⟨rfl, ⟨locField_reloc _ ((flagDict_reloc R).map fun _ => rfl),
    locField_reloc _ ((spannedDict_reloc R (boolDict_reloc R.site)).map fun _ => rfl), trivial⟩, rfl, rfl, rfl, trivial⟩

/-- `Vec<Option<S>>` is one of the types. -/
example : LocType (fun f => List.map (Option.map (List.map (LocVal.reloc f))))
    fun E => seqDict (optionDict (@StructDef.dict _ E (locStruct E))) :=
  .seq (.option (.struct locStruct locStruct_reloc))

/-- Positions are moved by any monotone map that keeps the call site. -/
theorem positions_moved {f : Span → Span} (h0 : f callSite = callSite) (hf : ∀ a b, a ≤ b → f a ≤ f b) :
    Relocates positions positions f := by
  refine ⟨h0, fun a b c => ?_, rfl, rfl⟩
  show max (f a) (f b) = f (max a b)
  rcases Nat.le_total a b with h | h
  · rw [Nat.max_eq_right h, Nat.max_eq_right (hf a b h)]
  · rw [Nat.max_eq_left h, Nat.max_eq_left (hf b a h)]

/-- Text that starts `k` positions later. -/
def later (k : Nat) : Span → Span := fun n => if n = callSite then callSite else n + k

theorem later_moved (k : Nat) : Relocates positions positions (later k) :=
  positions_moved rfl fun a b h => by
    have h' : a ≤ b := h
    by_cases ha : a = 0
    · subst ha
      exact Nat.zero_le _
    · have hb : ¬ b = 0 := fun hb => ha (Nat.le_zero.1 (hb ▸ h'))
      simp only [later, callSite, ha, hb, if_false]
      exact Nat.add_le_add_right h' k

/-- `verbose, on = true`, its values and the same text somewhere else. -/
example : letI := positions
    let s : Stream := ⟨[.ident "verbose".toList 1, .punct ',' false 2, .ident "on".toList 3, .punct '=' false 4,
      .ident "true".toList 5], 9, none⟩
    ((locStruct positions).dict.inline .unnamed [s]).1 = .ok [.inl (some 1), .inr ⟨true, 9⟩] ∧
    ((locStruct positions).dict.inline .unnamed [s.reloc (later 30)]).1 = .ok [.inl (some 31), .inr ⟨true, 39⟩] ∧
    (@StructDef.dict _ (stable positions) (locStruct (stable positions)) |>.inline .unnamed [s]).1 =
      .ok [.inl (some 1), .inr ⟨true, 3⟩] :=
  ⟨rfl, rfl, rfl⟩

/-- `verbose = 1, of`: two messages, which move with the text. -/
example : letI := positions
    let s : Stream := ⟨[.ident "verbose".toList 1, .punct '=' false 2, .lit (.int 1) 3, .punct ',' false 4,
      .ident "of".toList 5], 9, none⟩
    ((locStruct positions).dict.inline .unnamed [s.reloc (later 30)]).1 =
      ((locStruct positions).dict.inline .unnamed [s]).1.reloc (later 30) (List.map (LocVal.reloc (later 30))) ∧
    ((locStruct positions).dict.inline .unnamed [s]).1.isOk = false :=
  ⟨congrArg Prod.fst (((c109_every_type (.struct locStruct locStruct_reloc)
      (later_moved 30)).inline
        .unnamed) [_]), rfl⟩

end Deluxe
