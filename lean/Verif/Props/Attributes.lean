import Verif.Lemmas.Attributes
/-!
# C18, C58, C65: the attribute derives and the objects they read
-/
namespace Deluxe

/-! ## C58 -/

/-- `attrs_mut` refers to the list that `attrs` returns, and to nothing else. -/
structure HasAttrs.Lawful {O : Type} (h : HasAttrs O) : Prop where
  same : ∀ o l put, h.attrsMut o = .ok (l, put) → l = h.attrs o
  written : ∀ o l put, h.attrsMut o = .ok (l, put) → ∀ l', h.attrs (put l') = l'
  only : ∀ o l put, h.attrsMut o = .ok (l, put) → put (h.attrs o) = o ∧ ∀ l', h.attrsMut (put l') = .ok (l', put)

theorem kinds_lawful {K R : Type} {reads : K → Bool} {writes : K → Option Str}
    (h : ∀ k, writes k = none → reads k = true) : (HasAttrs.kinds reads writes : HasAttrs (Node K R)).Lawful := by
  have key : ∀ (o : Node K R) l put, (HasAttrs.kinds reads writes : HasAttrs (Node K R)).attrsMut o = .ok (l, put) →
      writes o.kind = none ∧ l = o.attrs ∧ put = fun l => { o with attrs := l } := by
    intro o l put ho
    simp only [HasAttrs.kinds] at ho
    split at ho
    · rename_i hw
      simp only [Except.ok.injEq, Prod.mk.injEq] at ho
      exact ⟨hw, ho.1.symm, ho.2.symm⟩
    · cases ho
  refine ⟨fun o l put ho => ?_, fun o l put ho l' => ?_, fun o l put ho => ?_⟩ <;>
    obtain ⟨hw, rfl, rfl⟩ := key o l put ho
  · simp [HasAttrs.kinds, h _ hw]
  · simp [HasAttrs.kinds, h _ hw]
  · refine ⟨?_, fun l' => ?_⟩
    · simp [HasAttrs.kinds, h _ hw]
    · simp [HasAttrs.kinds, hw]

theorem kinds_fail {K R : Type} {reads : K → Bool} {writes : K → Option Str} (n : Node K R) :
    (∃ e, (HasAttrs.kinds reads writes : HasAttrs (Node K R)).attrsMut n = .error e) ↔
      writes n.kind ≠ none := by
  simp only [HasAttrs.kinds]
  cases writes n.kind <;> simp

/-- C58: for every object that supports it, extraction works on the list that parsing reads, and changes
nothing else. -/
theorem c58_same_list {K R : Type} :
    (HasAttrs.node : HasAttrs (Node K R)).Lawful ∧ HasAttrs.vec.Lawful ∧
    (HasAttrs.kinds ExprKind.reads ExprKind.writes : HasAttrs (Node _ R)).Lawful ∧
    (HasAttrs.kinds ForeignItemKind.reads ForeignItemKind.writes : HasAttrs (Node _ R)).Lawful ∧
    (HasAttrs.kinds ImplItemKind.reads ImplItemKind.writes : HasAttrs (Node _ R)).Lawful ∧
    (HasAttrs.kinds ItemKind.reads ItemKind.writes : HasAttrs (Node _ R)).Lawful ∧
    (HasAttrs.kinds PatKind.reads PatKind.writes : HasAttrs (Node _ R)).Lawful ∧
    (HasAttrs.kinds TraitItemKind.reads TraitItemKind.writes : HasAttrs (Node _ R)).Lawful := by
  refine ⟨⟨?_, ?_, ?_⟩, ⟨?_, ?_, ?_⟩, kinds_lawful fun k => ?_, kinds_lawful fun k => ?_,
    kinds_lawful fun k => ?_, kinds_lawful fun k => ?_, kinds_lawful fun k => ?_, kinds_lawful fun k => ?_⟩
  any_goals (cases k <;> first | (intro _; rfl) | (intro h; cases h))
  all_goals
    intro o l put h
    simp only [HasAttrs.node, HasAttrs.vec, Except.ok.injEq, Prod.mk.injEq] at h
    obtain ⟨rfl, rfl⟩ := h
    first | rfl | (intro _; rfl) | exact ⟨rfl, fun _ => rfl⟩

/-- C58: an object whose list is not returned as mutable is an error, and then extraction returns the error
and leaves the object as it is. -/
theorem c58_unsupported {V α O : Type} (t : AttrTarget V α) (h : HasAttrs O) (container : O → V) (o : O)
    {e : SynErr} (he : h.attrsMut o = .error e) : t.extractAttributes h container o = (.err e, o) := by
  simp [AttrTarget.extractAttributes, he]

/-- C58: single attributes, slices and nodes of a kind without attribute list are not supported. -/
theorem c58_errors [Env] {R : Type} :
    (∀ a, ∃ e, HasAttrs.single.attrsMut a = .error e) ∧ (∀ l, ∃ e, HasAttrs.slice.attrsMut l = .error e) ∧
    (∀ n : Node ExprKind R, ExprKind.reads n.kind = false →
      ∃ e, (HasAttrs.kinds ExprKind.reads ExprKind.writes).attrsMut n = .error e) ∧
    (∀ n : Node ForeignItemKind R, ForeignItemKind.reads n.kind = false ↔
      ∃ e, (HasAttrs.kinds ForeignItemKind.reads ForeignItemKind.writes).attrsMut n = .error e) ∧
    (∀ n : Node ImplItemKind R, ImplItemKind.reads n.kind = false ↔
      ∃ e, (HasAttrs.kinds ImplItemKind.reads ImplItemKind.writes).attrsMut n = .error e) ∧
    (∀ n : Node ItemKind R, ItemKind.reads n.kind = false ↔
      ∃ e, (HasAttrs.kinds ItemKind.reads ItemKind.writes).attrsMut n = .error e) ∧
    (∀ n : Node PatKind R, PatKind.reads n.kind = false ↔
      ∃ e, (HasAttrs.kinds PatKind.reads PatKind.writes).attrsMut n = .error e) ∧
    (∀ n : Node TraitItemKind R, TraitItemKind.reads n.kind = false ↔
      ∃ e, (HasAttrs.kinds TraitItemKind.reads TraitItemKind.writes).attrsMut n = .error e) := by
  refine ⟨fun a => ⟨_, rfl⟩, fun l => ⟨_, rfl⟩, fun n h => ?_, fun n => ?_, fun n => ?_, fun n => ?_,
    fun n => ?_, fun n => ?_⟩
  · rw [kinds_fail]
    obtain ⟨k, _, _, _⟩ := n
    revert h
    cases k <;> simp [ExprKind.reads, ExprKind.writes]
  all_goals
    rw [kinds_fail]
    obtain ⟨k, _, _, _⟩ := n
    cases k <;> simp [ForeignItemKind.reads, ForeignItemKind.writes, ImplItemKind.reads, ImplItemKind.writes,
      ItemKind.reads, ItemKind.writes, PatKind.reads, PatKind.writes, TraitItemKind.reads,
      TraitItemKind.writes]

/-- C58, the exception among the nodes: the attributes of `syn::Expr::Infer` can be parsed, but not extracted,
and it is the only such kind of node. -/
theorem c58_infer_violated {R : Type} (n : Node ExprKind R) :
    (ExprKind.reads n.kind = true ∧
      ∃ e, (HasAttrs.kinds ExprKind.reads ExprKind.writes).attrsMut n = .error e) ↔ n.kind = .infer_ := by
  rw [kinds_fail]
  obtain ⟨k, _, _, _⟩ := n
  cases k <;> simp [ExprKind.reads, ExprKind.writes]

/-- A function with an attribute, from which the attribute is removed. -/
example :
    let a : Attr := ⟨⟨false, [("x".toList, false)], 1⟩, .path⟩
    let n : Node ItemKind Unit := ⟨.fn_, [a], (), 2⟩
    ∃ l put, (HasAttrs.kinds ItemKind.reads ItemKind.writes).attrsMut n = .ok (l, put) ∧ l = [a] ∧
      put [] = ⟨.fn_, [], (), 2⟩ := ⟨_, _, rfl, rfl, rfl⟩

/-! ## C18 -/

section
variable {V : Type}

/-- The code for the type does not depend on the object. -/
def AttrTarget.NoObj {α : Type} (t : AttrTarget V α) : Prop :=
  ∀ x y n mode, t.body ⟨some x, n⟩ mode = t.body ⟨some y, n⟩ mode

theorem StructDef.noObj [Env] {d : StructDef V} (hn : NoContainer d.fields) (attributes : List (List Str)) :
    (d.attrTarget attributes).NoObj := fun x y n mode =>
  congrFun (d.attrBody_obj hn (some x) (some y) n) mode

theorem EnumDef.noObj [Env] {e : EnumDef V} (hn : ∀ v ∈ e.variants, NoContainer v.fields)
    (attributes : List (List Str)) : (e.attrTarget attributes).NoObj := fun x y n mode =>
  congrFun (e.attrBody_obj hn (some x) (some y) n) mode

theorem same_of_noObj {α O : Type} {t : AttrTarget V α} (ht : t.NoObj) {h : HasAttrs O} (hl : h.Lawful)
    (container container' : O → V) {o : O} {l put} (ho : h.attrsMut o = .ok (l, put)) :
    t.parseAttributes h container o = (t.extractAttributes h container' o).1 := by
  have hf : ∀ x y, t.func x = t.func y := by
    intro x y
    funext spans
    exact ht _ _ _ _
  simp only [AttrTarget.parseAttributes, AttrTarget.extractAttributes, ho, ← hl.same o l put ho,
    c18_ref_eq_take]
  rw [hf]

/-- C18: a structure without container field is parsed and extracted with the same result. -/
theorem c18_struct [Env] {O : Type} {d : StructDef V} (hn : NoContainer d.fields)
    (attributes : List (List Str)) {h : HasAttrs O} (hl : h.Lawful) (container container' : O → V) {o : O}
    {l put} (ho : h.attrsMut o = .ok (l, put)) :
    (d.attrTarget attributes).parseAttributes h container o =
      ((d.attrTarget attributes).extractAttributes h container' o).1 :=
  same_of_noObj (d.noObj hn attributes) hl container container' ho

/-- C18: so is an enum. -/
theorem c18_enum [Env] {O : Type} {e : EnumDef V} (hn : ∀ v ∈ e.variants, NoContainer v.fields)
    (attributes : List (List Str)) {h : HasAttrs O} (hl : h.Lawful) (container container' : O → V) {o : O}
    {l put} (ho : h.attrsMut o = .ok (l, put)) :
    (e.attrTarget attributes).parseAttributes h container o =
      ((e.attrTarget attributes).extractAttributes h container' o).1 :=
  same_of_noObj (e.noObj hn attributes) hl container container' ho

/-- The path is one of the declared ones: the same names, none with generic arguments.  Without declared
paths every path is. -/
def Declared (attributes : List (List Str)) (p : APath) : Prop :=
  attributes = [] ∨ p.segs.map (·.1) ∈ attributes ∧ ∀ s ∈ p.segs, s.2 = false

theorem matches_iff {α : Type} (t : AttrTarget V α) (p : APath) :
    t.matches_ p = true ↔ Declared t.attributes p := by
  simp only [AttrTarget.matches_, Declared, Bool.or_eq_true, List.isEmpty_iff, List.any_eq_true]
  refine or_congr Iff.rfl ⟨?_, ?_⟩
  · rintro ⟨segs, h1, h2⟩
    obtain ⟨b, hb, hb'⟩ := c13_path_matches_exact p segs
    rw [hb] at h2
    obtain ⟨rfl, h4⟩ := hb'.1 h2
    exact ⟨h1, h4⟩
  · rintro ⟨h1, h2⟩
    obtain ⟨b, hb, hb'⟩ := c13_path_matches_exact p (p.segs.map (·.1))
    exact ⟨_, h1, by rw [hb]; exact hb'.2 ⟨rfl, h2⟩⟩

instance (attributes : List (List Str)) (p : APath) : Decidable (Declared attributes p) :=
  inferInstanceAs (Decidable (_ ∨ _ ∧ _))

/-- The attributes with a declared path, in order. -/
def matching (attributes : List (List Str)) (l : List Attr) : List Attr :=
  l.filter fun a => Declared attributes a.path

theorem filter_matches {α : Type} (t : AttrTarget V α) (l : List Attr) :
    (l.filter fun a => t.matches_ a.path) = matching t.attributes l := by
  refine List.filter_congr fun a _ => ?_
  have := matches_iff t a.path
  cases hm : t.matches_ a.path
  · rw [hm] at this; simp [← this]
  · rw [hm] at this; simp [← this]

/-- C18: extraction removes exactly the attributes with a declared path and changes nothing else, whether
parsing them succeeds or fails. -/
theorem c18_extract_removes {α O : Type} (t : AttrTarget V α) {h : HasAttrs O} (hl : h.Lawful)
    (container : O → V) {o : O} {l put} (ho : h.attrsMut o = .ok (l, put)) :
    (t.extractAttributes h container o).2 = put ((h.attrs o).filter fun a => ¬ Declared t.attributes a.path) ∧
    h.attrs (t.extractAttributes h container o).2 =
      (h.attrs o).filter (fun a => ¬ Declared t.attributes a.path) := by
  have h2 : (t.extractAttributes h container o).2 =
      put ((h.attrs o).filter fun a => ¬ Declared t.attributes a.path) := by
    simp only [AttrTarget.extractAttributes, ho]
    rw [(c17_take_partition t.matches_ l).2.1, hl.same o l put ho]
    congr 1
    refine List.filter_congr fun a _ => ?_
    have := matches_iff t a.path
    cases hm : t.matches_ a.path
    · rw [hm] at this; simp [← this]
    · rw [hm] at this; simp [← this]
  exact ⟨h2, by rw [h2, hl.written o l put ho]⟩

end

/-! ## C65 -/

section
variable {V α O : Type}

/-- The attributes are all bare, as `#[x]`, or with a parenthesised list, as `#[x(..)]`; the streams are what
is inside. -/
inductive ListStreams : List Attr → List Stream → Prop
  | nil : ListStreams [] []
  | bare {p as ss} : ListStreams as ss → ListStreams (⟨p, .path⟩ :: as) (⟨[], callSite, none⟩ :: ss)
  | list {p toks as ss} : ListStreams as ss →
      ListStreams (⟨p, .list .paren toks⟩ :: as) (⟨toks, callSite, none⟩ :: ss)

/-- All tokens of the streams, and of the groups in them that were entered, have been read. -/
def Clean (l : List Stream) : Prop := ∀ s ∈ l, s.toks = [] ∧ s.unexp = none

theorem ListStreams.attrStreams {as : List Attr} {ss ss' : List Stream} (h : ListStreams as ss)
    (hl : ss'.length = ss.length) (hc : Clean ss') : AttrStreams (as.map Attr.entry) ss ss' := by
  induction h generalizing ss' with
  | nil =>
    cases ss' with
    | nil => exact .nil
    | cons s ss' => simp at hl
  | bare _ ih =>
    cases ss' with
    | nil => simp at hl
    | cons s ss' =>
      exact .bare (.inl (hc s (by simp)).1) (ih (by simpa using hl) fun x hx => hc x (by simp [hx]))
  | list _ ih =>
    cases ss' with
    | nil => simp at hl
    | cons s ss' =>
      exact .group (.inl rfl) (.inl (hc s (by simp)).1) (hc s (by simp)).2
        (ih (by simpa using hl) fun x hx => hc x (by simp [hx]))

theorem attrTokens_out {attrs : List (List Tok × Str × Span)} {func : List (Str × Span) → M (List Stream) α}
    {ss ss' : List Stream} {r : Res α} (hfl : ∀ ps l, (func ps l).2.length = l.length)
    (h : AttrStreams attrs ss ss') (hc : Clean ss') (hf : func (attrs.map (·.2)) ss = (r, ss'))
    (hr : r ≠ .panic) : parseStructAttrTokens attrs func = r := by
  cases r with
  | panic => exact absurd rfl hr
  | ok a => exact (c19_attr_tokens attrs func hfl a).2 ⟨ss, ss', h, hf⟩
  | err e => exact c60_errors_kept attrs func ss ss' e h (fun s hs => (hc s hs).1) hf

/-- The name of the attribute in messages: that of the first one with a declared path, or the first declared
path. -/
def attrLabel (attributes : List (List Str)) (l : List Attr) : Option Str :=
  match matching attributes l with
  | a :: _ => some a.path.key
  | [] => attributes.head?.map keyString

/-- Where messages about the attribute as a whole point: at the first one with a declared path. -/
def attrSpan (attributes : List (List Str)) (l : List Attr) : Span :=
  match matching attributes l with
  | a :: _ => a.path.span
  | [] => callSite

theorem parseAttributes_eq (t : AttrTarget V α) (h : HasAttrs O) (container : O → V) (o : O) :
    t.parseAttributes h container o =
      parseStructAttrTokens ((matching t.attributes (h.attrs o)).map Attr.entry) (t.func (container o)) := by
  simp only [AttrTarget.parseAttributes, c18_ref_eq_take, (c17_take_partition t.matches_ _).1,
    filter_matches]

theorem func_eq (t : AttrTarget V α) (x : V) (l : List Attr) :
    t.func x (((matching t.attributes l).map Attr.entry).map (·.2)) =
      t.body ⟨some x, attrLabel t.attributes l⟩ (.named (attrSpan t.attributes l)) := by
  unfold AttrTarget.func attrLabel attrSpan
  cases matching t.attributes l with
  | nil => simp [firstPathName, firstSpan]
  | cons a as => simp [firstPathName, firstSpan, Attr.entry]

/-- C65: attributes that are bare or have a parenthesised list are read together, as the streams of their
lists in order; if everything in them is read, the outcome is that of the code for the type. -/
theorem c65_outcome (t : AttrTarget V α) (h : HasAttrs O) (container : O → V) (o : O) {ss ss' : List Stream}
    {r : Res α} (hb : ∀ site mode l, (t.body site mode l).2.length = l.length)
    (hm : ListStreams (matching t.attributes (h.attrs o)) ss)
    (hf : t.body ⟨some (container o), attrLabel t.attributes (h.attrs o)⟩
      (.named (attrSpan t.attributes (h.attrs o))) ss = (r, ss'))
    (hc : Clean ss') (hr : r ≠ .panic) : t.parseAttributes h container o = r := by
  rw [parseAttributes_eq]
  have hl : ss'.length = ss.length := by
    have := hb ⟨some (container o), attrLabel t.attributes (h.attrs o)⟩
      (.named (attrSpan t.attributes (h.attrs o))) ss
    rwa [hf] at this
  exact attrTokens_out (fun _ _ => hb _ _ _) (hm.attrStreams hl hc) hc (by rw [func_eq]; exact hf) hr

section
variable [Env]

/-- C65: parsing and extracting never panic, whatever the attributes. -/
theorem c65_struct_never_panics {d : StructDef V} (ha : d.AttrAccepted) (hg : d.FieldsFine)
    (attributes : List (List Str)) (h : HasAttrs O) (container : O → V) (o : O) :
    (d.attrTarget attributes).parseAttributes h container o ≠ .panic ∧
      ((d.attrTarget attributes).extractAttributes h container o).1 ≠ .panic := by
  have hp : ∀ x toks, parseStructAttrTokens toks ((d.attrTarget attributes).func x) ≠ .panic := fun x toks =>
    c60_never_panics _ _ fun ps l => (d.attrBody_good ha hg x _ _ l).1
  refine ⟨hp _ _, ?_⟩
  unfold AttrTarget.extractAttributes
  split
  · simp
  · exact hp _ _

/-- C65: likewise for enums (compare C44). -/
theorem c65_enum_never_panics_partial {e : EnumDef V} (ha : ∀ x n, e.Accepted ⟨some x, n⟩) (hg : e.FieldsFine)
    (hn : e.Infallible) (attributes : List (List Str)) (h : HasAttrs O) (container : O → V) (o : O) :
    (e.attrTarget attributes).parseAttributes h container o ≠ .panic ∧
      ((e.attrTarget attributes).extractAttributes h container o).1 ≠ .panic := by
  have hp : ∀ x toks, parseStructAttrTokens toks ((e.attrTarget attributes).func x) ≠ .panic := fun x toks =>
    c60_never_panics _ _ fun ps l => (e.attrBody_good x _ (ha x _) hg hn _ l).1
  refine ⟨hp _ _, ?_⟩
  unfold AttrTarget.extractAttributes
  split
  · simp
  · exact hp _ _

omit [Env] in
theorem runAndThens_ok {γ : Type} (fs : List (γ → Except SynErr γ)) (r : Res γ) (v : γ) :
    runAndThens fs r = .ok v ↔ ∃ w, r = .ok w ∧ fs.foldlM (fun v f => f v) w = .ok v := by
  unfold runAndThens
  cases r with
  | panic => simp
  | err e => simp
  | ok w =>
    simp only
    cases hf : fs.foldlM (fun v f => f v) w with
    | ok v' => simp [hf]
    | error e => simp [hf]

theorem structAttrs_out {d : StructDef V} (ha : d.AttrAccepted) (hg : d.FieldsFine) (hs : d.shape = .named)
    (ht : d.isTransparent = false) (attributes : List (List Str)) (h : HasAttrs O) (container : O → V) (o : O)
    {ss : List Stream} (hm : ListStreams (matching attributes (h.attrs o)) ss)
    (hc : Clean ((d.attrTarget attributes).body ⟨some (container o), attrLabel attributes (h.attrs o)⟩
      (.named (attrSpan attributes (h.attrs o))) ss).2) :
    (d.attrTarget attributes).parseAttributes h container o = runAndThens d.andThens (namedFlat
      (d.attrData ⟨some (container o), attrLabel attributes (h.attrs o)⟩) (Field.fieldNames d.fields)
      (.named (attrSpan attributes (h.attrs o))) [] (!d.acceptsAll) ss).1 := by
  generalize hr : (d.attrTarget attributes).body _ _ ss = out at hc
  have hgood := fun site mode l => d.attrBody_good ha hg (container o) site mode l
  have hout : out.1 = runAndThens d.andThens (namedFlat
      (d.attrData ⟨some (container o), attrLabel attributes (h.attrs o)⟩) (Field.fieldNames d.fields)
      (.named (attrSpan attributes (h.attrs o))) [] (!d.acceptsAll) ss).1 := by
    rw [← hr]
    simp only [StructDef.attrTarget, StructDef.attrBody, ht, hs]
    rfl
  have hne : out.1 ≠ .panic := by
    rw [← hr]
    exact (hgood _ _ _).1
  have hlen : out.2.length = ss.length := by
    rw [← hr]
    exact AdvL.length (hgood _ _ _).2
  rw [← hout, parseAttributes_eq]
  refine attrTokens_out (fun ps l => AdvL.length (hgood _ _ _).2) (hm.attrStreams hlen hc) hc ?_ hne
  rw [func_eq]
  exact hr

/-- C65: a structure with named fields is parsed from the items of all its attributes together: the items
must be in order (C31), and every field gets its value, the container field the object. -/
theorem c65_struct {d : StructDef V} (ha : d.AttrAccepted) (hg : d.FieldsFine) (hs : d.shape = .named)
    (ht : d.isTransparent = false) (attributes : List (List Str)) (h : HasAttrs O) (container : O → V) (o : O)
    {ss : List Stream} {bs : List (SItem V)} (hm : ListStreams (matching attributes (h.attrs o)) ss)
    (hi : ItemsAll (StructSeg d.fields []) ss bs) {label : Option Str} {span : Span}
    (hlabel : label = attrLabel attributes (h.attrs o)) (hspan : span = attrSpan attributes (h.attrs o))
    (hc : Clean ((d.attrTarget attributes).body ⟨some (container o), label⟩ (.named span) ss).2)
    (vs : List V) :
    (d.attrTarget attributes).parseAttributes h container o = .ok vs ↔
      ItemsOk (!d.allowUnknown.getD false && !d.acceptsAll) (Field.fieldNames d.fields) bs ∧
        ∃ ws, ws.length = d.fields.length ∧ (∀ i f, d.fields[i]? = some f → ∃ v, ws[i]? = some v ∧
          Holds (d.attrData ⟨some (container o), label⟩) (Field.fieldNames d.fields) [] span ss bs f i v) ∧
        d.andThens.foldlM (fun v f => f v) ws = .ok vs := by
  subst hlabel hspan
  have hp := structAttrs_out ha hg hs ht attributes h container o hm hc
  rw [hp, runAndThens_ok]
  have hfg : FieldsGood d.fields := ⟨fun f hf _ n sp => (hg.item f hf).named n sp,
    fun f hf n sp => (hg.item f hf).missing n sp, hg.flat hs⟩
  have key := fun ws => c31_struct (d.attrData ⟨some (container o), attrLabel attributes (h.attrs o)⟩)
    (ha.data _ _) ht hfg (Field.fieldNames d.fields) (.named (attrSpan attributes (h.attrs o))) []
    (!d.acceptsAll) hi ws
  constructor
  · rintro ⟨ws, h1, h2⟩
    obtain ⟨k1, k2, k3⟩ := (key ws).1 h1
    exact ⟨k1, ws, k2, k3, h2⟩
  · rintro ⟨k1, ws, k2, k3, h2⟩
    exact ⟨ws, (key ws).2 ⟨k1, k2, k3⟩, h2⟩

/-- C65, for fields that are not renamed (compare C36): a field that is given in none of the attributes is
reported as missing at the first one, by the path of the attribute and the name of the field. -/
theorem c65_missing_partial {d : StructDef V} (ha : d.AttrAccepted) (hg : d.FieldsFine) (hs : d.shape = .named)
    (ht : d.isTransparent = false) (attributes : List (List Str)) (h : HasAttrs O) (container : O → V) (o : O)
    {ss : List Stream} {bs : List (SItem V)} (hm : ListStreams (matching attributes (h.attrs o)) ss)
    (hi : ItemsAll (StructSeg d.fields []) ss bs) {label : Str} {span : Span}
    (hlabel : some label = attrLabel attributes (h.attrs o)) (hspan : span = attrSpan attributes (h.attrs o))
    (hc : Clean ((d.attrTarget attributes).body ⟨some (container o), some label⟩ (.named span) ss).2)
    {i : Nat} {f : Field V} (hf : d.fields[i]? = some f) (hp : f.Plain) (hn : given i bs = none)
    (hd : f.default = none) (htg : d.default = none)
    (hmiss : ∀ n sp, f.item.missing n sp = .err (missingFieldError n sp)) {name : Str}
    (hname : f.idents.head? = some name) (hrename : f.ident = f.idents.head?) :
    ∃ e, (d.attrTarget attributes).parseAttributes h container o = .err e ∧
      ⟨span, .missingField ("#[".toList ++ label ++ "(".toList ++ name ++ ")]".toList)⟩ ∈ e.toList := by
  rw [hlabel] at hc
  subst hspan
  have hpa := structAttrs_out ha hg hs ht attributes h container o hm hc
  have hfg : FieldsGood d.fields := ⟨fun f hf _ n sp => (hg.item f hf).named n sp,
    fun f hf n sp => (hg.item f hf).missing n sp, hg.flat hs⟩
  obtain ⟨e, h1, h2⟩ := c35_nothing_hidden
    (d.attrData ⟨some (container o), attrLabel attributes (h.attrs o)⟩) (ha.data _ _) ht hfg
    (Field.fieldNames d.fields) (.named (attrSpan attributes (h.attrs o))) [] (!d.acceptsAll) hi _
    (.inr (.inr ⟨i, f, hf, hp, hn, hd, htg, hmiss _ _⟩))
  refine ⟨e, by rw [hpa, h1]; rfl, h2.subset ?_⟩
  rw [← hlabel]
  simp [missingFieldError, SynErr.new, SynErr.toList, missingName, hrename, hname, StructDef.attrData,
    joinPath, Mode.toFullSpan, Mode.namedSpan]

omit [Env] in
/-- C65: only bare attributes, parenthesised lists and (an oddity) parenthesised values are accepted. -/
theorem c65_forms {t : AttrTarget V α} (hb : ∀ site mode l, (t.body site mode l).2.length = l.length)
    (h : HasAttrs O) (container : O → V) (o : O) {a : α} (ho : t.parseAttributes h container o = .ok a) :
    ∀ at1 ∈ matching t.attributes (h.attrs o), at1.body = .path ∨ at1.body = .nameValue [] ∨
      (∃ toks, at1.body = .list .paren toks) ∨
      (∃ inner sp close rest, at1.body = .nameValue (.group .paren inner sp close :: rest) ∧ AtEnd rest) := by
  rw [parseAttributes_eq] at ho
  obtain ⟨ss, ss', h1, h2⟩ := (c19_attr_tokens _ (t.func (container o)) (fun _ _ => hb _ _ _) a).1 ho
  clear h2
  generalize matching t.attributes (h.attrs o) = l at h1
  generalize hl : l.map Attr.entry = as at h1
  induction h1 generalizing l with
  | nil => simp [List.map_eq_nil_iff.1 hl]
  | bare _ _ ih =>
    obtain ⟨x, xs, rfl, hx, hxs⟩ := List.map_eq_cons_iff.1 hl
    intro y hy
    rcases List.mem_cons.1 hy with rfl | hy
    · obtain ⟨p, b⟩ := y
      simp only [Attr.entry, Prod.mk.injEq] at hx
      cases b with
      | path => exact .inl rfl
      | list d toks => simp [Meta.tokens] at hx
      | nameValue toks => exact .inr (.inl (by simpa [Meta.tokens] using hx.1))
    · exact ih xs hxs y hy
  | group hr _ _ _ ih =>
    obtain ⟨x, xs, rfl, hx, hxs⟩ := List.map_eq_cons_iff.1 hl
    intro y hy
    rcases List.mem_cons.1 hy with rfl | hy
    · obtain ⟨p, b⟩ := y
      simp only [Attr.entry, Prod.mk.injEq] at hx
      cases b with
      | path => simp [Meta.tokens] at hx
      | list d toks =>
        simp only [Meta.tokens, List.cons.injEq, Tok.group.injEq] at hx
        exact .inr (.inr (.inl ⟨toks, by rw [hx.1.1.1]⟩))
      | nameValue toks =>
        exact .inr (.inr (.inr ⟨_, _, _, _, congrArg _ hx.1, hr⟩))
    · exact ih xs hxs y hy

/-! ## Concrete cases -/

/-- `#[x(a)]`, `#[doc = ".."]` and `#[x(c = true)]` -/
def demoAttrs : List Attr :=
  [⟨⟨false, [("x".toList, false)], 1⟩, .list .paren [.ident "a".toList 2]⟩,
    ⟨⟨false, [("doc".toList, false)], 3⟩, .nameValue [.lit (.str []) 4]⟩,
    ⟨⟨false, [("x".toList, false)], 5⟩,
      .list .paren [.ident "c".toList 6, .punct '=' false 7, .ident "true".toList 8]⟩]

/-- `#[deluxe(attributes(x))] struct S { a: bool, c: bool, #[deluxe(container)] o: .. }`; values are the length
of the attribute list of the object, or a boolean as 0 or 1. -/
def attrDemo : StructDef Nat where
  shape := .named
  fields :=
    [plainField "a".toList (boolDict.map fun b => if b then 1 else 0),
      plainField "c".toList (boolDict.map fun b => if b then 1 else 0),
      { plainField "o".toList (boolDict.map fun b => if b then 1 else 0) with container := some true }]
  default := none
  transparent := none
  allowUnknown := none
  andThens := []

/-- The container field is the object: when parsing, with all attributes; when extracting, without those that
were extracted.  So the results differ, and C18 does not extend to types with a container field. -/
theorem c18_container_differs :
    (attrDemo.attrTarget [["x".toList]]).parseAttributes HasAttrs.vec List.length demoAttrs = .ok [1, 1, 3] ∧
    (attrDemo.attrTarget [["x".toList]]).extractAttributes HasAttrs.vec List.length demoAttrs =
      (.ok [1, 1, 1], demoAttrs.drop 1 |>.take 1) := by
  refine ⟨rfl, ?_⟩
  simp only [AttrTarget.extractAttributes, HasAttrs.vec]
  rw [(c17_take_partition _ _).1, (c17_take_partition _ _).2.1]
  rfl

/-- `demo` of C30 as a structure. -/
def demoDef : StructDef Bool where
  shape := .named
  fields := demo.fields
  default := none
  transparent := none
  allowUnknown := none
  andThens := []

omit [Env] in
theorem demoDef_attrAccepted : demoDef.AttrAccepted := by
  refine ⟨fun f hf hp => ?_, by simp [demoDef], by simp [demoDef, StructDef.isTransparent],
    by simp [demoDef]⟩
  simp only [demoDef, demo, List.mem_cons, List.not_mem_nil, or_false] at hf
  rcases hf with rfl | rfl | rfl | rfl <;> simp [plainField, Field.isParsable, Field.isContainer] at hp ⊢

omit [Env] in
theorem demoDef_fine : demoDef.FieldsFine := by
  refine ⟨fun f hf => ?_, fun _ => demo_good.flat, by simp [demoDef]⟩
  simp only [demoDef, demo, List.mem_cons, List.not_mem_nil, or_false] at hf
  rcases hf with rfl | rfl | rfl | rfl <;> exact boolDict_good

omit [Env] in
theorem demoDef_noContainer : NoContainer demoDef.fields := by
  intro f hf
  simp only [demoDef, demo, List.mem_cons, List.not_mem_nil, or_false] at hf
  rcases hf with rfl | rfl | rfl | rfl <;> rfl

/-- C18: `#[x(a)] #[doc = ".."] #[x(c = true)]` on a type without container field. -/
example : (demoDef.attrTarget [["x".toList]]).parseAttributes HasAttrs.vec (fun _ => true) demoAttrs =
      .ok [true, false, true, false] ∧
    ((demoDef.attrTarget [["x".toList]]).extractAttributes HasAttrs.vec (fun _ => true) demoAttrs).1 =
      .ok [true, false, true, false] := by
  refine ⟨rfl, ?_⟩
  rw [← c18_struct demoDef_noContainer _ (c58_same_list (K := Unit) (R := Unit)).2.1 (fun _ => true) _ rfl]
  rfl

/-- C18: the attribute of another path stays. -/
example (t : AttrTarget Bool (List Bool)) (ht : t.attributes = [["x".toList]]) (c : List Attr → Bool) :
    (t.extractAttributes HasAttrs.vec c demoAttrs).2 = [demoAttrs[1]] := by
  rw [(c18_extract_removes t (c58_same_list (K := Unit) (R := Unit)).2.1 c rfl).1, ht]
  simp [demoAttrs, HasAttrs.vec, Declared]

/-- The hypotheses of C65 for these attributes, and the items. -/
example : ListStreams (matching [["x".toList]] demoAttrs)
      [⟨[.ident "a".toList 2], callSite, none⟩,
        ⟨[.ident "c".toList 6, .punct '=' false 7, .ident "true".toList 8], callSite, none⟩] ∧
    ItemsAll (StructSeg demoDef.fields [])
      [⟨[.ident "a".toList 2], callSite, none⟩,
        ⟨[.ident "c".toList 6, .punct '=' false 7, .ident "true".toList 8], callSite, none⟩]
      [.field 0 "a".toList 2 (.ok true), .field 3 "c".toList 6 (.ok true)] ∧
    attrLabel [["x".toList]] demoAttrs = some "x".toList ∧ attrSpan [["x".toList]] demoAttrs = 1 ∧
    Clean ((demoDef.attrTarget [["x".toList]]).body ⟨some true, some "x".toList⟩ (.named 1)
      [⟨[.ident "a".toList 2], callSite, none⟩,
        ⟨[.ident "c".toList 6, .punct '=' false 7, .ident "true".toList 8], callSite, none⟩]).2 := by
  refine ⟨?_, ?_, rfl, rfl, ?_⟩
  · exact .list (.list .nil)
  · refine .cons (bs := [_]) (.last (by simp) ?_) (.cons (bs := [_]) (.last (by simp) ?_) .nil)
    · exact .field (segs := ["a".toList]) (vt := []) (.mk (pt := [.ident "a".toList 2]) (.plain (.one _ _))
        (by simp [StartsColon2])) (demo_owns rfl) (fun u => ⟨u, rfl⟩)
    · exact .field (segs := ["c".toList]) (vt := [.punct '=' false 7, .ident "true".toList 8])
        (.mk (pt := [.ident "c".toList 6]) (.plain (.one _ _)) (by simp [StartsColon2])) (demo_owns rfl)
        (fun u => ⟨u, rfl⟩)
  · intro s hs
    have : s ∈ [(⟨[], callSite, none⟩ : Stream), ⟨[], callSite, none⟩] := hs
    simp only [List.mem_cons, List.not_mem_nil, or_false, or_self] at this
    subst this
    exact ⟨rfl, rfl⟩

/-- C65: without the second list, `c` is missing, and reported at the attribute. -/
example : ∃ e, (demoDef.attrTarget [["x".toList]]).parseAttributes HasAttrs.vec (fun _ => true)
      (demoAttrs.take 1) = .err e ∧ e.toList = [⟨1, .missingField "#[x(c)]".toList⟩] := ⟨_, rfl, rfl⟩

end

end

end Deluxe
