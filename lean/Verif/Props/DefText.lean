import Verif.Spec.DefText
import Verif.Props.DefFields
import Verif.Props.Defs
import Verif.Props.Types
import Verif.Lemmas.DefTypes
import Verif.Lemmas.Local
/-!
# C94: the attributes of a definition mean what is written
-/
namespace Deluxe

/-! ## Values -/

theorem boundary_flag {rest : List Tok} (hb : Boundary rest) (sc : Span) (u : Option Span) :
    (⟨rest, sc, u⟩ : Stream).peekPunct '=' = false ∧ (⟨rest, sc, u⟩ : Stream).peekDelim .paren = false := by
  rcases hb with rfl | ⟨c, r, rfl, j, sp, rfl⟩
  · exact ⟨rfl, rfl⟩
  · exact ⟨rfl, rfl⟩

theorem dropChild_clear (rest : List Tok) (sc b : Span) (u : Option Span) :
    (⟨rest, sc, u⟩ : Stream).dropChild ⟨[], b, u⟩ = ⟨rest, sc, u⟩ := by
  cases u <;> rfl

theorem delimited_clear {α : Type} {f : Mode → M (List Stream) α} {m : Mode} {dl : Delim} {inner : List Tok}
    {a b : Span} {x : α} (h : ∀ u, f m [⟨inner, b, u⟩] = (.ok x, [⟨[], b, u⟩])) (rest : List Tok) (sc : Span) :
    ReadsFully (parseDelimitedMetaItem dl f m) [.group dl inner a b] rest sc x := by
  intro u
  have : parseEof ⟨[], b, u⟩ = (.ok (), ⟨[], b, u⟩) := rfl
  simp only [parseDelimitedMetaItem, parseDelimitedWith, withContent, enter, if_true, Bind.bind, M.bind, single,
    List.cons_append, List.nil_append, h, List.headD_cons, this, Pure.pure, M.pure, dropChild_clear]

section
variable {α : Type} {p : Mode → M Stream α} {i : Mode → M (List Stream) α} {fl : Span → Res α} {sp : Span}
  {rest : List Tok} {sc : Span} {x : α}

theorem named_bare (hb : Boundary rest) (h : fl sp = .ok x) :
    ReadsFully (parseNamedMetaItem p i fl sp) [] rest sc x := by
  intro u
  obtain ⟨h1, h2⟩ := boundary_flag hb sc u
  simp only [List.nil_append, parseNamedMetaItem, h1, h2, Bool.false_eq_true, if_false, h]

theorem named_eq {v : List Tok} (j : Bool) (s : Span) (h : ReadsFully (p (.named sp)) v rest sc x) :
    ReadsFully (parseNamedMetaItem p i fl sp) (.punct '=' j s :: v) rest sc x := fun u => h u

theorem named_paren {inner : List Tok} (a b : Span) (h : ∀ u, i (.named sp) [⟨inner, b, u⟩] = (.ok x, [⟨[], b, u⟩])) :
    ReadsFully (parseNamedMetaItem p i fl sp) [.group .paren inner a b] rest sc x :=
  fun u => by
    have hp : (⟨[.group .paren inner a b] ++ rest, sc, u⟩ : Stream).peekDelim .paren = true := rfl
    have he : (⟨[.group .paren inner a b] ++ rest, sc, u⟩ : Stream).peekPunct '=' = false := rfl
    simp only [parseNamedMetaItem, hp, he, Bool.false_eq_true, if_false, if_true]
    exact delimited_clear h rest sc u

theorem first_clear {inner : List Tok} {m : Mode} {b : Span} (h : ReadsFully (p m) inner [] b x) (u : Option Span) :
    parseFirst p m [⟨inner, b, u⟩] = (.ok x, [⟨[], b, u⟩]) := by
  have := h u
  rw [List.append_nil] at this
  simp only [parseFirst, Bind.bind, M.bind, this]
  rfl

/-- Both ways to give a value. -/
theorem named_value {v vt : List Tok} (hv : ValueToks v vt) (h : ReadsFully (p (.named sp)) v rest sc x)
    (h' : ∀ b, ReadsFully (p (.named sp)) v [] b x) :
    ReadsFully (parseNamedMetaItem p (parseFirst p) fl sp) vt rest sc x := by
  cases hv with
  | eq j s => exact named_eq j s h
  | paren a b => exact named_paren a b fun u => first_clear (h' b) u

theorem named_valueOf {q : M Stream α} {vt : List Tok} (hq : ∀ m, p m = q) (hv : ValueOf q rest sc x vt) :
    ReadsFully (parseNamedMetaItem p (parseFirst p) fl sp) vt rest sc x := by
  cases hv with
  | eq j s h => exact named_eq j s (by rw [hq]; exact h)
  | paren a b h => exact named_paren a b fun u => first_clear (by rw [hq]; exact h) u

end

theorem syn_value {α : Type} {q : M Stream α} {rest : List Tok} {sc : Span} {x : α} {vt : List Tok}
    (h : ValueOf q rest sc x vt) (nm : Str) (sp : Span) : ReadsFully ((synDict q).named nm sp) vt rest sc x :=
  named_valueOf (p := (synDict q).parse) (fl := (synDict q).flag) (fun _ => rfl) h

theorem litBool_reads (b : Bool) (sp : Span) (rest : List Tok) (sc : Span) :
    ReadsFully parseLitBool [boolTok b sp] rest sc b := by
  intro u
  cases b <;> rfl

theorem bool_switch {vt rest : List Tok} {b : Bool} (h : Switch vt b) (hb : Boundary rest) (nm : Str) (sp sc : Span) :
    ReadsFully (boolDict.named nm sp) vt rest sc b := by
  show ReadsFully (parseNamedMetaItem (fun _ => parseLitBool) (parseFirst fun _ => parseLitBool) (fun _ => .ok true) sp)
    vt rest sc b
  cases h with
  | bare => exact named_bare hb rfl
  | value s hv => exact named_value hv (litBool_reads _ _ _ _) fun _ => litBool_reads _ _ _ _

theorem ident_value {name : Str} {s : Span} {vt : List Tok} (h : ValueToks [.ident name s] vt) (nm : Str) (sp sc : Span)
    (rest : List Tok) : ReadsFully (identSpDict.named nm sp) vt rest sc (name, s) :=
  named_value (p := identSpDict.parse) (fl := identSpDict.flag) h (fun _ => rfl) fun _ _ => rfl

theorem expr_value {x vt rest : List Tok} (h : ExprText vt x) (hb : Boundary rest) (nm : Str) (sp sc : Span) :
    ReadsFully (tokenStreamDict.named nm sp) vt rest sc x :=
  named_value (p := tokenStreamDict.parse) (fl := tokenStreamDict.flag) h.2.2
    (fun u => ((c52_token_stream (.named sp) ⟨x ++ rest, sc, u⟩).1 _ _).2 ⟨h.1, h.2.1, rest, rfl, hb, rfl⟩)
    fun b u => ((c52_token_stream (.named sp) ⟨x ++ [], b, u⟩).1 _ _).2 ⟨h.1, h.2.1, [], rfl, .inl rfl, rfl⟩

theorem default_value {x : Option (List Tok)} {vt rest : List Tok} (h : DefaultText rest vt x) (hb : Boundary rest)
    (nm : Str) (sp sc : Span) :
    ReadsFully (defaultDict.named nm sp) vt rest sc (writtenDefault sp x) := by
  cases h with
  | bare => exact named_bare (p := defaultDict.parse) (fl := defaultDict.flag) hb rfl
  | paren e a b => exact fun u => default_paren ..
  | eq e j s hr =>
    subst hr
    intro u
    rw [List.append_nil]
    exact default_named ..

variable [Env]

/-- A spanned value is read like the value. -/
theorem spanned_reads {α : Type} {d : Dict α} {vt rest : List Tok} {nm : Str} {sp sc : Span} {x : α}
    (h : ReadsFully (d.named nm sp) vt rest sc x) :
    ∃ y : Spanned α, y.value = x ∧ ReadsFully ((spannedDict d).named nm sp) vt rest sc y := by
  refine ⟨⟨x, (Env.join (⟨rest, sc, none⟩ : Stream).span sp).getD sp⟩, rfl, fun u => ?_⟩
  have hs : (⟨rest, sc, u⟩ : Stream).span = (⟨rest, sc, none⟩ : Stream).span := rfl
  simp only [spannedDict, h u, hs]
  rfl

theorem path_reads {lead : Bool} {segs : List Str} {pt : List Tok} (h : PathToks lead segs pt) {rest : List Tok}
    (hb : Boundary rest) (sc : Span) : ReadsFully parseAnyPath pt rest sc ⟨lead, segs, pathSpan pt⟩ := fun u =>
  parseAnyPath_key h rest sc u (by
    rintro ⟨a, j, b, r, rfl⟩
    rcases hb with hb | ⟨c, r, hb, j, s, rfl⟩
    · cases hb
    · cases hb)

/-! ## Lists of options -/

omit [Env] in
/-- Items of one kind are items of another. -/
theorem items_lift {β γ : Type} {seg : List Tok → List Tok → Span → β → Prop}
    {seg' : List Tok → List Tok → Span → γ → Prop} {g : γ → β} {sc : Span}
    (h : ∀ v rest b, Boundary rest → seg v rest sc b → ∃ c, g c = b ∧ seg' v rest sc c) {ts : List Tok} {bs : List β}
    (hi : Items seg sc ts bs) : ∃ cs, cs.map g = bs ∧ Items seg' sc ts cs := by
  induction hi with
  | nil => exact ⟨[], rfl, .nil⟩
  | last hv hs =>
    obtain ⟨c, h1, h2⟩ := h _ _ _ (.inl rfl) hs
    exact ⟨[c], by rw [List.map_cons, h1]; rfl, .last hv h2⟩
  | @cons v k rest b bs hc hs _ ih =>
    obtain ⟨c, h1, h2⟩ := h _ _ _ (.inr ⟨k, rest, rfl, hc⟩) hs
    obtain ⟨cs, h3, h4⟩ := ih
    exact ⟨c :: cs, by rw [List.map_cons, h1, h3], .cons hc h2 h4⟩

omit [Env] in
theorem itemsAll_lift {β γ : Type} {seg : List Tok → List Tok → Span → β → Prop}
    {seg' : List Tok → List Tok → Span → γ → Prop} {g : γ → β}
    (h : ∀ v rest sc b, Boundary rest → seg v rest sc b → ∃ c, g c = b ∧ seg' v rest sc c) {ss : List Stream}
    {bs : List β} (hi : ItemsAll seg ss bs) : ∃ cs, cs.map g = bs ∧ ItemsAll seg' ss cs := by
  induction hi with
  | nil => exact ⟨[], rfl, .nil⟩
  | cons h1 _ ih =>
    obtain ⟨cs, h2, h3⟩ := items_lift (fun v rest b => h v rest _ b) h1
    obtain ⟨cs', h4, h5⟩ := ih
    exact ⟨cs ++ cs', by rw [List.map_append, h2, h4], .cons h3 h5⟩

theorem options_read {κ β : Type} {apply : κ → β → κ} {valid : κ → β → Prop}
    {seg : List Tok → List Tok → Span → β → Prop} {step : Str → Span → M (Acc κ × Stream) Unit}
    (hok : ∀ k errs v rest sc u b, seg v rest sc b → Boundary rest → valid k b →
      keyStep step (⟨k, errs⟩, ⟨v ++ rest, sc, u⟩) = (.ok (), (⟨apply k b, errs⟩, ⟨rest, sc, u⟩)))
    {init : κ} {inner : List Tok} {close : Span} {bs : List β} (hi : Items seg close inner bs)
    (hv : AllValid apply valid init bs) (u : Option Span) :
    runAccPush init (parseStruct step) [⟨inner, close, u⟩] = (.ok (bs.foldl apply init), [⟨[], close, u⟩]) := by
  have hi' : ItemsAll seg [⟨inner, close, u⟩] (bs ++ []) := .cons hi .nil
  rw [List.append_nil] at hi'
  rw [runAccPush, parseStruct_fold hok hi' init Errors.new hv]
  rfl

omit [Env] in
/-- The attributes with options are read from `(..)` and `= {..}`. -/
theorem options_named {α : Type} {ofBool : Span → Bool → α} {inline : Mode → M (List Stream) α} {fl : Span → Res α}
    {inner vt rest : List Tok} {close sp sc : Span} {x : α} (h : Options inner close vt)
    (hi : ∀ u, inline (.named sp) [⟨inner, close, u⟩] = (.ok x, [⟨[], close, u⟩])) :
    ReadsFully (parseNamedMetaItem (boolOrBraces ofBool inline) inline fl sp) vt rest sc x := by
  cases h with
  | paren a => exact named_paren a close hi
  | brace j s a =>
    refine named_eq j s fun u => ?_
    have h1 : peekLitBool ⟨[.group .brace inner a close] ++ rest, sc, u⟩ = false := rfl
    have h2 : (⟨[.group .brace inner a close] ++ rest, sc, u⟩ : Stream).peekDelim .brace = true := rfl
    simp only [boolOrBraces, h1, h2, Bool.false_eq_true, if_false, if_true]
    exact delimited_clear hi rest sc u

omit [Env] in
theorem switch_named {α : Type} {ofBool : Span → Bool → α} {inline : Mode → M (List Stream) α} {fl : Span → Res α}
    {vt rest : List Tok} {b : Bool} {sp sc : Span} (h : OptionsSwitch vt b) (hb : Boundary rest)
    (hf : ∃ s, fl sp = .ok (ofBool s true)) :
    ∃ s, ReadsFully (parseNamedMetaItem (boolOrBraces ofBool inline) inline fl sp) vt rest sc (ofBool s b) := by
  cases h with
  | bare =>
    obtain ⟨s, hf⟩ := hf
    exact ⟨s, named_bare hb hf⟩
  | value b j s s' =>
    refine ⟨s', named_eq j s fun u => ?_⟩
    have h1 : peekLitBool ⟨[boolTok b s'] ++ rest, sc, u⟩ = true := by cases b <;> rfl
    simp only [boolOrBraces, h1, if_true, M.map, litBool_reads b s' rest sc u]
    rfl

/-- `flatten` with a prefix. -/
theorem flatten_options {inner vt rest : List Tok} {close sp sc : Span} {ps : List (List Str)}
    (h : Options inner close vt) (hi : Items PrefixText close inner ps) (hl : ps.length ≤ 1) (nm : Str) :
    ∃ x, ReadsFully (flattenDict.named nm sp) vt rest sc x ∧ x.value = true ∧ x.pre.map (·.segs) = ps.head? := by
  obtain ⟨cs, hcs, hi⟩ := items_lift (g := Path.segs)
    (seg' := fun v rest sc p => ∃ sp vt, KeyToks [txt "prefix"] sp v vt ∧
      ReadsFully (anyPathDict.named (txt "prefix") sp) vt rest sc p)
    (fun v rest segs hb => by
      rintro ⟨sp, vt, hk, lead, pt, hp, hv⟩
      refine ⟨⟨lead, segs, pathSpan pt⟩, rfl, sp, vt, hk, ?_⟩
      show ReadsFully (parseNamedWith anyPathDict.parse (parseFirst anyPathDict.parse) anyPathDict.flag sp) _ _ _ _
      rw [← parseNamedMetaItem_eq_with]
      exact named_value hv (path_reads hp hb close) fun b => path_reads hp (.inl rfl) b) hi
  have hlen : cs.length ≤ 1 := by rw [← hcs, List.length_map] at hl; exact hl
  have hval : AllValid (fun k (p : Path) => keepFirst k p) (fun k _ => k.isNone = true) FieldStatus.none cs := by
    match cs, hlen with
    | [], _ => trivial
    | [p], _ => exact ⟨rfl, trivial⟩
  have hrun := options_read (apply := fun k (p : Path) => keepFirst k p) (valid := fun k _ => k.isNone = true)
    (step := fun path span =>
      if path = txt "prefix" then slotItem id (fun st _ => st) (anyPathDict.named (txt "prefix") span) (txt "prefix") span
      else unknownItem path span [txt "prefix"])
    (fun k errs v rest sc u p ⟨sp, vt, hk, hr⟩ hb hv =>
      slot_ok (get := id) (put := fun st _ => st) hk hr hb (if_pos rfl) k errs u hv) hi hval
  refine ⟨⟨sp, true, (cs.foldl (fun k p => keepFirst k p) FieldStatus.none).intoOption⟩, ?_, rfl, ?_⟩
  · refine options_named (ofBool := fun sp b => (⟨sp, b, none⟩ : FlattenD)) (inline := flattenInline)
      (fl := flattenDict.flag) (sp := sp) h fun u => ?_
    simp only [flattenInline, M.map, hrun u]
    rfl
  · rw [← hcs]
    match cs, hlen with
    | [], _ => rfl
    | [p], _ => rfl

/-- `container` with options. -/
theorem container_options {lib : SynLib} {inner vt rest : List Tok} {close sp sc : Span} {os : List ContainerOption}
    (h : Options inner close vt) (hi : Items (ContainerText lib) close inner os)
    (hn : (os.map ContainerOption.key).Nodup) (nm : Str) :
    ∃ x, ReadsFully ((containerDict lib).named nm sp) vt rest sc x ∧ x.value = true ∧
      x.lifetime = os.findSome? ContainerOption.lifetime? ∧ x.ty = os.findSome? ContainerOption.ty? := by
  let apply : FieldStatus (List Tok) × FieldStatus (List Tok) → ContainerOption → _ := fun k o =>
    match o with
    | .lifetime x => (keepFirst k.1 x, k.2)
    | .ty x => (k.1, keepFirst k.2 x)
  let free : FieldStatus (List Tok) × FieldStatus (List Tok) → ContainerOption → Bool := fun k o =>
    match o with
    | .lifetime _ => k.1.isNone
    | .ty _ => k.2.isNone
  have hval := (allValid_generic (apply := apply) (key := ContainerOption.key) (rep := []) (free := free)
    (name? := fun _ => none) (idents := fun _ => []) (fine := fun _ => True)
    (by intro k a b; cases a <;> cases b <;> simp [apply, free, ContainerOption.key, keepFirst_isNone])
    (by intro k a x; simp) (.none, .none) os).2
    ⟨by rw [List.filter_eq_self.2 (by simp)]; exact hn,
      by rw [List.filterMap_eq_nil_iff.2 (fun _ _ => rfl)]; exact .nil, fun _ _ => trivial,
      fun b _ => by cases b <;> rfl, by simp⟩
  let step : Str → Span → M (Acc (FieldStatus (List Tok) × FieldStatus (List Tok)) × Stream) Unit := fun path span =>
    if path = txt "lifetime" then
      slotItem (·.1) (fun st k => (st, k.2)) ((synDict lib.lifetime).named (txt "lifetime") span) (txt "lifetime") span
    else if path = txt "ty" then
      slotItem (·.2) (fun st k => (k.1, st)) ((synDict lib.ty).named (txt "ty") span) (txt "ty") span
    else unknownItem path span [txt "lifetime", txt "ty"]
  have hrun := options_read (apply := apply) (step := step)
    (fun k errs v rest sc u o hs hb hv => by
      cases hs with
      | lifetime hs =>
        obtain ⟨sp, vt, hk, hv'⟩ := hs
        exact slot_ok (step := step) (name := txt "lifetime") (func := (synDict lib.lifetime).named (txt "lifetime") sp)
          (get := (·.1)) (put := fun st k => (st, k.2)) hk
          (syn_value hv' _ _) hb (if_pos rfl) k errs u hv.1
      | ty hs =>
        obtain ⟨sp, vt, hk, hv'⟩ := hs
        exact slot_ok (step := step) (name := txt "ty") (func := (synDict lib.ty).named (txt "ty") sp)
          (get := (·.2)) (put := fun st k => (k.1, st)) hk
          (syn_value hv' _ _) hb ((if_neg (by decide)).trans (if_pos rfl)) k errs u hv.1) hi hval
  refine ⟨⟨sp, true, (os.foldl apply (.none, .none)).1.intoOption, (os.foldl apply (.none, .none)).2.intoOption⟩,
    ?_, rfl, ?_, ?_⟩
  · refine options_named (ofBool := fun sp b => (⟨sp, b, none, none⟩ : ContainerD)) (inline := containerInline lib)
      (fl := (containerDict lib).flag) (sp := sp) h fun u => ?_
    simp only [containerInline, M.map, step] at hrun ⊢
    simp only [hrun u]
    rfl
  · rw [fold_slot (slot := Prod.fst) (val? := ContainerOption.lifetime?) (by intro k b; cases b <;> rfl)]
    exact slotPick_none _
  · rw [fold_slot (slot := Prod.snd) (val? := ContainerOption.ty?) (by intro k b; cases b <;> rfl)]
    exact slotPick_none _

/-- The options of `transparent`, by position of their key in `transparentKeys`. -/
inductive TransparentKey
  | flattenNamed | flattenUnnamed | append | rest
deriving DecidableEq

def TransparentKey.text : TransparentKey → String
  | .flattenNamed => "flatten_named"
  | .flattenUnnamed => "flatten_unnamed"
  | .append => "append"
  | .rest => "rest"

def TransparentKey.get (k : TransparentSt) : TransparentKey → FieldStatus Bool
  | .flattenNamed => k.flattenNamed
  | .flattenUnnamed => k.flattenUnnamed
  | .append => k.append
  | .rest => k.rest

def TransparentKey.put (st : FieldStatus Bool) (k : TransparentSt) : TransparentKey → TransparentSt
  | .flattenNamed => { k with flattenNamed := st }
  | .flattenUnnamed => { k with flattenUnnamed := st }
  | .append => { k with append := st }
  | .rest => { k with rest := st }

omit [Env] in
theorem TransparentKey.text_inj {a b : TransparentKey} : a.text = b.text ↔ a = b := by
  cases a <;> cases b <;> simp [text]

omit [Env] in
theorem TransparentKey.get_put (k : TransparentSt) (st : FieldStatus Bool) (a b : TransparentKey) :
    b.get (a.put st k) = if a = b then st else b.get k := by
  cases a <;> cases b <;> rfl

omit [Env] in
theorem lookup_options (key : TransparentKey) (cs : List (TransparentKey × Bool)) :
    (cs.map fun c => (c.1.text, c.2)).lookup key.text = cs.findSome? fun c => if c.1 = key then some c.2 else none := by
  induction cs with
  | nil => rfl
  | cons c cs ih =>
    rw [List.map_cons, List.lookup_cons, List.findSome?_cons, ih]
    by_cases h : c.1 = key
    · simp [h]
    · have : (key.text == c.1.text) = false := by
        rw [beq_eq_false_iff_ne]
        exact fun h' => h (TransparentKey.text_inj.1 h').symm
      simp [h, this]

/-- `transparent` with options. -/
theorem transparent_options {inner vt rest : List Tok} {close sp sc : Span} {os : List (String × Bool)}
    (h : Options inner close vt) (hi : Items TransparentText close inner os)
    (hn : (os.map (·.1)).Nodup) (nm : Str) :
    ∃ x, ReadsFully (transparentDict.named nm sp) vt rest sc x ∧
      StructWord.Is (.transparent true os) (.transparent x) := by
  obtain ⟨cs, hcs, hi⟩ := items_lift (g := fun c : TransparentKey × Bool => (c.1.text, c.2))
    (seg' := fun v rest sc c => ∃ sp vt, KeyToks [c.1.text.toList] sp v vt ∧
      ReadsFully (boolDict.named (keyString [c.1.text.toList]) sp) vt rest sc c.2)
    (fun v rest o hb => by
      rintro ⟨hm, sp, vt, hk, hv⟩
      have : ∃ c : TransparentKey, c.text = o.1 := by
        simp only [transparentKeys, List.mem_cons, List.not_mem_nil, or_false] at hm
        rcases hm with hm | hm | hm | hm
        · exact ⟨.flattenNamed, hm.symm⟩
        · exact ⟨.flattenUnnamed, hm.symm⟩
        · exact ⟨.append, hm.symm⟩
        · exact ⟨.rest, hm.symm⟩
      obtain ⟨c, hc⟩ := this
      exact ⟨(c, o.2), by rw [hc], sp, vt, by rw [hc]; exact hk, bool_switch hv hb _ _ _⟩) hi
  let apply : TransparentSt → TransparentKey × Bool → TransparentSt := fun k c => c.1.put (keepFirst (c.1.get k) c.2) k
  have hval := (allValid_generic (apply := apply) (key := fun c => c.1.text) (rep := [])
    (free := fun k c => (c.1.get k).isNone) (name? := fun _ => none) (idents := fun _ => []) (fine := fun _ => True)
    (by
      intro k a b
      simp only [apply, TransparentKey.get_put, TransparentKey.text_inj, List.not_mem_nil]
      by_cases hab : a.1 = b.1
      · simp [hab, keepFirst_isNone]
      · simp [hab])
    (by intro k a x; simp) {} cs).2
    ⟨by rw [List.filter_eq_self.2 (by simp)]; rw [← hcs, List.map_map] at hn; exact hn,
      by rw [List.filterMap_eq_nil_iff.2 (fun _ _ => rfl)]; exact .nil, fun _ _ => trivial,
      fun b _ => by obtain ⟨b, _⟩ := b; cases b <;> rfl, by simp⟩
  let step : Str → Span → M (Acc TransparentSt × Stream) Unit := fun path span =>
    if path = txt "flatten_named" then
      slotItem (·.flattenNamed) (fun st k => { k with flattenNamed := st }) (boolDict.named path span) path span
    else if path = txt "flatten_unnamed" then
      slotItem (·.flattenUnnamed) (fun st k => { k with flattenUnnamed := st }) (boolDict.named path span) path span
    else if path = txt "append" then
      slotItem (·.append) (fun st k => { k with append := st }) (boolDict.named path span) path span
    else if path = txt "rest" then
      slotItem (·.rest) (fun st k => { k with rest := st }) (boolDict.named path span) path span
    else unknownItem path span [txt "flatten_named", txt "flatten_unnamed", txt "append", txt "rest"]
  have hstep : ∀ (c : TransparentKey) (sp : Span), step (keyString [c.text.toList]) sp =
      slotItem c.get (fun st k => c.put st k) (boolDict.named (keyString [c.text.toList]) sp)
        (keyString [c.text.toList]) sp := by
    intro c sp
    cases c with
    | flattenNamed => exact if_pos rfl
    | flattenUnnamed => exact (if_neg (by decide)).trans (if_pos rfl)
    | append => exact (if_neg (by decide)).trans ((if_neg (by decide)).trans (if_pos rfl))
    | rest => exact (if_neg (by decide)).trans ((if_neg (by decide)).trans ((if_neg (by decide)).trans (if_pos rfl)))
  have hrun := options_read (apply := apply) (step := step)
    (fun k errs v rest sc u c ⟨sp, vt, hk, hr⟩ hb hv =>
      slot_ok (get := c.1.get) (put := fun st k => c.1.put st k) hk hr hb (hstep c.1 sp) k errs u hv.1) hi hval
  have hslot : ∀ key : TransparentKey, (key.get (cs.foldl apply {})).intoOption = os.lookup key.text := by
    intro key
    rw [fold_slot (slot := key.get) (val? := fun c => if c.1 = key then some c.2 else none) (by
      intro k b
      simp only [apply, TransparentKey.get_put]
      by_cases hb : b.1 = key
      · simp [hb]
      · simp [hb]), ← hcs, lookup_options]
    have : key.get {} = FieldStatus.none := by cases key <;> rfl
    rw [this]
    exact slotPick_none _
  let k := cs.foldl apply {}
  refine ⟨⟨sp, true, k.flattenNamed.intoOption, k.flattenUnnamed.intoOption, k.append.intoOption,
    k.rest.intoOption⟩, ?_, rfl, hslot .flattenNamed, hslot .flattenUnnamed, hslot .append, hslot .rest⟩
  refine options_named (ofBool := fun sp b => (⟨sp, b, none, none, none, none⟩ : TransparentD))
    (inline := transparentInline) (fl := transparentDict.flag) (sp := sp) h fun u => ?_
  simp only [transparentInline, M.map, step] at hrun ⊢
  simp only [hrun u]
  rfl

omit [Env] in
theorem allValid_true {κ β : Type} {apply : κ → β → κ} (xs : List β) (k : κ) :
    AllValid apply (fun _ _ => True) k xs := by
  induction xs generalizing k with
  | nil => trivial
  | cons x xs ih => exact ⟨trivial, ih _⟩

omit [Env] in
/-- A list of paths. -/
theorem paths_value {lib : SynLib} {vt rest : List Tok} {xs : List (List Tok)} (h : PathsText lib vt xs)
    (hb : Boundary rest) (nm : Str) (sp sc : Span) : ReadsFully ((modPathVec lib).named nm sp) vt rest sc xs := by
  show ReadsFully (parseNamedWith (modPathVec lib).parse (modPathVec lib).inline (modPathVec lib).flag sp) _ _ _ _
  rw [← parseNamedMetaItem_eq_with]
  have key : ∀ {inner close xs},
      Items (fun v rest sc x => ReadsFully lib.modPath v rest sc x) close inner xs → ∀ (m : Mode) (u : Option Span),
      (modPathVec lib).inline m [⟨inner, close, u⟩] = (.ok xs, [⟨[], close, u⟩]) := by
    intro inner close xs hi m u
    have := itemLoop_fold (κ := List (List Tok)) (apply := fun k x => k ++ [x]) (valid := fun _ _ => True)
      (step := stepPush lib.modPath pushBack)
      (fun k errs v rest sc u b hs _ _ => by
        simp only [stepPush, hs u]
        rfl) hi [] Errors.new u (inner.length + 1) (Nat.lt_succ_self _) (allValid_true xs [])
    have hf : ∀ (k : List (List Tok)), xs.foldl (fun k x => k ++ [x]) k = k ++ xs := by
      clear hi this
      induction xs with
      | nil => simp
      | cons x xs ih => intro k; rw [List.foldl_cons, ih]; simp
    rw [hf, List.nil_append] at this
    show runAcc [] (forStreams (itemLoop (stepPush lib.modPath pushBack))) _ = _
    simp only [runAcc, forStreams, forStreams.go, this]
    rfl
  cases h with
  | bare => exact named_bare hb rfl
  | list hl hi =>
    cases hl with
    | paren a => exact named_paren a _ fun u => key hi _ u
    | bracket j s a =>
      have := delimited_clear (f := (modPathVec lib).inline) (m := .unnamed) (dl := .bracket) (a := a)
        (fun u => key hi _ u) rest sc
      exact named_eq j s this

/-- Switches of variants. -/
theorem opt_switch {vt rest : List Tok} {b : Bool} (h : Switch vt b) (hb : Boundary rest) (nm : Str) (sp sc : Span) :
    ∃ x : Option (Spanned Bool), x.map (·.value) = some b ∧
      ReadsFully ((optionDict (spannedDict boolDict)).named nm sp) vt rest sc x := by
  have key : ∀ (s : Span) (rest : List Tok) (sc : Span), ∃ x : Option (Spanned Bool), x.map (·.value) = some b ∧
      ReadsFully ((optionDict (spannedDict boolDict)).parse (.named sp)) [boolTok b s] rest sc x := by
    intro s rest sc
    refine ⟨some ⟨b, (Env.join (⟨rest, sc, none⟩ : Stream).span s).getD s⟩, rfl, fun u => ?_⟩
    cases b <;> rfl
  cases h with
  | bare =>
    exact ⟨some ⟨true, sp⟩, rfl, named_bare (p := (optionDict (spannedDict boolDict)).parse)
      (fl := (optionDict (spannedDict boolDict)).flag) hb rfl⟩
  | value s hv =>
    cases hv with
    | eq j s' =>
      obtain ⟨x, h1, h2⟩ := key s rest sc
      exact ⟨x, h1, named_eq (fl := (optionDict (spannedDict boolDict)).flag)
        (i := parseFirst (optionDict (spannedDict boolDict)).parse) j s' h2⟩
    | paren a c =>
      obtain ⟨x, h1, h2⟩ := key s [] c
      exact ⟨x, h1, named_paren (p := (optionDict (spannedDict boolDict)).parse)
        (fl := (optionDict (spannedDict boolDict)).flag) a c fun u => first_clear h2 u⟩

/-! ## One attribute -/

/-- What an attribute says, without the places that are kept for messages. -/
def FieldAttr.word : FieldAttr → FieldWord
  | .flatten x => .flatten x.value (x.pre.map (·.segs))
  | .append x => .append x.value
  | .rest x => .rest x.value
  | .default (.default _) => .default none
  | .default (.expr e) => .default (some e)
  | .with_ x => .with_ x
  | .rename _ n => .rename n.1
  | .alias _ n => .alias n.1
  | .container x => .container x.value x.lifetime x.ty
  | .skip x => .skip x.value
  | .map x => .map x
  | .andThen x => .andThen x

/-- C94: an attribute of a field is read as it is written. -/
theorem c94_field_item {lib : SynLib} {v rest : List Tok} {sc : Span} {w : FieldWord} (hb : Boundary rest)
    (h : FieldText lib v rest sc w) : ∃ b, b.word = w ∧ FieldSeg lib v rest sc b := by
  cases h with
  | flattenSwitch h =>
    obtain ⟨sp, vt, hk, h⟩ := h
    obtain ⟨s, hr⟩ := switch_named (ofBool := fun sp b => (⟨sp, b, none⟩ : FlattenD)) (inline := flattenInline)
      (fl := flattenDict.flag) (sp := sp) (sc := sc) h hb ⟨sp, rfl⟩
    exact ⟨.flatten ⟨s, _, none⟩, rfl, .flatten hk hr⟩
  | flatten h hi hl =>
    obtain ⟨sp, vt, hk, h⟩ := h
    obtain ⟨x, hr, h1, h2⟩ := flatten_options (sp := sp) (sc := sc) (rest := rest) h hi hl (txt "flatten")
    exact ⟨.flatten x, by rw [FieldAttr.word, h1, h2], .flatten hk hr⟩
  | append h =>
    obtain ⟨sp, vt, hk, h⟩ := h
    obtain ⟨y, rfl, hr⟩ := spanned_reads (bool_switch h hb (txt "append") sp sc)
    exact ⟨.append y, rfl, .append hk hr⟩
  | rest h =>
    obtain ⟨sp, vt, hk, h⟩ := h
    obtain ⟨y, rfl, hr⟩ := spanned_reads (bool_switch h hb (txt "rest") sp sc)
    exact ⟨.rest y, rfl, .rest hk hr⟩
  | @default x h =>
    obtain ⟨sp, vt, hk, h⟩ := h
    exact ⟨.default (writtenDefault sp x), by cases x <;> rfl, .default hk (default_value h hb _ _ _)⟩
  | with_ h =>
    obtain ⟨sp, vt, hk, h⟩ := h
    exact ⟨.with_ _, rfl, .with_ hk (syn_value h _ _)⟩
  | @rename name s h =>
    obtain ⟨sp, vt, hk, h⟩ := h
    exact ⟨.rename sp (name, s), rfl, .rename hk (ident_value h _ _ _ _)⟩
  | @alias name s h =>
    obtain ⟨sp, vt, hk, h⟩ := h
    exact ⟨.alias sp (name, s), rfl, .alias hk (ident_value h _ _ _ _)⟩
  | containerSwitch h =>
    obtain ⟨sp, vt, hk, h⟩ := h
    obtain ⟨s, hr⟩ := switch_named (ofBool := fun sp b => (⟨sp, b, none, none⟩ : ContainerD))
      (inline := containerInline lib) (fl := (containerDict lib).flag) (sp := sp) (sc := sc) h hb ⟨sp, rfl⟩
    exact ⟨.container ⟨s, _, none, none⟩, rfl, .container hk hr⟩
  | container h hi hn =>
    obtain ⟨sp, vt, hk, h⟩ := h
    obtain ⟨x, hr, h1, h2, h3⟩ := container_options (sp := sp) (sc := sc) (rest := rest) h hi hn (txt "container")
    exact ⟨.container x, by rw [FieldAttr.word, h1, h2, h3], .container hk hr⟩
  | skip h =>
    obtain ⟨sp, vt, hk, h⟩ := h
    obtain ⟨y, rfl, hr⟩ := spanned_reads (bool_switch h hb (txt "container") sp sc)
    exact ⟨.skip y, rfl, .skip hk hr⟩
  | map h =>
    obtain ⟨sp, vt, hk, h⟩ := h
    exact ⟨.map _, rfl, .map hk (expr_value h hb _ _ _)⟩
  | andThen h =>
    obtain ⟨sp, vt, hk, h⟩ := h
    exact ⟨.andThen _, rfl, .andThen hk (expr_value h hb _ _ _)⟩

/-- C94: an attribute of a structure is read as it is written. -/
theorem c94_struct_item {lib : SynLib} {v rest : List Tok} {sc : Span} {w : StructWord} (hb : Boundary rest)
    (h : StructText lib v rest sc w) : ∃ b, w.Is b ∧ StructDefSeg lib v rest sc b := by
  cases h with
  | transparentSwitch h =>
    obtain ⟨sp, vt, hk, h⟩ := h
    obtain ⟨s, hr⟩ := switch_named (ofBool := fun sp b => (⟨sp, b, none, none, none, none⟩ : TransparentD))
      (inline := transparentInline) (fl := transparentDict.flag) (sp := sp) (sc := sc) h hb ⟨sp, rfl⟩
    exact ⟨.transparent ⟨s, _, none, none, none, none⟩, ⟨rfl, rfl, rfl, rfl, rfl⟩, .transparent hk hr⟩
  | transparent h hi hn =>
    obtain ⟨sp, vt, hk, h⟩ := h
    obtain ⟨x, hr, h1⟩ := transparent_options (sp := sp) (sc := sc) (rest := rest) h hi hn (txt "transparent")
    exact ⟨.transparent x, h1, .transparent hk hr⟩
  | allowUnknown h =>
    obtain ⟨sp, vt, hk, h⟩ := h
    exact ⟨.allowUnknown _, rfl, .allowUnknown hk (bool_switch h hb _ _ _)⟩
  | @default x h =>
    obtain ⟨sp, vt, hk, h⟩ := h
    exact ⟨.default (writtenDefault sp x), ⟨sp, rfl⟩, .default hk (default_value h hb _ _ _)⟩
  | crate h =>
    obtain ⟨sp, vt, hk, h⟩ := h
    exact ⟨.crate _, rfl, .crate hk (syn_value h _ _)⟩
  | andThen h =>
    obtain ⟨sp, vt, hk, h⟩ := h
    exact ⟨.andThen _, rfl, .andThen hk (expr_value h hb _ _ _)⟩
  | attributes h =>
    obtain ⟨sp, vt, hk, h⟩ := h
    exact ⟨.attributes _, rfl, .attributes hk (paths_value h hb _ _ _)⟩

/-- C94: an attribute of a variant is read as it is written. -/
theorem c94_variant_item {v rest : List Tok} {w : VariantWord} (hb : Boundary rest) (h : VariantText v w) (sc : Span) :
    ∃ b, w.Is b ∧ VariantSeg v rest sc b := by
  cases h with
  | transparent h =>
    obtain ⟨sp, vt, hk, h⟩ := h
    obtain ⟨y, h1, hr⟩ := opt_switch h hb (txt "transparent") sp sc
    exact ⟨.transparent y, h1, .transparent hk hr⟩
  | allowUnknown h =>
    obtain ⟨sp, vt, hk, h⟩ := h
    exact ⟨.allowUnknown _, rfl, .allowUnknown hk (bool_switch h hb _ _ _)⟩
  | flatten h =>
    obtain ⟨sp, vt, hk, h⟩ := h
    obtain ⟨y, h1, hr⟩ := opt_switch h hb (txt "flatten") sp sc
    exact ⟨.flatten y, h1, .flatten hk hr⟩
  | @rename name s h =>
    obtain ⟨sp, vt, hk, h⟩ := h
    exact ⟨.rename sp (name, s), rfl, .rename hk (ident_value h _ _ _ _)⟩
  | @alias name s h =>
    obtain ⟨sp, vt, hk, h⟩ := h
    exact ⟨.alias sp (name, s), rfl, .alias hk (ident_value h _ _ _ _)⟩
  | skip h =>
    obtain ⟨sp, vt, hk, h⟩ := h
    obtain ⟨y, h1, hr⟩ := spanned_reads (bool_switch h hb (txt "skip") sp sc)
    exact ⟨.skip y, h1, .skip hk hr⟩

/-- C94: an attribute of an enum is read as it is written. -/
theorem c94_enum_item {lib : SynLib} {v rest : List Tok} {sc : Span} {w : EnumWord} (hb : Boundary rest)
    (h : EnumText lib v rest sc w) : ∃ b, w.Is b ∧ EnumDefSeg lib v rest sc b := by
  cases h with
  | allowUnknown h =>
    obtain ⟨sp, vt, hk, h⟩ := h
    exact ⟨.allowUnknown _, rfl, .allowUnknown hk (bool_switch h hb _ _ _)⟩
  | @default x h =>
    obtain ⟨sp, vt, hk, h⟩ := h
    exact ⟨.default (writtenDefault sp x), ⟨sp, rfl⟩, .default hk (default_value h hb _ _ _)⟩
  | crate h =>
    obtain ⟨sp, vt, hk, h⟩ := h
    exact ⟨.crate _, rfl, .crate hk (syn_value h _ _)⟩
  | andThen h =>
    obtain ⟨sp, vt, hk, h⟩ := h
    exact ⟨.andThen _, rfl, .andThen hk (expr_value h hb _ _ _)⟩
  | attributes h =>
    obtain ⟨sp, vt, hk, h⟩ := h
    exact ⟨.attributes _, rfl, .attributes hk (paths_value h hb _ _ _)⟩

/-! ## Fields -/

omit [Env] in
theorem word_key (b : FieldAttr) : b.word.key = b.key := by
  cases b with
  | default x => cases x <;> rfl
  | _ => rfl

omit [Env] in
theorem map_word_key (bs : List FieldAttr) : (bs.map FieldAttr.word).map FieldWord.key = bs.map FieldAttr.key := by
  rw [List.map_map]
  exact List.map_congr_left fun b _ => word_key b

omit [Env] in
theorem word_name (b : FieldAttr) : b.word.name? = b.name?.map (·.1) := by
  cases b with
  | default x => cases x <;> rfl
  | _ => rfl

omit [Env] in
theorem findSome_word {α β : Type} {p : FieldWord → Option β} {q : FieldAttr → Option α} {g : α → β}
    (h : ∀ b, p b.word = (q b).map g) (bs : List FieldAttr) :
    (bs.map FieldAttr.word).findSome? p = (bs.findSome? q).map g := by
  induction bs with
  | nil => rfl
  | cons b bs ih =>
    rw [List.map_cons, List.findSome?_cons, List.findSome?_cons, h, ih]
    cases q b <;> rfl

omit [Env] in
theorem filterMap_word {α β : Type} {p : FieldWord → Option β} {q : FieldAttr → Option α} {g : α → β}
    (h : ∀ b, p b.word = (q b).map g) (bs : List FieldAttr) :
    (bs.map FieldAttr.word).filterMap p = (bs.filterMap q).map g := by
  induction bs with
  | nil => rfl
  | cons b bs ih =>
    rw [List.map_cons, List.filterMap_cons, List.filterMap_cons, h, ih]
    cases q b <;> rfl

omit [Env] in
theorem wordsOk_iff (f : FieldIn) (bs : List FieldAttr) :
    WordsOk (f.ident.map (·.1)) (bs.map FieldAttr.word) ↔ FieldListOk f bs ∧ Compatible bs := by
  have hn : (bs.map FieldAttr.word).filterMap FieldWord.name? = (bs.filterMap FieldAttr.name?).map (·.1) :=
    filterMap_word word_name bs
  constructor
  · rintro ⟨h1, h2, h3, h4, h5⟩
    refine ⟨⟨map_word_key bs ▸ h1, fun ho b hb => ?_, hn ▸ h3, fun b hb n hbn => ?_⟩,
      by rw [Compatible, ← map_word_key]; exact h5⟩
    · have := h2 (by rw [ho]; rfl) b.word (List.mem_map.2 ⟨b, hb, rfl⟩)
      rwa [word_key] at this
    · exact h4 b.word (List.mem_map.2 ⟨b, hb, rfl⟩) n.1 (by rw [word_name, hbn]; rfl)
  · rintro ⟨⟨h1, h2, h3, h4⟩, h5⟩
    refine ⟨(map_word_key bs).symm ▸ h1, fun ho w hw => ?_, hn.symm ▸ h3, fun w hw n hwn => ?_,
      (map_word_key bs).symm ▸ h5⟩
    · obtain ⟨b, hb, rfl⟩ := List.mem_map.1 hw
      rw [word_key]
      exact h2 (by cases hf : f.ident <;> simp_all) b hb
    · obtain ⟨b, hb, rfl⟩ := List.mem_map.1 hw
      rw [word_name] at hwn
      obtain ⟨m, hm, rfl⟩ := Option.map_eq_some_iff.1 hwn
      exact h4 b hb m hm

omit [Env] in
theorem flatten_word (bs : List FieldAttr) : (bs.map FieldAttr.word).findSome? FieldWord.flatten? =
    (bs.findSome? FieldAttr.flatten?).map fun x => (x.value, x.pre.map (·.segs)) :=
  findSome_word (fun b => by
    cases b with
    | default x => cases x <;> rfl
    | _ => rfl) bs

omit [Env] in
theorem container_word (bs : List FieldAttr) : (bs.map FieldAttr.word).findSome? FieldWord.container? =
    (bs.findSome? FieldAttr.container?).map fun x => (x.value, x.lifetime, x.ty) :=
  findSome_word (fun b => by
    cases b with
    | default x => cases x <;> rfl
    | _ => rfl) bs

omit [Env] in
theorem names_word (f : FieldIn) (bs : List FieldAttr) :
    (declared f bs).idents.map (·.1) = wordNames (f.ident.map (·.1)) (bs.map FieldAttr.word) := by
  have h1 : (bs.map FieldAttr.word).findSome? FieldWord.rename? = (bs.findSome? FieldAttr.rename?).map (·.1) :=
    findSome_word (fun b => by
      cases b with
      | default x => cases x <;> rfl
      | _ => rfl) bs
  have h2 : (bs.map FieldAttr.word).filterMap FieldWord.alias? = (bs.filterMap FieldAttr.alias?).map (·.1) :=
    filterMap_word (fun b => by
      cases b with
      | default x => cases x <;> rfl
      | _ => rfl) bs
  simp only [declared, wordNames, List.map_append, h1, h2, flatten_word, Option.map_map]
  congr 1
  cases bs.findSome? FieldAttr.rename? with
  | some n => rfl
  | none =>
    simp only [Option.map_none]
    have : (Prod.fst ∘ fun x : FlattenD => (x.value, x.pre.map (·.segs))) = FlattenD.value := rfl
    rw [this]
    split
    · rfl
    · cases f.ident <;> rfl

omit [Env] in
theorem default_word (bs : List FieldAttr) : ∃ sp,
    bs.findSome? FieldAttr.default? = ((bs.map FieldAttr.word).findSome? FieldWord.default?).map (writtenDefault sp) := by
  have h : (bs.map FieldAttr.word).findSome? FieldWord.default? = (bs.findSome? FieldAttr.default?).map fun
      | .default _ => none
      | .expr e => some e :=
    findSome_word (fun b => by
      cases b with
      | default x => cases x <;> rfl
      | _ => rfl) bs
  rw [h]
  cases bs.findSome? FieldAttr.default? with
  | none => exact ⟨0, rfl⟩
  | some x =>
    cases x with
    | default sp => exact ⟨sp, rfl⟩
    | expr e => exact ⟨0, rfl⟩

/-- C94: a field is accepted exactly if the attributes that are written are fine, and then the field of the
generated code is what is written. -/
theorem c94_field {lib : SynLib} {f : FieldIn} {ss : List Stream} {ws : List FieldWord}
    (hm : ListStreams (deluxeAttrs f.attrs) ss) (hi : ItemsAll (FieldText lib) ss ws) :
    (∀ d, f.read lib = .ok d → WordsOk (f.ident.map (·.1)) ws ∧
      d.with_ = ws.findSome? FieldWord.with? ∧
      d.container.bind (·.lifetime) = (ws.findSome? FieldWord.container?).bind (·.2.1) ∧
      d.container.bind (·.ty) = (ws.findSome? FieldWord.container?).bind (·.2.2) ∧
      ∀ {V : Type} (sem : FieldSem V), Means (f.ident.map (·.1)) ws sem (d.toField sem)) ∧
    (WordsOk (f.ident.map (·.1)) ws → ∃ d, f.read lib = .ok d) := by
  obtain ⟨bs, rfl, hs⟩ := itemsAll_lift (seg' := FieldSeg lib) (fun v rest sc w hb h => c94_field_item hb h) hi
  constructor
  · intro d hd
    obtain ⟨h1, h2, rfl⟩ := (c47_field hm hs d).1 hd
    refine ⟨(wordsOk_iff f bs).2 ⟨h1, h2⟩, ?_, ?_, ?_, fun {V} sem => ?_⟩
    · rw [findSome_word (q := FieldAttr.with?) (g := id) (fun b => by
        cases b with
        | default x => cases x <;> rfl
        | _ => rfl) bs, Option.map_id]
      rfl
    · rw [container_word, Option.bind_map]
      rfl
    · rw [container_word, Option.bind_map]
      rfl
    · obtain ⟨sp, hd⟩ := default_word bs
      refine ⟨rfl, names_word f bs, ⟨sp, ?_⟩, ?_, ?_, ?_, ?_, ?_, ?_, rfl, rfl, rfl, rfl, rfl⟩
      · show (bs.findSome? FieldAttr.default?).map sem.default = _
        rw [hd, Option.map_map]
        rfl
      · rw [flatten_word, Option.map_map]
        show (bs.findSome? FieldAttr.flatten?).map _ = _
        congr 1
        funext x
        simp only [Function.comp_apply, Option.map_map]
        rfl
      · rw [findSome_word (q := FieldAttr.append?) (g := Spanned.value) (fun b => by
          cases b with
          | default x => cases x <;> rfl
          | _ => rfl) bs]
        rfl
      · rw [findSome_word (q := FieldAttr.rest?) (g := Spanned.value) (fun b => by
          cases b with
          | default x => cases x <;> rfl
          | _ => rfl) bs]
        rfl
      · rw [container_word, Option.map_map]
        rfl
      · rw [findSome_word (q := FieldAttr.skip?) (g := Spanned.value) (fun b => by
          cases b with
          | default x => cases x <;> rfl
          | _ => rfl) bs]
        rfl
      · rw [filterMap_word (q := FieldAttr.transform?) (g := id) (fun b => by
          cases b with
          | default x => cases x <;> rfl
          | _ => rfl) bs, List.map_id]
        rfl
  · intro h
    obtain ⟨h1, h2⟩ := (wordsOk_iff f bs).1 h
    exact ⟨_, (c47_field hm hs _).2 ⟨h1, h2, rfl⟩⟩

/-! ## Structures, variants and enums -/

omit [Env] in
/-- The attributes in pairs with what is written. -/
theorem itemsAll_pairs {β γ : Type} {R : β → γ → Prop} {seg : List Tok → List Tok → Span → γ → Prop}
    {ss : List Stream} {cs : List (β × γ)}
    (h : ItemsAll (fun v rest sc c => R c.1 c.2 ∧ seg v rest sc c.2) ss cs) :
    ItemsAll seg ss (cs.map (·.2)) ∧ ∀ c ∈ cs, R c.1 c.2 := by
  have one : ∀ {sc ts cs}, Items (fun v rest sc (c : β × γ) => R c.1 c.2 ∧ seg v rest sc c.2) sc ts cs →
      Items seg sc ts (cs.map (·.2)) ∧ ∀ c ∈ cs, R c.1 c.2 := by
    intro sc ts cs h
    induction h with
    | nil => exact ⟨.nil, by simp⟩
    | last hv h => exact ⟨.last hv h.2, by simpa using h.1⟩
    | cons hc h _ ih => exact ⟨.cons hc h.2 ih.1, List.forall_mem_cons.2 ⟨h.1, ih.2⟩⟩
  induction h with
  | nil => exact ⟨.nil, by simp⟩
  | cons h _ ih =>
    obtain ⟨h1, h2⟩ := one h
    refine ⟨by rw [List.map_append]; exact .cons h1 ih.1, fun c hc => ?_⟩
    rcases List.mem_append.1 hc with hc | hc
    · exact h2 c hc
    · exact ih.2 c hc

omit [Env] in
theorem findSome_pairs {β γ δ ε : Type} {R : β → γ → Prop} {p : β → Option δ} {q : γ → Option ε} {S : δ → ε → Prop}
    (h : ∀ w b, R w b → (p w = none ∧ q b = none) ∨ ∃ x y, p w = some x ∧ q b = some y ∧ S x y) :
    ∀ (cs : List (β × γ)), (∀ c ∈ cs, R c.1 c.2) →
      ((cs.map (·.1)).findSome? p = none ∧ (cs.map (·.2)).findSome? q = none) ∨
      ∃ x y, (cs.map (·.1)).findSome? p = some x ∧ (cs.map (·.2)).findSome? q = some y ∧ S x y
  | [], _ => .inl ⟨rfl, rfl⟩
  | c :: cs, hc => by
    simp only [List.map_cons, List.findSome?_cons]
    rcases h c.1 c.2 (hc c (List.mem_cons_self ..)) with ⟨h1, h2⟩ | ⟨x, y, h1, h2, h3⟩
    · rw [h1, h2]
      exact findSome_pairs h cs fun d hd => hc d (List.mem_cons_of_mem _ hd)
    · rw [h1, h2]
      exact .inr ⟨x, y, rfl, rfl, h3⟩

omit [Env] in
theorem findSome_pairs_eq {β γ δ ε : Type} {R : β → γ → Prop} {p : β → Option δ} {q : γ → Option ε} {g : ε → δ}
    (h : ∀ w b, R w b → p w = (q b).map g) {cs : List (β × γ)} (hc : ∀ c ∈ cs, R c.1 c.2) :
    ((cs.map (·.2)).findSome? q).map g = (cs.map (·.1)).findSome? p := by
  rcases findSome_pairs (p := p) (q := q) (S := fun x y => x = g y) (fun w b hr => by
      rw [h w b hr]
      cases q b with
      | none => exact .inl ⟨rfl, rfl⟩
      | some y => exact .inr ⟨_, y, rfl, rfl, rfl⟩) cs hc with ⟨h1, h2⟩ | ⟨x, y, h1, h2, h3⟩
  · rw [h1, h2]; rfl
  · rw [h1, h2, h3]; rfl

omit [Env] in
theorem filterMap_pairs_eq {β γ δ ε : Type} {R : β → γ → Prop} {p : β → Option δ} {q : γ → Option ε} {g : ε → δ}
    (h : ∀ w b, R w b → p w = (q b).map g) {cs : List (β × γ)} (hc : ∀ c ∈ cs, R c.1 c.2) :
    ((cs.map (·.2)).filterMap q).map g = (cs.map (·.1)).filterMap p := by
  induction cs with
  | nil => rfl
  | cons c cs ih =>
    have := ih fun d hd => hc d (List.mem_cons_of_mem _ hd)
    simp only [List.map_cons, List.filterMap_cons]
    rw [h c.1 c.2 (hc c (List.mem_cons_self ..))]
    cases q c.2 with
    | none => exact this
    | some y => exact congrArg (g y :: ·) this

omit [Env] in
theorem flatMap_pairs_eq {β γ δ : Type} {R : β → γ → Prop} {p : β → List δ} {q : γ → List δ}
    (h : ∀ w b, R w b → p w = q b) {cs : List (β × γ)} (hc : ∀ c ∈ cs, R c.1 c.2) :
    (cs.map (·.2)).flatMap q = (cs.map (·.1)).flatMap p := by
  induction cs with
  | nil => rfl
  | cons c cs ih =>
    simp only [List.map_cons, List.flatMap_cons, h c.1 c.2 (hc c (List.mem_cons_self ..)),
      ih fun d hd => hc d (List.mem_cons_of_mem _ hd)]

omit [Env] in
theorem default_pairs {β γ : Type} {R : β → γ → Prop} {p : β → Option (Option (List Tok))} {q : γ → Option DefaultD}
    (h : ∀ w b, R w b → (p w = none ∧ q b = none) ∨ ∃ x sp, p w = some x ∧ q b = some (writtenDefault sp x))
    {cs : List (β × γ)} (hc : ∀ c ∈ cs, R c.1 c.2) :
    ∃ sp, (cs.map (·.2)).findSome? q = ((cs.map (·.1)).findSome? p).map (writtenDefault sp) := by
  rcases findSome_pairs (p := p) (q := q) (S := fun x y => ∃ sp, y = writtenDefault sp x) (fun w b hr => by
      rcases h w b hr with h | ⟨x, sp, h1, h2⟩
      · exact .inl h
      · exact .inr ⟨x, _, h1, h2, sp, rfl⟩) cs hc with ⟨h1, h2⟩ | ⟨x, y, h1, h2, sp, rfl⟩
  · rw [h1, h2]; exact ⟨0, rfl⟩
  · rw [h1, h2]; exact ⟨sp, rfl⟩

/-- C94: an accepted structure is what is written. -/
theorem c94_struct {lib : SynLib} {d : StructIn} {ss : List Stream} {ws : List StructWord}
    (hm : ListStreams (deluxeAttrs d.attrs) ss) (hi : ItemsAll (StructText lib) ss ws) {r : StructDecl}
    (h : d.read lib = .ok r) :
    r.transparent.map (fun x => (x.value, x.flattenNamed, x.flattenUnnamed, x.append, x.rest)) =
      (ws.findSome? StructWord.transparent?).map (fun x => (x.1, x.2.lookup "flatten_named",
        x.2.lookup "flatten_unnamed", x.2.lookup "append", x.2.lookup "rest")) ∧
    r.allowUnknown = ws.findSome? StructWord.allowUnknown? ∧
    (∃ sp, r.default = (ws.findSome? StructWord.default?).map (writtenDefault sp)) ∧
    r.crate = ws.findSome? StructWord.crate? ∧ r.andThens = ws.filterMap StructWord.andThen? ∧
    r.attributes = ws.flatMap StructWord.paths := by
  obtain ⟨cs, rfl, hs⟩ := itemsAll_lift (g := Prod.fst)
    (seg' := fun v rest sc (c : StructWord × StructAttr) => c.1.Is c.2 ∧ StructDefSeg lib v rest sc c.2)
    (fun v rest sc w hb h => by
      obtain ⟨b, h1, h2⟩ := c94_struct_item hb h
      exact ⟨(w, b), rfl, h1, h2⟩) hi
  obtain ⟨hs, hc⟩ := itemsAll_pairs hs
  obtain ⟨ds, -, -, -, -, -, rfl⟩ := (c46_struct hm hs r).1 h
  refine ⟨?_, ?_, ?_, ?_, ?_, ?_⟩
  · show (List.findSome? StructAttr.transparent? _).map _ = _
    rcases findSome_pairs (p := StructWord.transparent?) (q := StructAttr.transparent?) (S := fun x y =>
        StructWord.Is (.transparent x.1 x.2) (.transparent y)) (fun w b hr => by
          cases w <;> cases b <;> first | exact hr.elim | exact .inl ⟨rfl, rfl⟩ | exact .inr ⟨_, _, rfl, rfl, hr⟩)
        cs hc with ⟨h1, h2⟩ | ⟨x, y, h1, h2, h3, h4, h5, h6, h7⟩
    · rw [h1, h2]; rfl
    · rw [h1, h2]
      simp only [Option.map_some, h3, h4, h5, h6, h7]
  · have := findSome_pairs_eq (p := StructWord.allowUnknown?) (q := StructAttr.allowUnknown?) (g := id) (fun w b hr => by
      cases w <;> cases b <;> first | exact hr.elim | rfl | exact congrArg some hr.symm) hc
    rwa [Option.map_id] at this
  · exact default_pairs (fun w b hr => by
      cases w <;> cases b <;> first | exact hr.elim | exact .inl ⟨rfl, rfl⟩ | skip
      obtain ⟨sp, rfl⟩ := hr
      exact .inr ⟨_, sp, rfl, rfl⟩) hc
  · have := findSome_pairs_eq (p := StructWord.crate?) (q := StructAttr.crate?) (g := id) (fun w b hr => by
      cases w <;> cases b <;> first | exact hr.elim | rfl | exact congrArg some hr.symm) hc
    rwa [Option.map_id] at this
  · have := filterMap_pairs_eq (p := StructWord.andThen?) (q := StructAttr.andThen?) (g := id) (fun w b hr => by
      cases w <;> cases b <;> first | exact hr.elim | rfl | exact congrArg some hr.symm) hc
    rwa [List.map_id] at this
  · exact flatMap_pairs_eq (p := StructWord.paths) (q := StructAttr.paths) (fun w b hr => by
      cases w <;> cases b <;> first | exact hr.elim | rfl | exact hr.symm) hc

/-- C94: an accepted variant is what is written. -/
theorem c94_variant {lib : SynLib} {v : VariantIn} {ss : List Stream} {ws : List VariantWord}
    (hm : ListStreams (deluxeAttrs v.attrs) ss) (hi : ItemsAll (fun v _ _ => VariantText v) ss ws) {r : VariantDecl}
    (h : v.read lib = .ok r) :
    r.idents.map (·.1) = variantWordNames lib v.ident.1 ws ∧ r.flatten = ws.findSome? VariantWord.flatten? ∧
    r.transparent = ws.findSome? VariantWord.transparent? ∧
    r.skip.map (·.value) = ws.findSome? VariantWord.skip? ∧
    r.allowUnknown = ws.findSome? VariantWord.allowUnknown? := by
  obtain ⟨cs, rfl, hs⟩ := itemsAll_lift (g := Prod.fst)
    (seg' := fun v rest sc (c : VariantWord × VariantAttr) => c.1.Is c.2 ∧ VariantSeg v rest sc c.2)
    (fun v rest sc w hb h => by
      obtain ⟨b, h1, h2⟩ := c94_variant_item hb h sc
      exact ⟨(w, b), rfl, h1, h2⟩) hi
  obtain ⟨hs, hc⟩ := itemsAll_pairs hs
  obtain ⟨ds, -, -, -, -, -, -, rfl⟩ := (c48_variant hm hs r).1 h
  have hf := findSome_pairs_eq (p := VariantWord.flatten?) (q := VariantAttr.flatten?) (g := Spanned.value)
    (fun w b hr => by
      cases w <;> cases b <;> first | exact hr.elim | rfl | exact hr.symm) hc
  refine ⟨?_, hf, ?_, ?_, ?_⟩
  · have h1 := findSome_pairs_eq (p := VariantWord.rename?) (q := VariantAttr.rename?) (g := Prod.fst) (fun w b hr => by
      cases w <;> cases b <;> first | exact hr.elim | rfl | exact congrArg some hr.symm) hc
    have h2 := filterMap_pairs_eq (p := VariantWord.alias?) (q := VariantAttr.alias?) (g := Prod.fst) (fun w b hr => by
      cases w <;> cases b <;> first | exact hr.elim | rfl | exact congrArg some hr.symm) hc
    simp only [declaredVariant, variantWordNames, List.map_append, ← h1, ← h2, ← hf]
    congr 1
    cases List.findSome? VariantAttr.rename? (cs.map (·.2)) with
    | some n => rfl
    | none =>
      simp only [Option.map_none]
      split <;> rfl
  · exact findSome_pairs_eq (p := VariantWord.transparent?) (q := VariantAttr.transparent?) (g := Spanned.value)
      (fun w b hr => by
        cases w <;> cases b <;> first | exact hr.elim | rfl | exact hr.symm) hc
  · exact findSome_pairs_eq (p := VariantWord.skip?) (q := VariantAttr.skip?) (g := Spanned.value) (fun w b hr => by
      cases w <;> cases b <;> first | exact hr.elim | rfl | exact congrArg some hr.symm) hc
  · have := findSome_pairs_eq (p := VariantWord.allowUnknown?) (q := VariantAttr.allowUnknown?) (g := id)
      (fun w b hr => by
        cases w <;> cases b <;> first | exact hr.elim | rfl | exact congrArg some hr.symm) hc
    rwa [Option.map_id] at this

/-- C94: an accepted enum is what is written. -/
theorem c94_enum {lib : SynLib} {d : EnumIn} {ss : List Stream} {ws : List EnumWord}
    (hm : ListStreams (deluxeAttrs d.attrs) ss) (hi : ItemsAll (EnumText lib) ss ws) {r : EnumDecl}
    (h : d.read lib = .ok r) :
    r.allowUnknown = ws.findSome? EnumWord.allowUnknown? ∧
    (∃ sp, r.default = (ws.findSome? EnumWord.default?).map (writtenDefault sp)) ∧
    r.crate = ws.findSome? EnumWord.crate? ∧ r.andThens = ws.filterMap EnumWord.andThen? ∧
    r.attributes = ws.flatMap EnumWord.paths := by
  obtain ⟨cs, rfl, hs⟩ := itemsAll_lift (g := Prod.fst)
    (seg' := fun v rest sc (c : EnumWord × EnumAttr) => c.1.Is c.2 ∧ EnumDefSeg lib v rest sc c.2)
    (fun v rest sc w hb h => by
      obtain ⟨b, h1, h2⟩ := c94_enum_item hb h
      exact ⟨(w, b), rfl, h1, h2⟩) hi
  obtain ⟨hs, hc⟩ := itemsAll_pairs hs
  obtain ⟨vs, -, -, -, rfl⟩ := (c68_enum hm hs r).1 h
  refine ⟨?_, ?_, ?_, ?_, ?_⟩
  · have := findSome_pairs_eq (p := EnumWord.allowUnknown?) (q := EnumAttr.allowUnknown?) (g := id) (fun w b hr => by
      cases w <;> cases b <;> first | exact hr.elim | rfl | exact congrArg some hr.symm) hc
    rwa [Option.map_id] at this
  · exact default_pairs (fun w b hr => by
      cases w <;> cases b <;> first | exact hr.elim | exact .inl ⟨rfl, rfl⟩ | skip
      obtain ⟨sp, rfl⟩ := hr
      exact .inr ⟨_, sp, rfl, rfl⟩) hc
  · have := findSome_pairs_eq (p := EnumWord.crate?) (q := EnumAttr.crate?) (g := id) (fun w b hr => by
      cases w <;> cases b <;> first | exact hr.elim | rfl | exact congrArg some hr.symm) hc
    rwa [Option.map_id] at this
  · have := filterMap_pairs_eq (p := EnumWord.andThen?) (q := EnumAttr.andThen?) (g := id) (fun w b hr => by
      cases w <;> cases b <;> first | exact hr.elim | rfl | exact congrArg some hr.symm) hc
    rwa [List.map_id] at this
  · exact flatMap_pairs_eq (p := EnumWord.paths) (q := EnumAttr.paths) (fun w b hr => by
      cases w <;> cases b <;> first | exact hr.elim | rfl | exact hr.symm) hc

/-! ## Examples -/

theorem keyedBy_ident {key : String} {value : List Tok → Prop} {vt : List Tok} (sp : Span) (h : value vt)
    (hc : ¬ StartsColon2 vt) : KeyedBy key value (.ident key.toList sp :: vt) :=
  ⟨_, vt, .mk (pt := [.ident key.toList sp]) (.plain (.one _ _)) hc, h⟩

/-- C94: `#[deluxe(flatten(prefix = a::b), map(f))] x: T` is a flattened field with the prefix `a::b`. -/
example : ∃ d, FieldIn.read demoLib ⟨some (txt "x", 9),
      [deluxeList [.ident (txt "flatten") 1, .group .paren [.ident (txt "prefix") 2, .punct '=' false 3,
        .ident (txt "a") 4, .punct ':' true 5, .punct ':' false 5, .ident (txt "b") 6] 1 7, .punct ',' false 8,
        .ident (txt "map") 9, .group .paren [.ident (txt "f") 10] 9 10]]⟩ = .ok d ∧
    ∀ {V : Type} (sem : FieldSem V), (d.toField sem).flatten = some ⟨true, some (txt "a::b")⟩ ∧
      (d.toField sem).idents = [] ∧ (d.toField sem).transforms = [sem.transform (.map [.ident (txt "f") 10])] := by
  have hm : ListStreams (deluxeAttrs [deluxeList [.ident (txt "flatten") 1, .group .paren [.ident (txt "prefix") 2,
        .punct '=' false 3, .ident (txt "a") 4, .punct ':' true 5, .punct ':' false 5, .ident (txt "b") 6] 1 7,
        .punct ',' false 8, .ident (txt "map") 9, .group .paren [.ident (txt "f") 10] 9 10]])
      [⟨[.ident (txt "flatten") 1, .group .paren [.ident (txt "prefix") 2, .punct '=' false 3,
        .ident (txt "a") 4, .punct ':' true 5, .punct ':' false 5, .ident (txt "b") 6] 1 7] ++ .punct ',' false 8 ::
        [.ident (txt "map") 9, .group .paren [.ident (txt "f") 10] 9 10], callSite, none⟩] := .list .nil
  have hi : ItemsAll (FieldText demoLib) [⟨[.ident (txt "flatten") 1, .group .paren [.ident (txt "prefix") 2,
        .punct '=' false 3, .ident (txt "a") 4, .punct ':' true 5, .punct ':' false 5, .ident (txt "b") 6] 1 7] ++
        .punct ',' false 8 :: [.ident (txt "map") 9, .group .paren [.ident (txt "f") 10] 9 10], callSite, none⟩]
      ([.flatten true (some [txt "a", txt "b"]), .map [.ident (txt "f") 10]] ++ []) := by
    refine .cons (.cons ⟨_, _, rfl⟩ ?_ (.last (by simp) ?_)) .nil
    · exact .flatten (close := 7) (ps := [[txt "a", txt "b"]]) (keyedBy_ident 1 (.paren 1) (by simp [StartsColon2]))
        (.last (by simp) (keyedBy_ident (key := "prefix") 2 ⟨false, _, .plain (.cons _ _ _ _ _ (.one _ _)), .eq false 3⟩
          (by simp [StartsColon2]))) (by simp)
    · exact .map (keyedBy_ident 9 ⟨by simp, by simp [NoComma, Comma], .paren 9 10⟩ (by simp [StartsColon2]))
  obtain ⟨h1, h2⟩ := c94_field (f := ⟨some (txt "x", 9), _⟩) hm hi
  obtain ⟨d, hd⟩ := h2 ⟨by simp [FieldWord.key, repeatable], by simp, .nil,
    by simp [FieldWord.name?], by
      intro p hp ⟨h1, h2⟩
      simp only [List.append_nil, List.map_cons, List.map_nil, List.mem_cons, List.not_mem_nil, or_false,
        FieldWord.key] at h1 h2
      simp only [exclusivePairs, List.mem_cons, List.not_mem_nil, or_false] at hp
      rcases hp with rfl | rfl | rfl | rfl | rfl | rfl | rfl | rfl | rfl | rfl <;> simp at h1 h2⟩
  refine ⟨d, hd, fun sem => ?_⟩
  have hM := (h1 d hd).2.2.2.2 sem
  exact ⟨hM.flatten, hM.idents, hM.transforms⟩

/-- C94: `transparent(append, rest = false)` and `attributes(a, b)` on a structure. -/
example : Items (StructText demoLib) 9 ([.ident (txt "transparent") 1, .group .paren [.ident (txt "append") 2,
        .punct ',' false 3, .ident (txt "rest") 4, .punct '=' false 5, .ident (txt "false") 6] 1 7] ++
        .punct ',' false 8 :: [.ident (txt "attributes") 1, .group .paren [.ident (txt "a") 2, .punct ',' false 3,
        .ident (txt "b") 4] 1 5])
    [.transparent true [("append", true), ("rest", false)],
      .attributes [[.ident (txt "a") 2], [.ident (txt "b") 4]]] := by
  refine .cons ⟨_, _, rfl⟩ (.transparent (close := 7) (keyedBy_ident 1 (.paren 1) (by simp [StartsColon2])) ?_ (by simp))
    (.last (by simp) (.attributes (keyedBy_ident 1 (.list (.paren 1) ?_) (by simp [StartsColon2]))))
  · exact .cons (v := [_]) ⟨_, _, rfl⟩ ⟨by simp [transparentKeys], keyedBy_ident (key := "append") 2 .bare
      (by simp [StartsColon2])⟩ (.last (by simp) ⟨by simp [transparentKeys], keyedBy_ident (key := "rest") 4
        (.value 6 (.eq false 5)) (by simp [StartsColon2])⟩)
  · exact .cons (v := [_]) ⟨_, _, rfl⟩ (fun _ => rfl) (.last (by simp) fun _ => rfl)

end Deluxe
