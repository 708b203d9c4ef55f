import Verif.Props.Optional
import Verif.Props.Enums
import Verif.Props.UnknownKeys
import Verif.Props.Transparent
import Verif.Model.With
/-!
# C83: the two ways to write the value of a key

core/parse_helpers.rs:400-409 (`parse_named_meta_item`), 256-272 (delimited values).
-/
namespace Deluxe

variable {α V : Type}

/-- After a key, the items of the value can be written in parentheses, or after `=` in the delimiters `dl`: both give
the same value, or the same messages, and both go on behind the group.  After `=` nothing else is accepted. -/
structure WrittenIn (dl : Delim) (d : Dict α) : Prop where
  same : ∀ (name : Str) (sp : Span) (j : Bool) (esp : Span) (inner : List Tok) (o c : Span) (rest : List Tok) (sc : Span)
      (u : Option Span),
    d.named name sp ⟨.punct '=' j esp :: .group dl inner o c :: rest, sc, u⟩ =
      d.named name sp ⟨.group .paren inner o c :: rest, sc, u⟩
  only : ∀ (name : Str) (sp : Span) (j : Bool) (esp : Span) (ts : List Tok) (sc : Span) (u : Option Span),
    (∀ inner o c rest, ts ≠ .group dl inner o c :: rest) →
      ∃ e, d.named name sp ⟨.punct '=' j esp :: ts, sc, u⟩ = (.err e, ⟨ts, sc, u⟩)

theorem writtenIn_of {dl : Delim} {d : Dict α} (hn : d.DefaultNamed)
    (hp : ∀ sp s, d.parse (.named sp) s = parseDelimitedWith dl (single (d.inline (.named sp))) s) : WrittenIn dl d := by
  constructor
  · intro name sp j esp inner o c rest sc u
    rw [hn, c05_equals, hp]
    simp only [parseNamedMetaItem, Stream.peekPunct, Tok.isPunct, Stream.peekDelim, parseDelimitedMetaItem,
      parseDelimitedWith, withContent, enter, Bool.false_eq_true, if_false, beq_self_eq_true, if_true]
  · intro name sp j esp ts sc u h
    rw [hn, c05_equals, hp]
    simp only [parseDelimitedWith, withContent, enter]
    cases ts with
    | nil => exact ⟨_, rfl⟩
    | cons t ts =>
      cases t with
      | group d' inner o c =>
        by_cases hd : d' = dl
        · subst hd
          exact absurd rfl (h inner o c ts)
        · simp only [hd, if_false]
          exact ⟨_, rfl⟩
      | _ => exact ⟨_, rfl⟩

theorem withModule_defaultNamed (parse : Mode → M Stream α) (inline : Mode → M (List Stream) α) (flag : Span → Res α)
    (missing : Str → Span → Res α) : (withModule parse inline flag missing).DefaultNamed := fun _ sp => by
  funext s
  exact c05_with_agrees parse inline flag sp s

/-! ## The types of the library -/

section
variable [Env]

/-- C83: sequences, sets, arrays and punctuated lists are written in parentheses or, after `=`, in brackets; tuples in
parentheses both times; maps in braces. -/
theorem c83_collections (d : Dict α) (n : Nat) (ds : List (Dict α)) (peekP : Stream → Bool) (parseP : M Stream Unit)
    [DecidableEq α] {κ ν : Type} [DecidableEq κ] (kd : Dict κ) (keyStr : κ → Str) (vd : Dict ν) :
    WrittenIn .bracket (seqDict d) ∧ WrittenIn .bracket (setDict d) ∧ WrittenIn .bracket (arrayDict n d) ∧
    WrittenIn .bracket (punctuatedDict d peekP parseP) ∧ WrittenIn .paren (tupleDict ds) ∧
    WrittenIn .brace (mapDict kd keyStr vd) ∧
    WrittenIn .bracket (withSeq d) ∧ WrittenIn .brace (withMap kd keyStr vd) :=
  ⟨writtenIn_of (fun _ _ => rfl) fun _ _ => rfl, writtenIn_of (fun _ _ => rfl) fun _ _ => rfl,
    writtenIn_of (fun _ _ => rfl) fun _ _ => rfl, writtenIn_of (fun _ _ => rfl) fun _ _ => rfl,
    writtenIn_of (fun _ _ => rfl) fun _ _ => rfl, writtenIn_of (fun _ _ => rfl) fun _ _ => rfl,
    writtenIn_of (withModule_defaultNamed _ _ _ _) fun _ _ => rfl, writtenIn_of (withModule_defaultNamed _ _ _ _) fun _ _ => rfl⟩

/-! ## Derived types -/

theorem StructDef.dict_defaultNamed (d : StructDef V) : d.dict.DefaultNamed := by
  unfold StructDef.dict
  split
  · split <;> exact fun _ _ => rfl
  · split <;> exact fun _ _ => rfl

/-- C83: a structure with named fields is written in braces after `=`, one with unnamed fields or none in
parentheses. -/
theorem c83_struct (d : StructDef V) (ht : d.isTransparent = false) :
    WrittenIn (match d.shape with | .named => .brace | .unnamed => .paren | .unit => .paren) d.dict := by
  refine writtenIn_of d.dict_defaultNamed fun sp s => ?_
  unfold StructDef.dict
  rw [ht]
  cases d.shape <;> rfl

/-- C83: an enum is written in braces. -/
theorem c83_enum (e : EnumDef V) : WrittenIn .brace e.dict :=
  writtenIn_of (fun _ _ => rfl) fun _ _ => rfl

omit [Env] in
theorem WrittenIn.parse {dl : Delim} {d : Dict α} (hn : d.DefaultNamed) (h : WrittenIn dl d) (sp : Span)
    (inner : List Tok) (o c : Span) (rest : List Tok) (sc : Span) (u : Option Span) :
    d.parse (.named sp) ⟨.group dl inner o c :: rest, sc, u⟩ =
      parseDelimitedMetaItem .paren d.inline (.named sp) ⟨.group .paren inner o c :: rest, sc, u⟩ := by
  have := h.same [] sp false 0 inner o c rest sc u
  rw [hn, c05_equals] at this
  rw [this]
  simp only [parseNamedMetaItem, Stream.peekPunct, Tok.isPunct, Stream.peekDelim, Bool.false_eq_true, if_false,
    beq_self_eq_true, if_true]

omit [Env] in
theorem delimited_mapRes_ok {β : Type} (g : M (List Stream) α) (post : Res α → Res β)
    (he : ∀ e, post (.err e) = .err e) (hpn : post .panic = .panic)
    (inner : List Tok) (o c : Span) (rest : List Tok) (sc : Span) (u : Option Span) (v : β) (s' : Stream) :
    (post (parseDelimitedWith .paren (single g) ⟨.group .paren inner o c :: rest, sc, u⟩).1,
        (parseDelimitedWith .paren (single g) ⟨.group .paren inner o c :: rest, sc, u⟩).2) = (.ok v, s') ↔
      parseDelimitedWith .paren (single (g.mapRes post)) ⟨.group .paren inner o c :: rest, sc, u⟩ = (.ok v, s') := by
  simp only [parseDelimitedWith, withContent, enter, single, M.mapRes, bind, M.bind, pure, M.pure, if_true]
  rcases hg : g [⟨inner, c, u⟩] with ⟨r | e | _, l⟩
  · rcases hq : parseEof (l.headD ⟨inner, c, u⟩) with ⟨_ | e | _, c'⟩ <;>
      rcases hr : post (.ok r) with w | e | _ <;> simp_all
  · simp_all
  · simp_all

/-- C83: a transparent structure without `and_then` is written like its field: both ways give the same, be it a value or
a message. -/
theorem c83_transparent_same {d : StructDef V} (ha : d.Accepted) (ht : d.isTransparent = true)
    (hm : ∀ f ∈ d.fields, f.MapsOnly) {f : Field V} {k : Nat} (hf : d.fields[k]? = some f) (hp : f.isParsable = true)
    (hand : d.andThens = []) {dl : Delim} (hn : f.item.DefaultNamed) (h : WrittenIn dl f.item) : WrittenIn dl d.dict := by
  obtain ⟨g, -, hg⟩ := named_transparent ha ht hm hf hp (by funext n sp; exact hn n sp) hand
  constructor
  · intro name sp j esp inner o c rest sc u
    rw [hg, hg, h.same]
  · intro name sp j esp ts sc u hts
    obtain ⟨e, he⟩ := h.only name sp j esp ts sc u hts
    exact ⟨e, by rw [hg, he]; rfl⟩

/-- C83: a transparent structure is written like its field: both ways succeed in the same cases, with the same value. -/
theorem c83_transparent (d : StructDef V) (ht : d.isTransparent = true) {f : Field V} (hf : f ∈ d.fields)
    (hone : ∀ g ∈ d.fields, g.isParsable = true → g = f) (hfp : f.isParsable = true) (hfl : f.isFlat = false)
    {dl : Delim} (hn : f.item.DefaultNamed) (h : WrittenIn dl f.item)
    (name : Str) (sp : Span) (j : Bool) (esp : Span) (inner : List Tok) (o c : Span) (rest : List Tok) (sc : Span)
    (u : Option Span) (v : List V) (s' : Stream) :
    d.dict.named name sp ⟨.punct '=' j esp :: .group dl inner o c :: rest, sc, u⟩ = (.ok v, s') ↔
      d.dict.named name sp ⟨.group .paren inner o c :: rest, sc, u⟩ = (.ok v, s') := by
  have hfind : ∃ k, d.fields.zipIdx.find? (fun x => x.1.isParsable && !x.1.isFlat) = some (f, k) := by
    obtain ⟨i, hi⟩ := List.getElem?_of_mem hf
    cases hx : d.fields.zipIdx.find? (fun x => x.1.isParsable && !x.1.isFlat) with
    | none =>
      rw [List.find?_eq_none] at hx
      have := hx (f, i) (List.mem_zipIdx_iff_getElem?.2 hi)
      simp [hfp, hfl] at this
    | some y =>
      obtain ⟨g, k⟩ := y
      have h1 := List.find?_some hx
      have h2 := List.mem_zipIdx_iff_getElem?.1 (List.mem_of_find?_eq_some hx)
      simp only [Bool.and_eq_true] at h1
      rw [hone g (List.mem_of_getElem? h2) h1.1]
      exact ⟨k, rfl⟩
  obtain ⟨k, hk⟩ := hfind
  have hd : ∀ s, d.dict.named name sp s = parseNamedMetaItem
      (fun mode => (f.item.parse mode).mapRes (transparentPost d k))
      (fun mode => (f.item.inline mode).mapRes (transparentPost d k))
      (fun sp => transparentPost d k (f.item.flag sp)) sp s := by
    intro s
    unfold StructDef.dict
    rw [ht, hk]
    rfl
  rw [hd, hd, c05_equals]
  have hp : ((f.item.parse (.named sp)).mapRes (transparentPost d k)) ⟨.group dl inner o c :: rest, sc, u⟩ =
      (transparentPost d k (parseDelimitedMetaItem .paren f.item.inline (.named sp)
          ⟨.group .paren inner o c :: rest, sc, u⟩).1,
        (parseDelimitedMetaItem .paren f.item.inline (.named sp) ⟨.group .paren inner o c :: rest, sc, u⟩).2) := by
    rw [← h.parse hn]; rfl
  rw [hp]
  simp only [parseNamedMetaItem, Stream.peekPunct, Tok.isPunct, Stream.peekDelim, Bool.false_eq_true, if_false,
    beq_self_eq_true, if_true]
  exact delimited_mapRes_ok _ _ (fun _ => rfl) rfl ..

/-! ## Keys are checked in both forms -/

omit [Env] in
theorem delimited_err (g : M (List Stream) α) {inner : List Tok} {c : Span} {u : Option Span} {e : SynErr}
    (he : (g [⟨inner, c, u⟩]).1 = .err e) (o : Span) (rest : List Tok) (sc : Span) :
    (parseDelimitedWith .paren (single g) ⟨.group .paren inner o c :: rest, sc, u⟩).1 = .err e := by
  simp only [parseDelimitedWith, withContent, enter, single, bind, M.bind, if_true]
  rcases hg : g [⟨inner, c, u⟩] with ⟨r, l⟩
  rw [hg] at he
  simp only at he
  subst he
  rfl

omit [Env] in
theorem WrittenIn.err {dl : Delim} {d : Dict α} (hn : d.DefaultNamed) (h : WrittenIn dl d) (name : Str) (sp : Span)
    (inner : List Tok) (o c : Span) (rest : List Tok) (sc : Span) (u : Option Span) {e : SynErr}
    (he : (d.inline (.named sp) [⟨inner, c, u⟩]).1 = .err e) :
    (d.named name sp ⟨.group .paren inner o c :: rest, sc, u⟩).1 = .err e ∧
    ∀ j esp, (d.named name sp ⟨.punct '=' j esp :: .group dl inner o c :: rest, sc, u⟩).1 = .err e := by
  have h1 : (d.named name sp ⟨.group .paren inner o c :: rest, sc, u⟩).1 = .err e := by
    rw [hn]
    simp only [parseNamedMetaItem, Stream.peekPunct, Tok.isPunct, Stream.peekDelim, Bool.false_eq_true, if_false,
      beq_self_eq_true, if_true]
    exact delimited_err (d.inline (.named sp)) he ..
  exact ⟨h1, fun j esp => by rw [h.same]; exact h1⟩

/-- C83: written either way, a structure reports a key that none of its fields takes, unless it takes all keys. -/
theorem c83_struct_unknown (d : StructDef V) (ha : d.Accepted) (ht : d.isTransparent = false) (hs : d.shape = .named)
    (hg : d.FieldsFine) (hall : d.acceptsAll = false) (name : Str) (sp : Span) {inner : List Tok} {o c : Span}
    {rest : List Tok} {sc : Span} {u : Option Span} {bs} (h : Items (StructSeg d.fields []) c inner bs) {key ksp}
    (hm : .other key ksp ∈ bs) (hk : key ∉ Field.fieldNames d.fields) :
    ∃ e cl, ⟨ksp, .unknownField key cl⟩ ∈ e.toList ∧
      (d.dict.named name sp ⟨.group .paren inner o c :: rest, sc, u⟩).1 = .err e ∧
      ∀ j esp, (d.dict.named name sp ⟨.punct '=' j esp :: .group .brace inner o c :: rest, sc, u⟩).1 = .err e := by
  have hu : d.data.allowUnknown = false := by
    simp only [StructDef.acceptsAll, Bool.or_eq_false_iff] at hall
    exact hall.1
  obtain ⟨e, cl, h1, h2, _⟩ := c34_unknown_reported d.data ha.fields ht ⟨fun f hf _ n sp => (hg.item f hf).named n sp,
    fun f hf n sp => (hg.item f hf).missing n sp, hg.flat hs⟩ (Field.fieldNames d.fields) (.named sp) [] hu
    (l := [⟨inner, c, u⟩]) (bs := bs ++ []) (.cons h .nil) (by simpa using hm) hk
  have hw := c83_struct d ht
  rw [hs] at hw
  refine ⟨e, cl, h2, hw.err d.dict_defaultNamed name sp inner o c rest sc u ?_⟩
  have hi : d.dict.inline (.named sp) [⟨inner, c, u⟩] =
      ((namedFlat d.data (Field.fieldNames d.fields) (.named sp) [] true).mapRes (runAndThens d.andThens))
        [⟨inner, c, u⟩] := by
    unfold StructDef.dict
    rw [ht, hs]
    simp only [Bool.false_eq_true, if_false, hall, StructDef.flatNamed, Bool.not_false, Dict.mk']
  rw [hi]
  simp only [M.mapRes]
  generalize namedFlat d.data (Field.fieldNames d.fields) (.named sp) [] true [⟨inner, c, u⟩] = x at h1
  obtain ⟨r, l⟩ := x
  simp only at h1
  subst h1
  rfl

/-- C83: written either way, an enum reports a key that belongs to none of its variants, beside the one variant named. -/
theorem c83_enum_unknown {e : EnumDef V} (ha : e.Accepted .meta) (hg : e.FieldsFine) (hn : e.Infallible)
    (hu : e.unknownOk = false) (name : Str) (sp : Span) {inner : List Tok} {o c : Span} {rest : List Tok} {sc : Span}
    {u : Option Span} {bs} (h : Items (EnumSeg e .meta []) c inner bs) {i k vsp x}
    (h1 : named bs = [(i, k, vsp, .ok x)]) {key ksp} (hk : (key, ksp) ∈ allKeys [] bs) (hk' : key ∉ e.fieldNames) :
    ∃ err cl, ⟨ksp, .unknownField key cl⟩ ∈ err.toList ∧
      (e.dict.named name sp ⟨.group .paren inner o c :: rest, sc, u⟩).1 = .err err ∧
      ∀ j esp, (e.dict.named name sp ⟨.punct '=' j esp :: .group .brace inner o c :: rest, sc, u⟩).1 = .err err := by
  obtain ⟨err, cl, h2, h3⟩ := c63_beside_variant ha hg hn (.named sp) [] (l := [⟨inner, c, u⟩]) (bs := bs ++ [])
    (.cons h .nil) (by simpa using h1) hu (by simpa using hk) hk'
  exact ⟨err, cl, h3, (c83_enum e).err (fun _ _ => rfl) name sp inner o c rest sc u h2⟩

/-- C83: the same if no variant can be chosen. -/
theorem c83_enum_unknown_none {e : EnumDef V} (ha : e.Accepted .meta) (hg : e.FieldsFine) (hn : e.Infallible)
    (hu : e.unknownOk = false) (name : Str) (sp : Span) {inner : List Tok} {o c : Span} {rest : List Tok} {sc : Span}
    {u : Option Span} {bs} (h : Items (EnumSeg e .meta []) c inner bs) (h0 : named bs = [])
    (h1 : ∀ i v, ¬ Applies e ((seenKeys [] bs).map (·.1)) i v)
    (h2 : ∀ (i : Nat) v, e.variants[i]? = some v → v.ByFields → ¬ v.Keyless) (hd : e.default = none) {key ksp}
    (hk : (key, ksp) ∈ allKeys [] bs) (hk' : key ∉ e.fieldNames) :
    ∃ err cl, ⟨ksp, .unknownField key cl⟩ ∈ err.toList ∧
      (e.dict.named name sp ⟨.group .paren inner o c :: rest, sc, u⟩).1 = .err err ∧
      ∀ j esp, (e.dict.named name sp ⟨.punct '=' j esp :: .group .brace inner o c :: rest, sc, u⟩).1 = .err err := by
  obtain ⟨err, cl, h3, h4⟩ := c63_no_variant ha hg hn (.named sp) [] (l := [⟨inner, c, u⟩]) (bs := bs ++ [])
    (.cons h .nil) (by simpa using h0) (by simpa using h1) h2 hd hu (by simpa using hk) hk'
  exact ⟨err, cl, h4, (c83_enum e).err (fun _ _ => rfl) name sp inner o c rest sc u h3⟩

/-! ## Examples -/

/-- The tokens `b(), zz`. -/
def strayToks : List Tok := [.ident "b".toList 1, .group .paren [] 2 3, .punct ',' false 4, .ident "zz".toList 5]

theorem stray_items : Items (EnumSeg demoEnum .meta []) 6 strayToks
    [.variant 1 "b".toList 1 (.ok []), .other "zz".toList 5] := by
  refine .cons (v := [.ident "b".toList 1, .group .paren _ 2 3]) ⟨_, _, rfl⟩ ?_ (.last (by simp) ?_)
  · exact .variant (segs := ["b".toList]) (vt := [.group .paren _ 2 3])
      (.mk (pt := [.ident "b".toList 1]) (.plain (.one _ _)) (by simp [StartsColon2]))
      ((selected_some _ _ _ _ _ _).1 rfl) (by simp [NoComma, Comma]) (fun u => ⟨_, rfl⟩)
  · exact .other (segs := ["zz".toList]) (vt := [])
      (.mk (pt := [.ident "zz".toList 5]) (.plain (.one _ _)) (by simp [StartsColon2]))
      ((selected_none _ _ _).1 rfl) (by simp [NoComma])

/-- `e(b(), zz)` and `e = { b(), zz }` -/
example : ∃ err cl, ⟨5, .unknownField "zz".toList cl⟩ ∈ err.toList ∧
    (demoEnum.dict.named "e".toList 0 ⟨[.group .paren strayToks 7 6], 8, none⟩).1 = .err err ∧
    ∀ j esp, (demoEnum.dict.named "e".toList 0 ⟨[.punct '=' j esp, .group .brace strayToks 7 6], 8, none⟩).1 = .err err :=
  c83_enum_unknown demoEnum_fine.1 demoEnum_fine.2.1 demoEnum_fine.2.2 rfl _ _ stray_items rfl
    (by simp [allKeys]) (by decide)

/-- `d(zz)` and `d = { zz }` for `demoDef` of C30 -/
example : ∃ e cl, ⟨5, .unknownField "zz".toList cl⟩ ∈ e.toList ∧
    (demoDef.dict.named "d".toList 0 ⟨[.group .paren [.ident "zz".toList 5] 7 6], 8, none⟩).1 = .err e ∧
    ∀ j esp, (demoDef.dict.named "d".toList 0 ⟨[.punct '=' j esp, .group .brace [.ident "zz".toList 5] 7 6], 8,
      none⟩).1 = .err e :=
  c83_struct_unknown demoDef ⟨demo_accepted, by simp [demoDef, StructDef.isTransparent], by simp [demoDef]⟩ rfl rfl
    demoDef_fine rfl _ _ (bs := [.other "zz".toList 5])
    (.last (by simp) (.other (segs := ["zz".toList]) (vt := [])
      (.mk (pt := [.ident "zz".toList 5]) (.plain (.one _ _)) (by simp [StartsColon2]))
      ((owner_none _ _ _).1 rfl) (by simp [NoComma]))) (by simp) (by decide)

/-- `struct W(Vec<bool>);`, transparent: `k = [true]` and `k(true)` -/
example (s' : Stream) : (newtype (seqDict boolDict) (seqFlat boolDict)).dict.named ['k'] 0
    ⟨[.punct '=' false 1, .group .bracket [.ident "true".toList 2] 3 4], 5, none⟩ = (.ok [[true]], s') ↔
    (newtype (seqDict boolDict) (seqFlat boolDict)).dict.named ['k'] 0
      ⟨[.group .paren [.ident "true".toList 2] 3 4], 5, none⟩ = (.ok [[true]], s') :=
  c83_transparent _ rfl (f := { plainField [] (seqDict boolDict) with ident := none, idents := [], flatUnnamed := _ })
    List.mem_cons_self (by simp [newtype]) rfl rfl (fun _ _ => rfl)
    (c83_collections boolDict 0 [] (fun _ => false) (M.pure ()) boolDict (fun _ => []) boolDict).1 ..

/-- The same with the messages, for any tokens and any definition of this kind. -/
example : WrittenIn .bracket (newtype (seqDict boolDict) (seqFlat boolDict)).dict :=
  c83_transparent_same (newtype_accepted _ _).1 rfl (by simp [newtype, plainField, Field.MapsOnly])
    (f := { plainField [] (seqDict boolDict) with ident := none, idents := [], flatUnnamed := _ }) (k := 0) rfl rfl rfl
    (fun _ _ => rfl) (c83_collections boolDict 0 [] (fun _ => false) (M.pure ()) boolDict (fun _ => []) boolDict).1

/-! ## Where it does not hold -/

/-- C83 does not hold for the messages of a transparent structure with `and_then`: of
`#[deluxe(transparent, and_then = ..)] struct W(Inner);` with a tuple `Inner`, `w = (x)` complains about the token
`x`, but `w(x)` about the value, on which the function is run before the rest of the parentheses is looked at. -/
theorem c83_transparent_violated (e : SynErr) (he : e ≠ .new 3 (.unexpectedTree (.ident "x".toList 3))) :
    WrittenIn .paren (tupleDict ([] : List (Dict Bool))) ∧
      ¬ WrittenIn .paren { newtype (tupleDict ([] : List (Dict Bool))) (tupleFlat []) with
        andThens := [fun _ => .error e] }.dict := by
  refine ⟨(c83_collections boolDict 0 [] (fun _ => false) (M.pure ()) boolDict (fun _ => []) boolDict).2.2.2.2.1, fun h => ?_⟩
  have := congrArg Prod.fst (h.same ['w'] 0 false 1 [.ident "x".toList 3] 2 5 [] 9 none)
  exact he (Res.err.inj (this.symm.trans rfl))

omit [Env] in
/-- C83 does not hold for boxed or optional sequences: there are no delimiters in which they can be written after `=`
and which can be exchanged for parentheses.  They are written in brackets (`k = [true]`), but `k(true)` is an error. -/
theorem c83_wrapped_violated (dl : Delim) :
    ¬ WrittenIn dl (wrapperDict (seqDict boolDict)) ∧ ¬ WrittenIn dl (optionDict (seqDict boolDict)) := by
  have h1 : (wrapperDict (seqDict boolDict)).named ['k'] 0 ⟨[.punct '=' false 1, .group .bracket [.ident "true".toList 2] 3 4],
      5, none⟩ = (.ok [true], ⟨[], 5, none⟩) := rfl
  have h2 : (optionDict (seqDict boolDict)).named ['k'] 0 ⟨[.punct '=' false 1, .group .bracket [.ident "true".toList 2] 3 4],
      5, none⟩ = (.ok (some [true]), ⟨[], 5, none⟩) := rfl
  cases dl with
  | bracket =>
    refine ⟨fun h => ?_, fun h => ?_⟩
    · have := h.same ['k'] 0 false 1 [.ident "true".toList 2] 3 4 [] 5 none
      rw [h1] at this
      cases this
    · have := h.same ['k'] 0 false 1 [.ident "true".toList 2] 3 4 [] 5 none
      rw [h2] at this
      cases this
  | _ =>
    refine ⟨fun h => ?_, fun h => ?_⟩
    · obtain ⟨e, he⟩ := h.only ['k'] 0 false 1 [.group .bracket [.ident "true".toList 2] 3 4] 5 none (by simp)
      rw [h1] at he
      cases he
    · obtain ⟨e, he⟩ := h.only ['k'] 0 false 1 [.group .bracket [.ident "true".toList 2] 3 4] 5 none (by simp)
      rw [h2] at he
      cases he


end
end Deluxe
