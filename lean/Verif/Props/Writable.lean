import Verif.Props.WriteDerive
/-!
# C111: Every value can be written — all types

`Writable d D` says that `d` is built from the types of the library and from derived types, and that `D` are the values
that the rules below allow; the theorem says that all of them can be written.
-/
namespace Deluxe

variable {V : Type} [Env]

/-! ## Keys of maps -/

omit [Env] in
theorem c111_key_string (k : Str) : WritesKey stringDict k [.lit (.str k) callSite] :=
  ⟨by simp, noComma_one rfl, fun _ _ u => ⟨u, rfl⟩⟩

omit [Env] in
theorem c111_key_char (k : Char) : WritesKey charDict k [.lit (.char k) callSite] :=
  ⟨by simp, noComma_one rfl, fun _ _ u => ⟨u, rfl⟩⟩

omit [Env] in
theorem c111_key_ident (k : Str) : WritesKey identDict k [.ident k callSite] :=
  ⟨by simp, noComma_one rfl, fun _ _ u => ⟨u, rfl⟩⟩

omit [Env] in
theorem c111_key_bool (k : Bool) : WritesKey boolDict k [.ident (boolName k) callSite] :=
  ⟨by simp, noComma_one rfl, fun rest _ u => ⟨u, ((c62_bool .unnamed _ _ k).1).2 ⟨_, rest, rfl, rfl⟩⟩⟩

omit [Env] in
theorem c111_key_int {α : Type} (conv : Bool × Nat → Option α) {n : Nat} {k : α} (h : conv (false, n) = some k) :
    WritesKey (intDict conv) k [.lit (.int n) callSite] := by
  refine ⟨by simp, noComma_one rfl, fun rest sc u => ⟨u, ?_⟩⟩
  have h' : parseLitInt ⟨[.lit (.int n) callSite] ++ rest, sc, u⟩ = (.ok (false, n), ⟨rest, sc, u⟩) := rfl
  show (intDict conv).parse _ _ = _
  simp only [intDict, Dict.mk', h', h]

/-! ## Which values the rules allow -/

/-- The fields of the variant `i`: for a transparent variant a field with a value that can follow a name, for another one
what the structure with the same fields allows. -/
def EnumDef.VariantValues (e : EnumDef V) (E : Nat → Domain (List V)) (T : Nat → Domain V) (i : Nat) (vs : List V) : Prop :=
  ∃ w, e.variants[i]? = some w ∧
    ((w.isTransparent = false ∧ (E i).item vs) ∨
      (w.isTransparent = true ∧ ∃ k f b, w.fields[k]? = some f ∧ f.isParsable = true ∧ (T i).item b ∧
        Wrapped w.asStruct none k b vs))

/-- The types of the library, types derived without flattened fields and variants, and types written by hand that keep to
the rules; with their values. -/
inductive Writable : {α : Type} → Dict α → Domain α → Prop
  | bool : Writable boolDict (.same fun _ => True)
  | char : Writable charDict (.same fun _ => True)
  | string : Writable stringDict (.same fun _ => True)
  | int {α : Type} (conv : Bool × Nat → Option α) : Writable (intDict conv) (.same fun a => ∃ n, conv n = some a)
  | u8 : Writable u8Dict (.same (· < 256))
  | ident : Writable identDict (.same fun _ => True)
  | literal : Writable literalDict (.same fun _ => True)
  | group : Writable groupDict (.same fun _ => True)
  | tokenStream : Writable tokenStreamDict
      ⟨fun ts => ts ≠ [] ∧ NoComma ts, fun ts => ts ≠ [] ∧ NoComma ts, NoComma⟩
  | unit : Writable unitDict (.same fun _ => True)
  | flag : Writable (flagDict.map Option.isSome) ⟨fun _ => False, fun _ => False, (· = true)⟩
  | option {α : Type} {d : Dict α} {D : Domain α} : Writable d D → Writable (optionDict d) D.option
  | wrapper {α : Type} {d : Dict α} {D : Domain α} : Writable d D → Writable (wrapperDict d) ⟨D.elem, D.val, D.val⟩
  | spanned {α : Type} {d : Dict α} {D : Domain α} : Writable d D → Writable ((spannedDict d).map Spanned.value) D
  | convert {α β : Type} (f : α → β) {d : Dict α} {D : Domain α} : Writable d D → Writable (d.map f) (D.image f)
  | seq {α : Type} {d : Dict α} {D : Domain α} : Writable d D → Writable (seqDict d) (.same fun l => ∀ a ∈ l, D.elem a)
  | array {α : Type} (n : Nat) {d : Dict α} {D : Domain α} : Writable d D →
      Writable (arrayDict n d) (.same fun l => l.length = n ∧ ∀ a ∈ l, D.elem a)
  | set {α : Type} [DecidableEq α] {d : Dict α} {D : Domain α} : Writable d D →
      Writable (setDict d) (.same fun l => l.Nodup ∧ ∀ a ∈ l, D.elem a)
  | tuple {α : Type} {ds : List (Dict α)} {D : Nat → Domain α} : (∀ (i : Nat) d, ds[i]? = some d → Writable d (D i)) →
      Writable (tupleDict ds) (.same fun l => l.length = ds.length ∧ ∀ (i : Nat) a, l[i]? = some a → (D i).elem a)
  | map {κ ν : Type} [DecidableEq κ] {kd : Dict κ} (keyStr : κ → Str) {vd : Dict ν} {K : κ → Prop} {E : Domain κ}
      {D : Domain ν} : Writable kd E → (∀ k, K k → ∃ kt, WritesKey kd k kt) → Writable vd D →
      Writable (mapDict kd keyStr vd) (.same fun l => (l.map (·.1)).Nodup ∧ ∀ x ∈ l, K x.1 ∧ D.item x.2)
  | struct {V : Type} {d : StructDef V} {D : Nat → Domain V} : d.shape = .named → d.isTransparent = false → d.Accepted →
      NoFlat d.fields → (∀ (i : Nat) f, d.fields[i]? = some f → Writable f.item (D i)) →
      Writable d.dict (.same (d.WritableNamed D))
  | tupleStruct {V : Type} {d : StructDef V} {D : Nat → Domain V} : d.shape = .unnamed → d.isTransparent = false →
      d.Accepted → NoFlat d.fields → 0 < d.fields.countP (·.isParsable) →
      (∀ (i : Nat) f, d.fields[i]? = some f → Writable f.item (D i)) → Writable d.dict (.same (d.WritableTuple D))
  | unitStruct {V : Type} {d : StructDef V} : d.shape = .unit → d.isTransparent = false → d.Accepted → d.fields = [] →
      Writable d.dict (.same fun vs => d.andThens.foldlM (fun v f => f v) [] = .ok vs)
  | transparent {V : Type} {d : StructDef V} {D : Nat → Domain V} {f : Field V} {k : Nat} : d.isTransparent = true →
      d.Accepted → NoFlat d.fields → (∀ f ∈ d.fields, f.MapsOnly) → d.fields[k]? = some f → f.isParsable = true →
      (∀ (i : Nat) f, d.fields[i]? = some f → Writable f.item (D i)) →
      Writable d.dict ⟨d.WritableThrough k (D k).elem, d.WritableThrough k (D k).val, d.WritableThrough k (D k).val⟩
  | enum {V : Type} {e : EnumDef V} {E : Nat → Domain (List V)} {T : Nat → Domain V} : e.Accepted .meta → e.FieldsFine →
      e.Infallible →
      (∀ (i : Nat) w, e.variants[i]? = some w → w.ByName → w.isTransparent = false → w.shape = .unnamed →
        NoFlat w.fields) →
      (∀ (i : Nat) w, e.variants[i]? = some w → w.ByName → w.isTransparent = false → Writable w.asStruct.dict (E i)) →
      (∀ (i : Nat) w, e.variants[i]? = some w → w.ByName → w.isTransparent = true → ∀ f ∈ w.fields, f.MapsOnly) →
      (∀ (i : Nat) w (k : Nat) f, e.variants[i]? = some w → w.ByName → w.isTransparent = true → w.fields[k]? = some f →
        f.isParsable = true → Writable f.item (T i)) →
      Writable e.dict (.same (e.WritableEnum (e.VariantValues E T)))
  | user {α : Type} {d : Dict α} {D : Domain α} : d.Good → CanWrite d D → Writable d D

omit [Env] in
theorem fieldsFine_noFlat {d : StructDef V} (hn : NoFlat d.fields) (h : ∀ (i : Nat) f, d.fields[i]? = some f → f.item.Good) :
    d.FieldsFine where
  item f hf := by
    obtain ⟨i, hi⟩ := List.getElem?_of_mem hf
    exact h i f hi
  flat _ f hf hp := by rw [noFlat_flatParsable hn hf] at hp; cases hp
  flatUnnamed _ f hf hp := by rw [noFlat_flatParsable hn hf] at hp; cases hp

theorem Writable.both {α : Type} {d : Dict α} {D : Domain α} (h : Writable d D) : CanWrite d D ∧ d.Good := by
  induction h with
  | bool => exact ⟨c111_bool, boolDict_good⟩
  | char => exact ⟨c111_char, charDict_good⟩
  | string => exact ⟨c111_string, stringDict_good⟩
  | int conv => exact ⟨c111_int conv, intDict_good conv⟩
  | u8 => exact ⟨c111_u8, u8Dict_good⟩
  | ident => exact ⟨c111_ident, identDict_good⟩
  | literal => exact ⟨c111_literal, literalDict_good⟩
  | group => exact ⟨c111_group, groupDict_good⟩
  | tokenStream => exact ⟨c111_tokenStream, tokenStreamDict_good⟩
  | unit => exact ⟨c111_unit, unitDict_good⟩
  | flag => exact ⟨c111_flag, Dict.map_good _ flagDict_good⟩
  | option _ ih => exact ⟨c111_option ih.1, optionDict_good ih.2⟩
  | wrapper _ ih => exact ⟨c111_wrapper ih.1, wrapperDict_good ih.2⟩
  | spanned _ ih => exact ⟨c111_spanned ih.1, Dict.map_good _ (spannedDict_good ih.2)⟩
  | convert f _ ih => exact ⟨c111_convert f ih.1, Dict.map_good f ih.2⟩
  | seq _ ih => exact ⟨c111_seq ih.2 ih.1, seqDict_good ih.2.parse⟩
  | array n _ ih => exact ⟨c111_array n ih.2 ih.1, arrayDict_good n ih.2.parse⟩
  | set _ ih => exact ⟨c111_set ih.2 ih.1, setDict_good ih.2.parse⟩
  | @tuple α ds D _ ih =>
    have hg : ∀ d ∈ ds, d.Good := fun d hd => by
      obtain ⟨i, hi⟩ := List.getElem?_of_mem hd
      exact (ih i d hi).2
    exact ⟨c111_tuple hg fun i d hi => (ih i d hi).1, tupleDict_good fun d hd => (hg d hd).parse⟩
  | map keyStr _ hK _ ihk ihv => exact ⟨c111_map keyStr ihk.2 ihv.2 hK ihv.1, mapDict_good keyStr ihk.2.parse ihv.2.named⟩
  | struct hs ht ha hn _ ih =>
    have hg := fieldsFine_noFlat hn fun i f hf => (ih i f hf).2
    exact ⟨c111_struct hs ht ha hg hn fun i f hf => (ih i f hf).1, StructDef.dict_good ha hg⟩
  | tupleStruct hs ht ha hn hpos _ ih =>
    have hg := fieldsFine_noFlat hn fun i f hf => (ih i f hf).2
    exact ⟨c111_tuple_struct hs ht ha hg hn hpos fun i f hf => (ih i f hf).1, StructDef.dict_good ha hg⟩
  | @unitStruct V d hs ht ha h0 =>
    have hg : d.FieldsFine := fieldsFine_noFlat (by rw [h0]; intro f hf; cases hf) (by rw [h0]; intro i f hf; simp at hf)
    exact ⟨c111_unit_struct hs ht ha hg, StructDef.dict_good ha hg⟩
  | transparent ht ha hn hm hf hp _ ih =>
    have hg := fieldsFine_noFlat hn fun i f hf => (ih i f hf).2
    exact ⟨c111_transparent ht ha hm hf hp (ih _ _ hf).1, StructDef.dict_good ha hg⟩
  | enum ha hg hi hn _ hm _ ihs iht =>
    refine ⟨c111_enum ha hg hi fun i w vs hw hb hv => ?_, EnumDef.dict_good ha hg hi⟩
    obtain ⟨w', hw', h⟩ := hv
    rw [hw] at hw'
    cases hw'
    rcases h with ⟨ht, h⟩ | ⟨ht, k, f, b, hf, hp, hb', hw'⟩
    · exact c111_variant ht (fun hs f hf hfl => by have := hn i w hw hb ht hs f hf; rw [this] at hfl; cases hfl)
        (ihs i w hw hb ht).1 h
    · exact c111_transparent_variant ht (ha w (List.mem_of_getElem? hw) hb.2) (hm i w hw hb ht) hf hp
        (iht i w k f hw hb ht hf hp).1 hb' hw'
  | user hg hc => exact ⟨hc, hg⟩

/-- C111: every value that the rules allow can be written: as an element of a list, inside of `Some(..)`, after `name =`,
and as an item after its name. -/
theorem c111_written_partial {α : Type} {d : Dict α} {D : Domain α} (h : Writable d D) : CanWrite d D := h.both.1

/-! ## What cannot be written -/

/-- All values that the parser gives have the property. -/
def M.Only {σ α : Type} (P : α → Prop) (m : M σ α) : Prop := ∀ s a, (m s).1 = .ok a → P a

omit [Env] in
theorem M.Only.bind_right {σ α β : Type} {P : β → Prop} {m : M σ α} {f : α → M σ β} (h : ∀ a, (f a).Only P) :
    M.Only P (m >>= f) := by
  intro s b hb
  simp only [Bind.bind, M.bind] at hb
  generalize m s = x at hb
  obtain ⟨r, s'⟩ := x
  cases r with
  | ok a => exact h a s' b hb
  | err e => cases hb
  | panic => cases hb

omit [Env] in
theorem M.Only.bind_pure {σ α β : Type} {P : α → Prop} {m : M σ α} {k : M σ β} (h : m.Only P) :
    M.Only P (do let r ← m; let _ ← k; pure r) := by
  intro s b hb
  simp only [Bind.bind, M.bind] at hb
  have := h s
  generalize m s = x at hb this
  obtain ⟨r, s'⟩ := x
  cases r with
  | ok a =>
    dsimp only at hb
    generalize k s' = y at hb
    obtain ⟨r', s''⟩ := y
    cases r' with
    | ok c => cases hb; exact this _ rfl
    | err e => cases hb
    | panic => cases hb
  | err e => cases hb
  | panic => cases hb

omit [Env] in
theorem delimited_only {α : Type} {P : α → Prop} {dl : Delim} {f : M (List Stream) α} (h : f.Only P) :
    M.Only P (parseDelimitedWith dl (single f)) := by
  intro s a ha
  simp only [parseDelimitedWith, withContent] at ha
  split at ha
  · cases ha
  · exact M.Only.bind_pure (m := single f) (k := parseEof) (fun s a hs => h [s] a hs) _ a ha

omit [Env] in
theorem parseFirst_only {α : Type} {P : α → Prop} {p : Mode → M Stream α} {m : Mode} (h : (p m).Only P) :
    M.Only P (parseFirst p m) := by
  intro l a ha
  unfold parseFirst at ha
  split at ha
  · exact M.Only.bind_pure (k := parseEof) h _ a ha
  · have h2 : ∀ a, parse2 (p m) [] = .ok a → P a := by
      intro a ha
      rw [parse2_ok] at ha
      obtain ⟨s', h1, _⟩ := ha
      exact h _ a (by rw [h1])
    simp only [parseEmpty] at ha
    cases hx : parse2 (p m) [] with
    | ok b => rw [hx] at ha; cases ha; exact h2 _ hx
    | err e => rw [hx] at ha; cases ha
    | panic => rw [hx] at ha; cases ha

omit [Env] in
/-- What a type with the default `parse_meta_item_named` gives. -/
theorem named_only {α : Type} {P : α → Prop} {p : Mode → M Stream α} {i : Mode → M (List Stream) α} {fl : Span → Res α}
    {sp : Span} (hp : (p (.named sp)).Only P) (hi : (i (.named sp)).Only P) (hf : ∀ a, fl sp = .ok a → P a) :
    M.Only P (parseNamedMetaItem p i fl sp) := by
  intro s a ha
  unfold parseNamedMetaItem at ha
  split at ha
  · exact M.Only.bind_right (m := parsePunct '=') (f := fun _ => p (.named sp)) (fun _ => hp) s a ha
  · split at ha
    · exact delimited_only hi s a ha
    · exact hf a ha

omit [Env] in
theorem Res.map_some {α β : Type} {f : α → β} {r : Res α} {b : β} (h : r.map f = .ok b) : ∃ a, r = .ok a ∧ f a = b := by
  cases r with
  | ok a => cases h; exact ⟨a, rfl, rfl⟩
  | err e => cases h
  | panic => cases h

omit [Env] in
theorem M.Only.map {σ α β : Type} {P : β → Prop} {f : α → β} {m : M σ α} (h : m.Only fun a => P (f a)) : (m.map f).Only P := by
  intro s b hb
  have hb : ((m s).1).map f = .ok b := hb
  obtain ⟨a, h1, rfl⟩ := Res.map_some hb
  exact h s a h1

omit [Env] in
theorem option_parse_only {α : Type} {P : Option α → Prop} {d : Dict α} {sp : Span}
    (hp : (d.parse (.named sp)).Only fun a => P (some a)) : ((optionDict d).parse (.named sp)).Only P :=
  M.Only.map (m := d.parse (.named sp)) (f := some) hp

omit [Env] in
theorem option_named_only {α : Type} {P : Option α → Prop} {d : Dict α} {sp : Span}
    (hp : (d.parse (.named sp)).Only fun a => P (some a)) (hf : ∀ a, d.flag sp = .ok a → P (some a)) (n : Str) :
    ((optionDict d).named n sp).Only P := by
  refine named_only (option_parse_only hp) (parseFirst_only (p := (optionDict d).parse) (option_parse_only hp)) fun o ho => ?_
  obtain ⟨a, h1, rfl⟩ := Res.map_some (f := some) (r := d.flag sp) ho
  exact hf a h1

omit [Env] in
/-- C111: an `Option` that is given by name is never `None`. -/
theorem c111_none_by_name {α : Type} (d : Dict α) (n : Str) (sp : Span) (s : Stream) (o : Option α)
    (h : ((optionDict d).named n sp s).1 = .ok o) : o ≠ none :=
  option_named_only (P := (· ≠ none)) (fun _ _ _ => Option.some_ne_none _) (fun _ _ => Option.some_ne_none _) n s o h

omit [Env] in
/-- C111 fails for `Some(None)` in a field of the type `Option<Option<T>>`: it is neither read from an item nor the value
of a field that is left out. -/
theorem c111_some_none_false {α : Type} (d : Dict α) (n : Str) (sp : Span) :
    (∀ s, ((optionDict (optionDict d)).named n sp s).1 ≠ .ok (some none)) ∧
      (optionDict (optionDict d)).missing n sp ≠ .ok (some none) := by
  refine ⟨fun s h => ?_, fun h => by cases h⟩
  refine option_named_only (P := (· ≠ some none)) (d := optionDict d) (sp := sp) ?_ ?_ n s _ h rfl
  · exact option_parse_only (P := fun o => some o ≠ some none) fun s a _ => by simp
  · intro o ho
    obtain ⟨a, _, rfl⟩ := Res.map_some (f := some) (r := d.flag sp) ho
    simp

omit [Env] in
theorem takeToks_noComma (l : List Tok) : NoComma (takeToks l).1 := by
  induction l with
  | nil => intro t ht; cases ht
  | cons x l ih =>
    simp only [takeToks]
    split
    · intro t ht; cases ht
    · rename_i hx
      intro t ht
      rcases List.mem_cons.1 ht with rfl | ht
      · exact (isComma_eq_false_iff _).1 (by simpa using hx)
      · exact ih t ht

omit [Env] in
/-- C111: a token stream that is read is not empty and has no comma outside of groups, so others cannot be written. -/
theorem c111_tokens_read (m : Mode) (s : Stream) (ts : List Tok) (h : (tokenStreamDict.parse m s).1 = .ok ts) :
    ts ≠ [] ∧ NoComma ts := by
  simp only [tokenStreamDict, Dict.mk', tokenStreamParse] at h
  split at h
  · cases h
  · split at h
    · cases h
    · rename_i hne
      cases h
      exact ⟨by simpa using hne, takeToks_noComma _⟩

/-! ## Examples -/

/-- `Vec<Option<String>>`: all lists. -/
example (l : List (Option Str)) : (∃ v, Writes (seqDict (optionDict stringDict)) false l v) ∧
    ∃ vt, WritesItem (seqDict (optionDict stringDict)) l vt := by
  have h := c111_written_partial (.seq (.option .string))
  have hl : ∀ a ∈ l, (Domain.option (.same fun _ : Str => True)).elem a := fun _ _ _ _ => trivial
  exact ⟨(h.elem l hl).1, h.item l hl⟩

/-- `HashMap<String, Vec<bool>>`: all maps. -/
example (l : List (Str × List Bool)) (hl : (l.map (·.1)).Nodup) : ∃ v, Writes (mapDict stringDict id (seqDict boolDict)) false l v :=
  ((c111_written_partial (.map id .string (fun k (_ : True) => ⟨_, c111_key_string k⟩) (.seq .bool))).elem l
    ⟨hl, fun _ _ => ⟨trivial, fun _ _ => trivial⟩⟩).1

omit [Env] in
theorem demoDef_noFlat : NoFlat demoDef.fields := by
  intro f hf
  simp only [demoDef, demo, List.mem_cons, List.not_mem_nil, or_false] at hf
  rcases hf with rfl | rfl | rfl | rfl <;> rfl

omit [Env] in
theorem demoDef_values (a b c : Bool) : demoDef.WritableNamed (fun _ => .same fun _ => True) [a, b, true, c] := by
  refine ⟨[a, b, true, c], rfl, rfl, fun i f w hf hw => ?_⟩
  match i, hf, hw with
  | 0, hf, hw =>
    cases hf; cases hw
    exact .inl ⟨⟨false, _, _, .plain (.one "a".toList 1), demo_owns (by rfl)⟩, _, trivial, rfl⟩
  | 1, hf, hw =>
    cases hf; cases hw
    exact .inl ⟨⟨false, _, _, .plain (.one "bb".toList 1), demo_owns (by rfl)⟩, _, trivial, rfl⟩
  | 2, hf, hw =>
    cases hf; cases hw
    exact .inr fun n sp => .inl ⟨true, .default (.inr ⟨rfl, fun h => by cases h.1⟩) rfl, rfl⟩
  | 3, hf, hw =>
    cases hf; cases hw
    exact .inl ⟨⟨false, _, _, .plain (.one "c".toList 1), demo_owns (by rfl)⟩, !c, trivial, by simp [runTransforms, Transform.apply]⟩

/-- `struct Demo { a: bool, #[deluxe(alias = bb, default = false)] b: bool, #[deluxe(skip, default = true)] s: bool,
#[deluxe(map = |x| !x)] c: bool }`: all values of the fields that are not skipped. -/
example (a b c : Bool) : ∃ v, Writes demoDef.dict false [a, b, true, c] v :=
  ((c111_written_partial (.struct (d := demoDef) rfl rfl demoDef_meets.1 demoDef_noFlat fun i f hf => by
      have := List.mem_of_getElem? hf
      simp only [demoDef, demo, List.mem_cons, List.not_mem_nil, or_false] at this
      rcases this with rfl | rfl | rfl | rfl <;> exact .bool)).elem _ (demoDef_values a b c)).1

/-- An attribute `#[attr(..)]` on something that has no other attributes. -/
example (a b c : Bool) : ∃ toks, topParse2 demoDef.dict toks = .ok [a, b, true, c] ∧
    (demoDef.attrTarget [["attr".toList]]).parseAttributes HasAttrs.vec (fun _ => true) (attrOf toks) =
      .ok [a, b, true, c] := by
  have hi : ∀ f ∈ demoDef.fields, f.item = boolDict := by
    intro f hf
    simp only [demoDef, demo, List.mem_cons, List.not_mem_nil, or_false] at hf
    rcases hf with rfl | rfl | rfl | rfl <;> rfl
  obtain ⟨toks, h1, h2⟩ := c111_attribute (d := demoDef) rfl rfl demoDef_meets.1 demoDef_fine demoDef_noFlat
    demoDef_noContainer demoDef_meets.2.1 (fun f hf _ _ => by rw [hi f hf]; exact boolDict_tidy)
    (fun i f hf => by rw [hi f (List.mem_of_getElem? hf)]; exact c111_bool) (demoDef_values a b c)
  exact ⟨toks, h1, h2 _ _ _ _ _ rfl⟩

/-- The values of the variants of `demoEnum`. -/
def demoValues (i : Nat) : Domain (List Bool) :=
  .same ((demoEnum.variants[i]?).elim (fun _ => False) fun w => w.asStruct.WritableNamed fun _ => .same fun _ => True)

theorem demoEnum_writable : Writable demoEnum.dict
    (.same (demoEnum.WritableEnum (demoEnum.VariantValues demoValues fun _ => .same fun _ => True))) := by
  have hall : ∀ w ∈ demoEnum.variants, ∃ n ids fl fs, w = boolVariant n ids fl fs := by
    intro w hw
    simp only [demoEnum, List.mem_cons, List.not_mem_nil, or_false] at hw
    rcases hw with rfl | rfl | rfl | rfl <;> exact ⟨_, _, _, _, rfl⟩
  have hnf : ∀ w ∈ demoEnum.variants, NoFlat w.fields := by
    intro w hw f hf
    obtain ⟨n, ids, fl, fs, rfl⟩ := hall w hw
    simp only [boolVariant, List.mem_map] at hf
    obtain ⟨x, _, rfl⟩ := hf
    rfl
  have hnt : ∀ w ∈ demoEnum.variants, w.isTransparent = false := by
    intro w hw
    obtain ⟨n, ids, fl, fs, rfl⟩ := hall w hw
    simp [boolVariant, Variant.isTransparent]
  refine .enum demoEnum_fine.1 demoEnum_fine.2.1 demoEnum_fine.2.2 (fun i w hw _ _ _ => hnf w (List.mem_of_getElem? hw))
    (fun i w hw hb ht => ?_) (fun i w hw _ ht => ?_) (fun i w k f hw _ ht => ?_)
  · have hm := List.mem_of_getElem? hw
    have : demoValues i = .same (w.asStruct.WritableNamed fun _ => .same fun _ => True) := by
      rw [demoValues, hw]; rfl
    rw [this]
    have hfl := hnf w hm
    obtain ⟨n, ids, fl, fs, rfl⟩ := hall w hm
    refine .struct rfl ht ⟨⟨?_, ?_⟩, ?_, ?_⟩ hfl fun i f hf => ?_
    · intro f hf hp
      simp only [StructDef.data, Variant.asStruct, boolVariant, List.mem_map] at hf
      obtain ⟨x, _, rfl⟩ := hf
      simp [plainField, Field.isParsable, Field.isContainer] at hp
    · intro t h; cases h
    · intro h
      have : (boolVariant n ids fl fs).isTransparent = true := h
      rw [ht] at this; cases this
    · intro h; cases h
    · have := List.mem_of_getElem? hf
      simp only [Variant.asStruct, boolVariant, List.mem_map] at this
      obtain ⟨x, _, rfl⟩ := this
      exact .bool
  · rw [hnt w (List.mem_of_getElem? hw)] at ht; cases ht
  · rw [hnt w (List.mem_of_getElem? hw)] at ht; cases ht

/-- `A { x }` as an element of a list, for all `x`. -/
example (x : Bool) : ∃ v, Writes demoEnum.dict false (0, [x]) v := by
  refine (demoEnum_writable.both.1.elem _ ⟨0, _, [x], rfl, ⟨_, rfl, .inl ⟨rfl, [x], rfl, rfl, fun i f w hf hw => ?_⟩⟩, rfl,
    false, ["aa".toList], [.ident "aa".toList 1], .plain (.one _ _), ⟨rfl, rfl, ⟨rfl, rfl⟩, ?_, fun j _ h => by cases h⟩,
    fun _ => ?_⟩).1
  · match i, hf, hw with
    | 0, hf, hw =>
      cases hf; cases hw
      exact .inl ⟨⟨false, ["x".toList], [.ident "x".toList 1], .plain (.one _ _), _, rfl, rfl, ⟨rfl, rfl⟩, List.mem_cons_self,
        fun j _ h => by cases h⟩, x, trivial, rfl⟩
  · simp [keyString, boolVariant]
  · decide +kernel

end Deluxe
