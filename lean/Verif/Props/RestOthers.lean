import Verif.Props.RestField
import Verif.Props.Inline
/-!
# C87: a `rest` field does not change how the other fields are read

macros/types/field.rs:315-388, 397-416; core/parse_meta.rs:774-815.
-/
namespace Deluxe

variable {V : Type}

/-- The structure without the `rest` field, but with `allow_unknown_fields`. -/
def StructDef.withoutRest (d : StructDef V) (A B : List (Field V)) : StructDef V :=
  { d with fields := A ++ B, allowUnknown := some true }

/-- What is asked of the structure: it has the fields `A`, `f`, `B`, where `f` is the only one with `rest`; no default,
not transparent, no function on the whole. -/
structure HasRest [Env] (d : StructDef V) (A B : List (Field V)) (f : Field V) : Prop where
  shape : d.shape = .named
  fields : d.fields = A ++ f :: B
  rest : f.rest = some true
  append : f.append.getD false = false
  parsable : f.isParsable = true
  transforms : f.transforms = []
  default : d.default = none
  accepted : d.Accepted
  transparent : d.isTransparent = false
  good : FieldsGood d.fields
  functions : d.andThens = []
  only : ∀ x ∈ A ++ B, x.flatParsable = true → x.rest.getD false = false

section
variable [Env]

theorem HasRest.flat {d : StructDef V} {A B : List (Field V)} {f : Field V} (h : HasRest d A B f) :
    f.flatParsable = true := by
  simp [Field.flatParsable, Field.isFlat, h.rest, h.parsable]

theorem HasRest.notPlain {d : StructDef V} {A B : List (Field V)} {f : Field V} (h : HasRest d A B f) :
    ¬ f.Plain := fun hp => by
  have := hp.1
  simp [Field.isFlat, h.rest] at this

/-- What the field with `rest` ends up with is what its own parser gives. -/
theorem HasRest.holds {d : StructDef V} {A B : List (Field V)} {f : Field V} (h : HasRest d A B f) (span : Span)
    (l : List Stream) (bs : List (SItem V)) (v : V) :
    Holds d.data (Field.fieldNames d.fields) [] span l bs f A.length v ↔
      (f.restP (Field.fieldNames d.fields) (if B.any (·.flatParsable) then forkInputs l else l)).1 = .ok v := by
  have hcall : flatOut d.data.fields [] span (Field.fieldNames d.fields) l f A.length =
      (f.restP (Field.fieldNames d.fields) (if B.any (·.flatParsable) then forkInputs l else l)).1 := by
    have hd : d.data.fields = A ++ f :: B := h.fields
    have : (A ++ f :: B).drop (A.length + 1) = B := by
      rw [List.drop_append]
      simp
    simp only [flatOut, hd, this]
    simp [Field.flatCall, h.append, h.rest]
  have hc : f.isContainer = false := by
    have := h.parsable
    simp only [Field.isParsable, Bool.and_eq_true, Bool.not_eq_true'] at this
    exact this.1
  have htg : d.data.target = none := h.default
  rw [Holds, hcall]
  constructor
  · rintro (⟨b, hs, ht⟩ | ⟨_, t, ht, _⟩)
    · rw [h.transforms] at ht
      simp only [runTransforms, Except.ok.injEq] at ht
      subst ht
      cases hs with
      | item h1 _ => exact absurd h1 h.notPlain
      | flat _ h1 => exact h1
      | container h1 _ => rw [hc] at h1; cases h1
      | default h1 _ =>
        rcases h1 with ⟨h1, _⟩ | ⟨h1, _⟩
        · exact absurd h1 h.notPlain
        · rw [h.parsable] at h1; cases h1
      | missing h1 => exact absurd h1 h.notPlain
    · rw [htg] at ht; cases ht
  · intro h1
    exact .inl ⟨v, .flat h.flat h1, by rw [h.transforms]; rfl⟩

/-- C87: a structure with a `rest` field is parsed exactly if its `rest` field is, and the structure without that
field, in which unknown keys are allowed; the other fields have the values they have there.  (The fields that read
the input themselves are asked to give the same on a fork of it.) -/
theorem c87_fields {d : StructDef V} {A B : List (Field V)} {f : Field V} (h : HasRest d A B f) (mode : Mode)
    {l : List Stream} {ks : List (Keyed V)} (hl : ItemsAll (KeyedSeg (A ++ B)) l ks)
    (hfork : ∀ x ∈ A ++ B, x.flatParsable = true → ∀ al v,
      (x.flatCall [] (mode.toFullSpan l) al (forkInputs l)).1 = .ok v ↔
        (x.flatCall [] (mode.toFullSpan l) al l).1 = .ok v) (vs : List V) :
    (d.dict.inline mode l).1 = .ok vs ↔ ∃ a w b, vs = a ++ w :: b ∧ a.length = A.length ∧
      (f.restP (Field.fieldNames d.fields) (if B.any (·.flatParsable) then forkInputs l else l)).1 = .ok w ∧
      ((d.withoutRest A B).dict.inline mode l).1 = .ok (a ++ b) := by
  have hap : Apart ([] : List (Field V)) A B := fun x hx => by cases hx
  have hout : ItemsAll (KeyedSeg d.fields) l (ks.map (Keyed.mapPos (outPos A.length 0))) := by
    rw [h.fields]
    exact hl.map fun _ _ _ _ hb => KeyedSeg.out (I := []) hap h.notPlain hb
  have hmem : f ∈ d.fields := by rw [h.fields]; simp
  have hsub : ∀ x ∈ A ++ B, x ∈ d.fields := by
    intro x hx
    rw [h.fields]
    rcases List.mem_append.1 hx with hx | hx
    · exact List.mem_append_left _ hx
    · exact List.mem_append_right _ (List.mem_cons_of_mem _ hx)
  have htr : (d.withoutRest A B).isTransparent = false := by
    have h1 := h.transparent
    simp only [StructDef.isTransparent, h.fields, StructDef.withoutRest, List.filter_append] at h1 ⊢
    rw [List.filter_cons_of_neg (by simp [Field.isFlat, h.rest])] at h1
    exact h1
  have hacc : (d.withoutRest A B).Accepted := by
    refine ⟨⟨fun x hx hp => h.accepted.fields.filled x (hsub x hx) hp, fun t ht => ?_⟩, ?_, ?_⟩
    · have : d.default = some t := ht
      rw [h.default] at this
      cases this
    · intro ht; rw [htr] at ht; cases ht
    · intro ht; rw [show (d.withoutRest A B).shape = .named from h.shape] at ht; cases ht
  have hgood : FieldsGood (d.withoutRest A B).fields :=
    ⟨fun x hx => h.good.named x (hsub x hx), fun x hx => h.good.missing x (hsub x hx),
      fun x hx => h.good.flat x (hsub x hx)⟩
  have hX : ItemsOk false [] (ks.map (Keyed.item (A ++ B))) ↔
      ItemsOk false [] ((ks.map (Keyed.mapPos (outPos A.length 0))).map (Keyed.item d.fields)) := by
    rw [keyed_itemsOk, keyed_itemsOk, owners_mapPos, nodup_split A.length 0 (Keyed.owners ks)]
    have hin : ∀ i, inPos A.length 0 i = none := by
      intro i; unfold inPos; split <;> (try rfl); split <;> (first | rfl | omega)
    have hnil : (Keyed.owners ks).filterMap (inPos A.length 0) = [] := by
      rw [List.filterMap_eq_nil_iff]; exact fun i _ => hin i
    rw [hnil]
    constructor
    · rintro ⟨⟨h1, -⟩, h3, -⟩
      refine ⟨h1, fun k hk i x he => ?_, by simp⟩
      obtain ⟨k', hk', rfl⟩ := List.mem_map.1 hk
      simp only [Keyed.mapPos, Option.bind_eq_some_iff, Option.map_eq_some_iff, Prod.mk.injEq] at he
      obtain ⟨⟨j, y⟩, hj, _, _, _, rfl⟩ := he
      exact h3 k' hk' j y hj
    · rintro ⟨h1, h3, -⟩
      refine ⟨⟨h1, List.nodup_nil⟩, fun k hk i x he => ?_, by simp⟩
      have : ∃ j, outPos A.length 0 i = some j := by
        unfold outPos; split
        · exact ⟨_, rfl⟩
        · split
          · omega
          · exact ⟨_, rfl⟩
      obtain ⟨j, hj⟩ := this
      exact h3 _ (List.mem_map_of_mem hk) j x (by simp [Keyed.mapPos, he, hj])
  have hflat : ∀ x ∈ A ++ B, x.flatParsable = true → ∀ (F G : List (Field V)) al al' i j v,
      flatOut F [] (mode.toFullSpan l) al l x i = .ok v ↔ flatOut G [] (mode.toFullSpan l) al' l x j = .ok v := by
    intro x hx hxf F G al al' i j v
    have h0 : x.flatCall [] (mode.toFullSpan l) al = x.flatCall [] (mode.toFullSpan l) al' := by
      simp only [Field.flatCall, h.only x hx hxf]
      rfl
    have := hfork x hx hxf al' v
    simp only [flatOut, h0]
    split <;> split <;> first | exact Iff.rfl | exact this | exact this.symm
  have hA : ∀ i x, i < A.length → A[i]? = some x → ∀ v,
      Holds d.data (Field.fieldNames d.fields) [] (mode.toFullSpan l) l
        ((ks.map (Keyed.mapPos (outPos A.length 0))).map (Keyed.item d.fields)) x i v ↔
      Holds (d.withoutRest A B).data (Field.fieldNames (d.withoutRest A B).fields) [] (mode.toFullSpan l) l
        (ks.map (Keyed.item (A ++ B))) x i v := by
    intro i x hlt hx v
    refine ends_congr h.default h.default (fun _ => rfl) ?_
      (fun hxf w => hflat x (List.mem_append_left _ (List.mem_of_getElem? hx)) hxf _ _ _ _ _ _ w) fun _ => Iff.rfl
    rw [keyed_given, keyed_given]
    exact given_mapPos (outPos_lt hlt) ks
  have hB : ∀ t x, B[t]? = some x → ∀ v,
      Holds d.data (Field.fieldNames d.fields) [] (mode.toFullSpan l) l
        ((ks.map (Keyed.mapPos (outPos A.length 0))).map (Keyed.item d.fields)) x (A.length + 1 + t) v ↔
      Holds (d.withoutRest A B).data (Field.fieldNames (d.withoutRest A B).fields) [] (mode.toFullSpan l) l
        (ks.map (Keyed.item (A ++ B))) x (A.length + t) v := by
    intro t x hx v
    refine ends_congr h.default h.default (fun _ => rfl) ?_
      (fun hxf w => hflat x (List.mem_append_right _ (List.mem_of_getElem? hx)) hxf _ _ _ _ _ _ w) fun _ => Iff.rfl
    rw [keyed_given, keyed_given]
    exact given_mapPos outPos_ge ks
  rw [c74_parsed (.rest hmem h.rest) h.shape h.accepted h.transparent h.good h.functions mode (keyedAll_struct hout)]
  have hr := c74_parsed (d := d.withoutRest A B) (.declared rfl) h.shape hacc htr hgood h.functions mode
    (keyedAll_struct hl)
  have hdf : ∀ i : Nat, d.fields[i]? = (A ++ f :: B)[i]? := fun i => by rw [h.fields]
  have hlen : d.fields.length = A.length + 1 + B.length := by
    rw [h.fields]; simp only [List.length_append, List.length_cons]; omega
  constructor
  · rintro ⟨h1, h2, h3⟩
    obtain ⟨v, hv, hh⟩ := h3 A.length f (by rw [hdf, get_f])
    have hvs : vs = vs.take A.length ++ v :: vs.drop (A.length + 1) := by
      obtain ⟨hlt, he⟩ := List.getElem?_eq_some_iff.1 hv
      rw [← he, List.getElem_cons_drop, List.take_append_drop]
    have hta : (vs.take A.length).length = A.length := by rw [List.length_take]; omega
    refine ⟨_, v, _, hvs, hta, (h.holds _ _ _ _).1 hh, (hr _).2 ⟨hX.2 h1, ?_, ?_⟩⟩
    · simp only [List.length_append, List.length_drop, StructDef.withoutRest, hta]; omega
    · intro i x hx
      replace hx : (A ++ B)[i]? = some x := hx
      by_cases hiA : i < A.length
      · rw [List.getElem?_append_left hiA] at hx
        obtain ⟨w, hw, hhw⟩ := h3 i x (by rw [hdf, List.getElem?_append_left hiA, hx])
        refine ⟨w, ?_, (hA i x hiA hx w).1 hhw⟩
        rw [List.getElem?_append_left (by omega), List.getElem?_take_of_lt hiA, hw]
      · obtain ⟨t, rfl⟩ := Nat.exists_eq_add_of_le (Nat.le_of_not_lt hiA)
        rw [List.getElem?_append_right (by omega), Nat.add_sub_cancel_left] at hx
        obtain ⟨w, hw, hhw⟩ := h3 (A.length + 1 + t) x (by rw [hdf, get_B', hx])
        refine ⟨w, ?_, (hB t x hx w).1 hhw⟩
        rw [List.getElem?_append_right (by omega), hta, Nat.add_sub_cancel_left, List.getElem?_drop, hw]
  · rintro ⟨a, w, b, rfl, ha, hw, h0⟩
    obtain ⟨h1, h2, h3⟩ := (hr _).1 h0
    have hbl : b.length = B.length := by
      simp only [List.length_append, StructDef.withoutRest] at h2; omega
    refine ⟨hX.1 h1, ?_, ?_⟩
    · rw [hlen]; simp only [List.length_append, List.length_cons]; omega
    · intro i x hx
      rw [hdf] at hx
      by_cases hiA : i < A.length
      · rw [List.getElem?_append_left hiA] at hx
        obtain ⟨w, hww, hhw⟩ := h3 i x (by
          show (A ++ B)[i]? = _; rw [List.getElem?_append_left hiA, hx])
        refine ⟨w, ?_, (hA i x hiA hx w).2 hhw⟩
        rw [List.getElem?_append_left (by omega)] at hww ⊢
        exact hww
      · by_cases hin : i = A.length
        · subst hin
          rw [get_f] at hx
          cases hx
          exact ⟨w, by rw [← ha, List.getElem?_append_right (Nat.le_refl _), Nat.sub_self]; rfl,
            (h.holds _ _ _ _).2 hw⟩
        · obtain ⟨q, rfl⟩ := Nat.exists_eq_add_of_le (show A.length + 1 ≤ i by omega)
          rw [get_B'] at hx
          obtain ⟨w, hww, hhw⟩ := h3 (A.length + q) x (by
            show (A ++ B)[_]? = _
            rw [List.getElem?_append_right (by omega), Nat.add_sub_cancel_left, hx])
          refine ⟨w, ?_, (hB q x hx w).2 hhw⟩
          rw [List.getElem?_append_right (by omega), ha, Nat.add_sub_cancel_left] at hww
          rw [List.getElem?_append_right (by omega), ha, show A.length + 1 + q - A.length = q + 1 by omega]
          exact hww

/-! ## Where it is not so -/

/-- The tokens of a stream have an item whose key the key type does not read; the items before it are as they should
be. -/
inductive BadKey {κ ν : Type} (kp : M Stream κ) (keyStr : κ → Str) (vp : Str → Span → M Stream ν)
    (exclude : List Str) (sc : Span) : List Tok → Prop
  | here {ts : List Tok} : ts ≠ [] → (∀ u, ∃ e s', kp ⟨ts, sc, u⟩ = (.err e, s')) →
      BadKey kp keyStr vp exclude sc ts
  | later {v : List Tok} {c : Tok} {rest : List Tok} {b : Option (κ × Except SynErr ν × Span)} : Comma c →
      RestSeg kp keyStr vp exclude v (c :: rest) sc b → BadKey kp keyStr vp exclude sc rest →
      BadKey kp keyStr vp exclude sc (v ++ c :: rest)

theorem BadKey.reads {κ ν : Type} {kd : Dict κ} {keyStr : κ → Str} {vd : Dict ν} {exclude : List Str} {sc : Span}
    {ts : List Tok} (h : BadKey (kd.parse .unnamed) keyStr vd.named exclude sc ts) :
    ∀ u, ∃ rs e s', Reads (entryItem (kd.parse .unnamed) keyStr vd.named exclude id) ⟨ts, sc, u⟩ rs (some e) s' := by
  induction h with
  | @here ts hne hk =>
    intro u
    obtain ⟨e, s', h⟩ := hk u
    exact ⟨[], e, s', .failItem hne (by simp only [entryItem, h])⟩
  | @later v c rest b hc hs _ ih =>
    intro u
    obtain ⟨v', u', hv', -, h1⟩ := restSeg_item kd keyStr vd exclude v (c :: rest) sc b (.inr ⟨_, _, rfl, hc⟩) hs u
    cases v' with
    | nil =>
      obtain ⟨rs, e, s', h2⟩ := ih u'
      exact ⟨_, e, s', .more (by simp) h1 rfl hc h2⟩
    | cons t v'' => exact ⟨_, _, _, .failSep (by simp) h1 rfl (hv' t (by simp))⟩

/-- A `rest` map fails if there is an item, also one of another field, whose key its key type does not read. -/
theorem c87_key {κ ν : Type} [DecidableEq κ] {kd : Dict κ} {keyStr : κ → Str} {vd : Dict ν}
    (hk : Good (kd.parse .unnamed)) (hv : ∀ n sp, Good (vd.named n sp)) (exclude : List Str) {before after : List Stream}
    {s : Stream} {es} (hb : ItemsAll (RestSeg (kd.parse .unnamed) keyStr vd.named exclude) before es)
    (hs : BadKey (kd.parse .unnamed) keyStr vd.named exclude s.scope s.toks) :
    ∃ e, (mapRest kd keyStr vd exclude (before ++ s :: after)).1 = .err e := by
  have hgood := entryItem_good (keyStr := keyStr) hk hv exclude (after := id) (fun s => Adv.refl s)
  have hall : ∃ rs e l', ReadsAll (entryItem (kd.parse .unnamed) keyStr vd.named exclude id)
      (before ++ s :: after) rs (some e) l' := by
    induction hb with
    | nil =>
      obtain ⟨rs, e, s', h⟩ := hs.reads s.unexp
      exact ⟨rs, e, _, .fail h⟩
    | @cons t bs rest bs' h1 _ ih =>
      obtain ⟨rs1, f1, s1, a1, -, -⟩ := restSeg_reads kd keyStr vd exclude _ _ _ h1 t.unexp
      cases f1 with
      | some e => exact ⟨rs1, e, _, .fail a1⟩
      | none =>
        obtain ⟨rs2, e, l2, b1⟩ := ih
        exact ⟨rs1 ++ rs2, e, s1 :: l2, .cons a1 b1⟩
  obtain ⟨rs, e, l', h⟩ := hall
  have hrun := runAcc_reads hgood (fun k b _ _ => onSome mapAdd k b) ([] : List (κ × ν)) h
  exact ⟨e, by simp only [mapRest, restStep_eq]; rw [hrun]; rfl⟩

/-- What the `rest` field of a structure that is parsed gave. -/
theorem rest_parsed {κ ν : Type} [DecidableEq κ] {d : StructDef V} (hs : d.shape = .named) (ha : d.Accepted)
    (ht : d.isTransparent = false) (hg : FieldsGood d.fields) (hn : d.andThens = []) {kd : Dict κ} {keyStr : κ → Str}
    {vd : Dict ν} {g : List (κ × ν) → V} {f : Field V} (hf : f ∈ d.fields) (hr : IsRestMap f kd keyStr vd g)
    {mode : Mode} {l : List Stream} {vs : List V} (h : (d.dict.inline mode l).1 = .ok vs) :
    (∃ rs l1, ReadsAll (structItem d.fields []) (forkInputs l) rs none l1) ∧
      ∃ l' m, (l' = l ∨ l' = forkInputs l) ∧ (mapRest kd keyStr vd (Field.fieldNames d.fields) l').1 = .ok m := by
  have hall : d.acceptsAll = true := c74_announced (.rest hf hr.rest)
  have e : (d.dict.inline mode l).1 = (namedFlat d.data (Field.fieldNames d.fields) mode [] false l).1 := by
    unfold StructDef.dict
    rw [ht, hs, hall]
    simp only [StructDef.flatNamed, hn]
    show runAndThens [] (namedFlat d.data (Field.fieldNames d.fields) mode [] false l).1 = _
    cases (namedFlat d.data (Field.fieldNames d.fields) mode [] false l).1 <;> rfl
  rw [e] at h
  have hflat : f.flatParsable = true := by simp [Field.flatParsable, Field.isFlat, hr.rest, hr.parsable]
  have hany : d.data.fields.any (·.flatParsable) = true := List.any_eq_true.2 ⟨f, hf, hflat⟩
  obtain ⟨rs, fatal, l1, hreads⟩ := ReadsAll.exists (structItem_good hg.named [])
    (if d.data.fields.any (·.flatParsable) then forkInputs l else l)
  obtain ⟨h1, -, -, h2⟩ := (namedFlat_ok d.data ha.fields ht hg _ mode [] false hreads vs).1 h
  rw [hany, h1] at hreads
  refine ⟨⟨rs, l1, hreads⟩, ?_⟩
  obtain ⟨i, hi⟩ := List.getElem?_of_mem hf
  obtain ⟨v, -, hv⟩ := h2 i f hi
  have hnp : ¬ f.Plain := fun hp => by
    have := hp.1
    simp [Field.isFlat, hr.rest] at this
  have hnc : f.isContainer = false := by
    have := hr.parsable
    simp only [Field.isParsable, Bool.and_eq_true, Bool.not_eq_true'] at this
    exact this.1
  have hng : ∀ gv, ¬ NotGiven d.data f gv := by
    rintro gv (⟨h1, -⟩ | ⟨h1, -⟩)
    · exact hnp h1
    · rw [hr.parsable] at h1; cases h1
  have hout : flatOut d.fields [] (mode.toFullSpan l) (Field.fieldNames d.fields) l f i = .ok v := by
    rcases hv with ⟨b, hb, hx⟩ | ⟨hb, -⟩
    · rw [hr.transforms] at hx
      cases hx
      cases hb with
      | item h1 => exact absurd h1 hnp
      | flat _ h1 => exact h1
      | container h1 => rw [hnc] at h1; cases h1
      | default h1 => exact absurd h1 (hng _)
      | missing h1 => exact absurd h1 hnp
    · cases hb with
      | target h1 => exact absurd h1 (hng _)
  have hcall : ∀ sp l, (f.flatCall [] sp (Field.fieldNames d.fields) l).1 =
      (mapRest kd keyStr vd (Field.fieldNames d.fields) l).1.map g := by
    intro sp l
    simp [Field.flatCall, hr.rest, hr.append, hr.parser]
  rw [flatOut, hcall] at hout
  refine ⟨if (d.fields.drop (i + 1)).any (·.flatParsable) then forkInputs l else l, ?_⟩
  have hw : ∀ l', (mapRest kd keyStr vd (Field.fieldNames d.fields) l').1.map g = .ok v →
      ∃ m, (mapRest kd keyStr vd (Field.fieldNames d.fields) l').1 = .ok m := by
    intro l' h
    cases hm : (mapRest kd keyStr vd (Field.fieldNames d.fields) l').1 with
    | ok m => exact ⟨m, rfl⟩
    | err e => rw [hm] at h; cases h
    | panic => rw [hm] at h; cases h
  obtain ⟨m, hm⟩ := hw _ hout
  exact ⟨m, by split <;> simp, hm⟩

/-- The full claim of C87 is false: if one item, also one that belongs to another field, has a key that the key type
of the `rest` map does not read, the whole structure is not parsed.  `allowed` are the declared names. -/
theorem c87_key_violated {κ ν : Type} [DecidableEq κ] {d : StructDef V} (hs : d.shape = .named) (ha : d.Accepted)
    (ht : d.isTransparent = false) (hg : FieldsGood d.fields) (hn : d.andThens = []) {kd : Dict κ} {keyStr : κ → Str}
    {vd : Dict ν} (hk : Good (kd.parse .unnamed)) (hv : ∀ n sp, Good (vd.named n sp)) {g : List (κ × ν) → V}
    {f : Field V} (hf : f ∈ d.fields) (hr : IsRestMap f kd keyStr vd g) (mode : Mode)
    {before after : List Stream} {s : Stream} {es}
    (hb : ItemsAll (RestSeg (kd.parse .unnamed) keyStr vd.named (Field.fieldNames d.fields)) before es)
    (hbad : BadKey (kd.parse .unnamed) keyStr vd.named (Field.fieldNames d.fields) s.scope s.toks) (vs : List V) :
    (d.dict.inline mode (before ++ s :: after)).1 ≠ .ok vs := by
  intro h
  obtain ⟨-, l', m, hl, hm⟩ := rest_parsed hs ha ht hg hn hf hr h
  have : ∃ e, (mapRest kd keyStr vd (Field.fieldNames d.fields) l').1 = .err e := by
    rcases hl with rfl | rfl
    · exact c87_key hk hv _ hb hbad
    · rw [show forkInputs (before ++ s :: after) = forkInputs before ++ s.fork :: forkInputs after by
        simp [forkInputs]]
      exact c87_key hk hv _ (itemsAll_fork hb) hbad
  obtain ⟨e, he⟩ := this
  rw [hm] at he
  cases he

omit [Env] in
/-- The key type does not read anything that starts like a path, as `String` and the numbers, whose keys are
literals. -/
def RefusesPaths {κ : Type} (kp : M Stream κ) : Prop :=
  ∀ ⦃lead segs pt⦄, PathToks lead segs pt → ∀ rest sc u, ∃ e s', kp ⟨pt ++ rest, sc, u⟩ = (.err e, s')

omit [Env] in
theorem expectLit_refuses {α : Type} (what : Str) (acc : LitVal → Option α) (h : ∀ b, acc (.bool b) = none) :
    RefusesPaths (expectLit what acc) := by
  intro lead segs pt hp rest sc u
  have hid : ∀ x sp r, ∃ e s', expectLit what acc ⟨.ident x sp :: r, sc, u⟩ = (.err e, s') := by
    intro x sp r
    simp only [expectLit, parseLitToks]
    by_cases h1 : x = "true".toList
    · simp [h1, h]
    · by_cases h2 : x = "false".toList
      · simp [h2, h]
      · simp only [h1, h2, ↓reduceIte]; exact ⟨_, _, rfl⟩
  cases hp with
  | plain hs => cases hs <;> exact hid _ _ _
  | lead a b j hs => exact ⟨_, _, rfl⟩

omit [Env] in
theorem stringDict_refuses : RefusesPaths (stringDict.parse .unnamed) := expectLit_refuses _ _ fun _ => rfl

omit [Env] in
theorem charDict_refuses : RefusesPaths (charDict.parse .unnamed) := expectLit_refuses _ _ fun _ => rfl

omit [Env] in
theorem intDict_refuses {α : Type} (conv : Bool × Nat → Option α) : RefusesPaths ((intDict conv).parse .unnamed) := by
  intro lead segs pt hp rest sc u
  obtain ⟨e, s', h⟩ := expectLit_refuses "integer literal".toList (fun
    | .lit (.int n) => some (false, n)
    | .neg (.int n) => some (true, n)
    | _ => none) (fun _ => rfl) hp rest sc u
  refine ⟨e, s', ?_⟩
  have h' : parseLitInt ⟨pt ++ rest, sc, u⟩ = (.err e, s') := h
  simp only [intDict, Dict.mk', h']

/-- A structure with a `rest` map whose keys are literals, as `HashMap<String, T>`, is not parsed from any input that
has a token: a key that is a path is refused by the map, and any other by the loop over the fields. -/
theorem c87_literals_violated {κ ν : Type} [DecidableEq κ] {d : StructDef V} (hs : d.shape = .named) (ha : d.Accepted)
    (ht : d.isTransparent = false) (hg : FieldsGood d.fields) (hn : d.andThens = []) {kd : Dict κ} {keyStr : κ → Str}
    {vd : Dict ν} (hk : Good (kd.parse .unnamed)) (hv : ∀ n sp, Good (vd.named n sp)) {g : List (κ × ν) → V}
    {f : Field V} (hf : f ∈ d.fields) (hr : IsRestMap f kd keyStr vd g) (href : RefusesPaths (kd.parse .unnamed))
    (mode : Mode) {l : List Stream} (hl : ∃ s ∈ l, s.toks ≠ []) (vs : List V) :
    (d.dict.inline mode l).1 ≠ .ok vs := by
  intro h
  have hsplit : ∃ before s after, l = before ++ s :: after ∧ (∀ t ∈ before, t.toks = []) ∧ s.toks ≠ [] := by
    clear h
    induction l with
    | nil => obtain ⟨s, h, -⟩ := hl; cases h
    | cons t l ih =>
      by_cases hte : t.toks = []
      · obtain ⟨s, hm, hne⟩ := hl
        rcases List.mem_cons.1 hm with rfl | hm
        · exact absurd hte hne
        · obtain ⟨b, s, a, rfl, h1, h2⟩ := ih ⟨s, hm, hne⟩
          exact ⟨t :: b, s, a, rfl, by simpa [hte] using h1, h2⟩
      · exact ⟨[], t, l, rfl, by simp, hte⟩
  obtain ⟨before, s, after, rfl, hb, hne⟩ := hsplit
  obtain ⟨⟨rs, l1, hreads⟩, -⟩ := rest_parsed hs ha ht hg hn hf hr h
  have hpath : ∃ lead segs pt rest, PathToks lead segs pt ∧ s.toks = pt ++ rest := by
    have hfork : forkInputs (before ++ s :: after) = forkInputs before ++ s.fork :: forkInputs after := by
      simp [forkInputs]
    rw [hfork] at hreads
    clear hfork h
    generalize hfo : (none : Option SynErr) = fo at hreads
    induction before generalizing rs l1 with
    | nil =>
      simp only [forkInputs, List.map_nil, List.nil_append] at hreads
      have hitem : ∀ b s1, structItem d.fields [] s.fork = (.ok b, s1) →
          ∃ lead segs pt rest, PathToks lead segs pt ∧ s.toks = pt ++ rest := by
        intro b s1 hi
        simp only [structItem, keyed] at hi
        cases hp : parseAnyPath s.fork with
        | mk r s2 =>
          rw [hp] at hi
          cases r with
          | ok p =>
            obtain ⟨pt, h1, h2, -⟩ := c07_path_sound _ _ _ hp
            exact ⟨_, _, pt, _, h1, h2⟩
          | err e => cases hi
          | panic => cases hi
      cases hreads with
      | cons h1 _ =>
        cases h1 with
        | done h => exact absurd h hne
        | last _ hi _ => exact hitem _ _ hi
        | more _ hi _ _ _ => exact hitem _ _ hi
      | fail h1 => cases hfo
    | cons t before ih =>
      simp only [forkInputs, List.map_cons, List.cons_append] at hreads
      cases hreads with
      | cons h1 h2 => exact ih ⟨s, by simp, hne⟩ (fun x hx => hb x (by simp [hx])) _ _ h2
      | fail h1 => cases hfo
  obtain ⟨lead, segs, pt, rest, hp, he⟩ := hpath
  have hall : ItemsAll (RestSeg (kd.parse .unnamed) keyStr vd.named (Field.fieldNames d.fields)) before [] := by
    clear hl h hreads
    induction before with
    | nil => exact .nil
    | cons t before ih =>
      have := ih (fun x hx => hb x (by simp [hx]))
      exact .cons (bs := []) (by rw [hb t (by simp)]; exact .nil) this
  exact c87_key_violated hs ha ht hg hn hk hv hf hr mode hall
    (.here hne (by rw [he]; exact fun u => href hp rest _ u)) vs h

/-! ## Concrete cases -/

omit [Env] in
theorem pair_mem {p : Field V → Prop} {a b : Field V} (h1 : p a) (h2 : p b) : ∀ f ∈ [a, b], p f := by
  intro f hf
  simp only [List.mem_cons, List.not_mem_nil, or_false] at hf
  rcases hf with rfl | rfl <;> assumption

omit [Env] in
theorem oneBool_good : oneBool.Good := Dict.map_good _ boolDict_good

/-- `#[deluxe(rest)] r: HashMap<K, bool>`, for a type of keys whose parser is `kd`. -/
def restOver {κ : Type} [DecidableEq κ] (kd : Dict κ) (keyStr : κ → Str) (toSegs : κ → List Str) : Field RestVal :=
  { plainField "r".toList oneBool with
    rest := some true
    restP := fun names l =>
      ((mapRest kd keyStr boolDict names l).1.map (List.map fun x => (toSegs x.1, x.2)),
        (mapRest kd keyStr boolDict names l).2) }

/-- `struct S { type: bool, #[deluxe(rest)] r: HashMap<K, bool> }`, where the first field is called `name`. -/
def keyedRest {κ : Type} [DecidableEq κ] (name : Str) (kd : Dict κ) (keyStr : κ → Str) (toSegs : κ → List Str) :
    StructDef RestVal :=
  { onlyRest with fields := [plainField name oneBool, restOver kd keyStr toSegs] }

theorem restOver_is {κ : Type} [DecidableEq κ] (kd : Dict κ) (keyStr : κ → Str) (toSegs : κ → List Str) :
    IsRestMap (restOver kd keyStr toSegs) kd keyStr boolDict (List.map fun x => (toSegs x.1, x.2)) :=
  ⟨rfl, rfl, rfl, rfl, fun _ _ => rfl⟩

theorem keyedRest_accepted {κ : Type} [DecidableEq κ] (name : Str) (kd : Dict κ) (keyStr : κ → Str)
    (toSegs : κ → List Str) : (keyedRest name kd keyStr toSegs).Accepted := by
  refine ⟨⟨pair_mem ?_ ?_, ?_⟩, ?_, ?_⟩
  · intro h; simp [Field.isParsable, Field.isContainer, plainField] at h
  · intro h; simp [Field.isParsable, Field.isContainer, plainField, restOver] at h
  · intro t h; cases h
  · intro h; cases h
  · intro h; cases h

theorem keyedRest_good {κ : Type} [DecidableEq κ] (name : Str) {kd : Dict κ} (keyStr : κ → Str)
    (toSegs : κ → List Str) (hk : ∀ m, Good (kd.parse m)) : FieldsGood (keyedRest name kd keyStr toSegs).fields := by
  refine ⟨pair_mem ?_ ?_, pair_mem ?_ ?_, pair_mem ?_ ?_⟩
  · exact fun _ => oneBool_good.named
  · exact fun _ => oneBool_good.named
  · intro n sp h; cases h
  · intro n sp h; cases h
  · intro h; simp [Field.flatParsable, Field.isFlat, Field.isFlatten, plainField] at h
  · intro _ pre sp allowed l
    have := mapRest_good keyStr hk boolDict_good.named allowed l
    show ((mapRest kd keyStr boolDict allowed l).1.map _) ≠ .panic ∧ _
    refine ⟨fun h => this.1 ?_, this.2⟩
    cases hm : (mapRest kd keyStr boolDict allowed l).1 with
    | ok m => rw [hm] at h; cases h
    | err e => rw [hm] at h; cases h
    | panic => rfl

/-- `withRest` with `a, x` meets the conditions of `c87_fields`: its values are those of the structure with only the
field `a`, and the map. -/
example : HasRest withRest [plainField "a".toList oneBool] [] restMapField ∧
    ItemsAll (KeyedSeg [plainField "a".toList oneBool]) [⟨anyKeyInput.toks, 9, none⟩]
      [("a".toList, 1, some (0, .ok [([], true)])), ("x".toList, 3, none)] ∧
    (withRest.dict.inline (.named 0) [⟨anyKeyInput.toks, 9, none⟩]).1 = .ok [[([], true)], [(["x".toList], true)]] ∧
    ((withRest.withoutRest [plainField "a".toList oneBool] []).dict.inline (.named 0)
      [⟨anyKeyInput.toks, 9, none⟩]).1 = .ok [[([], true)]] := by
  refine ⟨⟨rfl, rfl, rfl, rfl, rfl, rfl, rfl, ?_, rfl, ?_, rfl, ?_⟩, ?_, rfl, rfl⟩
  · refine ⟨⟨pair_mem ?_ ?_, ?_⟩, ?_, ?_⟩
    · intro h; simp [Field.isParsable, Field.isContainer, plainField] at h
    · intro h; simp [Field.isParsable, Field.isContainer, plainField, restMapField] at h
    · intro t h; cases h
    · intro h; cases h
    · intro h; cases h
  · refine ⟨pair_mem ?_ ?_, pair_mem ?_ ?_, pair_mem ?_ ?_⟩
    · exact fun _ => oneBool_good.named
    · exact fun _ => oneBool_good.named
    · intro n sp h; cases h
    · intro n sp h; cases h
    · intro h; simp [Field.flatParsable, Field.isFlat, Field.isFlatten, plainField] at h
    · intro _ pre sp allowed
      exact mapRest_good keyString (fun _ => pathKeyDict_good) boolDict_good.named allowed
  · intro x hx _
    simp only [List.append_nil, List.mem_cons, List.not_mem_nil, or_false] at hx
    subst hx
    rfl
  · refine .cons (bs := [_, _]) (.cons (v := [.ident "a".toList 1]) ⟨_, _, rfl⟩ ?_ (.last (by simp) ?_)) .nil
    · have hown : Owns [plainField "a".toList oneBool] [] (keyString ["a".toList]) (plainField "a".toList oneBool) 0 :=
        (owner_some _ _ _ _ _).1 rfl
      exact .field (segs := ["a".toList]) (vt := []) (.mk (pt := [.ident "a".toList 1]) (.plain (.one _ _))
        (by simp [StartsColon2])) (by simp [NoComma]) hown (fun u => ⟨u, rfl⟩)
    · refine .other (segs := ["x".toList]) (vt := []) (.mk (pt := [.ident "x".toList 3]) (.plain (.one _ _))
        (by simp [StartsColon2])) (by simp [NoComma]) ?_
      intro f i h
      have := (owner_some _ _ _ _ _).2 h
      cases this

/-- `struct S { a: bool, #[deluxe(rest)] r: HashMap<String, bool> }` cannot be parsed from any input that has a
token, not even from `a`. -/
theorem c87_string_violated (name : Str) (mode : Mode) {l : List Stream} (hl : ∃ s ∈ l, s.toks ≠ [])
    (vs : List RestVal) :
    ((keyedRest name stringDict id fun k => [k]).dict.inline mode l).1 ≠ .ok vs :=
  c87_literals_violated rfl (keyedRest_accepted _ _ _ _) rfl
    (keyedRest_good _ _ _ stringDict_good.parse) rfl (stringDict_good.parse .unnamed) boolDict_good.named
    (List.mem_cons_of_mem _ List.mem_cons_self) (restOver_is _ _ _) stringDict_refuses mode hl vs

/-- The input `a` is parsed without the `rest` field. -/
example : ((keyedRest "a".toList stringDict id fun k => [k]).dict.inline (.named 0)
      [⟨given1 "a" 1, 9, none⟩]).1 = .err (.new 1 (.expected "string literal".toList)) ∧
    ((StructDef.withoutRest (keyedRest "a".toList stringDict id fun k => [k]) [plainField "a".toList oneBool]
      []).dict.inline (.named 0) [⟨given1 "a" 1, 9, none⟩]).1 = .ok [[([], true)]] := ⟨rfl, rfl⟩

/-- `input.parse::<syn::Path>()` (external) for paths without generic arguments: unlike `parse_any_path`, it refuses
keywords as segments; `keyword` says which they are. -/
def strictPath (keyword : Str → Bool) : M Stream (List Str) := fun s =>
  match parseAnyPath s with
  | (.ok p, s') => if p.segs.any keyword then (.err (s.error (.expected "identifier".toList)), s) else (.ok p.segs, s')
  | (.err e, s') => (.err e, s')
  | (.panic, s') => (.panic, s')

/-- `syn::Path` as type of the keys (core/parse_meta.rs:1397-1403). -/
def strictPathDict (keyword : Str → Bool) : Dict (List Str) := .mk' (parse := fun _ => strictPath keyword)

theorem strictPath_good (keyword : Str → Bool) : Good (strictPath keyword) := by
  intro s
  have := parseAnyPath_good s
  simp only [strictPath]
  cases hp : parseAnyPath s with
  | mk r s' =>
    rw [hp] at this
    cases r with
    | ok p =>
      by_cases hk : p.segs.any keyword = true
      · simp only [hk, ↓reduceIte]; exact ⟨by simp, .refl s⟩
      · simp only [hk]; exact ⟨by simp, this.2⟩
    | err e => exact ⟨by simp, this.2⟩
    | panic => exact absurd rfl this.1

/-- `struct S { r#type: bool, #[deluxe(rest)] r: HashMap<syn::Path, bool> }`: the field is called `type`
(macros/types/field.rs:1192) and without `rest` it is given by `type = true`; with `rest` no input that starts with
the key `type` is parsed. -/
theorem c87_keyword_violated (keyword : Str → Bool) {name : Str} (hkw : keyword name = true) (mode : Mode)
    {s : Stream} {sp : Span} {vt : List Tok} (hs : s.toks = .ident name sp :: vt) (hv : ¬ StartsColon2 vt)
    (after : List Stream) (vs : List RestVal) :
    ((keyedRest name (strictPathDict keyword) keyString id).dict.inline mode (s :: after)).1 ≠ .ok vs := by
  refine c87_key_violated (before := []) rfl (keyedRest_accepted _ _ _ _) rfl
    (keyedRest_good _ _ _ fun _ => strictPath_good keyword) rfl (strictPath_good keyword) boolDict_good.named
    (List.mem_cons_of_mem _ List.mem_cons_self) (restOver_is _ _ _) mode .nil (.here (by simp [hs]) fun u => ?_) vs
  have := parseAnyPath_key (PathToks.plain (.one name sp)) vt s.scope u hv
  rw [hs]
  show ∃ e s', strictPath keyword ⟨[.ident name sp] ++ vt, s.scope, u⟩ = (.err e, s')
  simp only [strictPath, this]
  simp [hkw]

/-- `type` is read without the `rest` field. -/
example : ((keyedRest "type".toList (strictPathDict (· == "type".toList)) keyString id).dict.inline (.named 0)
      [⟨given1 "type" 1, 9, none⟩]).1 = .err (.new 1 (.expected "identifier".toList)) ∧
    ((StructDef.withoutRest (keyedRest "type".toList (strictPathDict (· == "type".toList)) keyString id)
      [plainField "type".toList oneBool] []).dict.inline (.named 0) [⟨given1 "type" 1, 9, none⟩]).1 =
        .ok [[([], true)]] := ⟨rfl, rfl⟩

end
end Deluxe
