import Verif.Props.WriteFlat
import Verif.Props.Inline
/-!
# C111: Every value can be written — enums that are flattened into structures, and enums with flattened variants
-/
namespace Deluxe

variable {V : Type} [Env]

/-! ## Enums among other items -/

/-- The keys that an enum with the prefix `pre` looks at: those of variants, and those of the fields of flattened
variants. -/
def EnumDef.Claims (e : EnumDef V) (pre key : Str) : Prop :=
  (∃ k w i, Selects e.variants pre key k w i) ∨ ∃ v ∈ e.variants, ∃ n ∈ v.spelled, key = pre ++ n

/-- The values of an enum with the prefix `pre` that can be written with the name of a variant. -/
def EnumDef.WritableUnder (e : EnumDef V) (pre : Str) (D : Nat → List V → Prop) (y : EnumVal V) : Prop :=
  ∃ i w vs, e.variants[i]? = some w ∧ D i vs ∧ runThens e.andThens (i, vs) = .ok y ∧
    ∃ lead segs pt k, PathToks lead segs pt ∧ Selects e.variants pre (keyString segs) k w i

/-- Items that name no variant. -/
theorem enum_none_items {e : EnumDef V} {site : Site V} {pre : Str} (sc : Span) (qs : List Piece) (hq : ∀ q ∈ qs, q.Fine)
    (hs : ∀ q ∈ qs, ∀ k w i, ¬ Selects e.variants pre q.key k w i) :
    ∃ bs : List (EItem V), Items (EnumSeg e site pre) sc (pieceToks qs) bs ∧ named bs = [] ∧
      allKeys pre bs = qs.map (fun q => (q.key, pathSpan q.pt)) ∧
      ∀ n, n ∈ (seenKeys pre bs).map (·.1) ↔ ∃ q ∈ qs, q.key = pre ++ n := by
  induction qs with
  | nil => exact ⟨[], .nil, rfl, rfl, by simp [seenKeys]⟩
  | cons q qs ih =>
    obtain ⟨bs, h1, h2, h3, h4⟩ := ih (fun q' h => hq q' (List.mem_cons_of_mem _ h)) fun q' h => hs q' (List.mem_cons_of_mem _ h)
    have e : pieceToks (q :: qs) = q.toks ++ comma :: pieceToks qs := by simp [pieceToks, withCommas]
    have hf := hq q List.mem_cons_self
    refine ⟨.other q.key (pathSpan q.pt) :: bs, ?_, by simpa [named] using h2, by simpa [allKeys] using h3, fun n => ?_⟩
    · rw [e]
      exact .cons comma_comma (.other hf.keyToks (hs q List.mem_cons_self) hf.noComma) h1
    · simp only [seenKeys, List.map_append, List.mem_append, h4, List.mem_cons, exists_eq_or_imp]
      refine or_congr_left ?_
      by_cases hp : pre <+: q.key
      · obtain ⟨t, ht⟩ := hp
        rw [if_pos ⟨t, ht⟩, ← ht, List.drop_left]
        simp only [List.map_cons, List.map_nil, List.mem_singleton, List.append_cancel_left_eq]
        exact eq_comm
      · rw [if_neg hp]
        simp only [List.map_nil, List.not_mem_nil, false_iff]
        exact fun h => hp ⟨n, h.symm⟩

/-- C111 for an enum that is flattened into a structure, with or without a prefix: a variant with a name can be written
by an item among those of the structure. -/
theorem c111_enum_among {e : EnumDef V} {D : Nat → List V → Prop} {pre : Str} (ha : e.Accepted .meta) (hg : e.FieldsFine)
    (hn : e.Infallible)
    (hc : ∀ (i : Nat) w vs, e.variants[i]? = some w → w.ByName → D i vs → ∃ vt, NoComma vt ∧ ¬ StartsColon2 vt ∧
      ∀ p sp rest sc, Boundary rest → ReadsAs (w.item .meta pre p sp) vt rest sc (.ok vs)) :
    CanWriteAmong (fun span => e.flatNamed.parse (.named span) pre false) (e.Claims pre) (e.WritableUnder pre D) := by
  rintro y ⟨i, w, vs, hi, hD, hr, lead, segs, pt, k, hpt, hsel⟩
  obtain ⟨vt, v1, v2, v3⟩ := hc i w vs hi hsel.2.2.1 hD
  have hfine : (⟨segs, pt, vt⟩ : Piece).Fine := ⟨⟨lead, hpt⟩, v2, v1⟩
  refine ⟨[⟨segs, pt, vt⟩], fun span => ⟨?_, ?_, ?_⟩⟩
  · intro q hq
    rw [List.mem_singleton] at hq
    subst hq
    exact hfine
  · intro q hq
    rw [List.mem_singleton] at hq
    subst hq
    exact .inl ⟨k, w, i, hsel⟩
  · intro qs hq hp sc u
    have key : ∀ qs : List Piece, (∀ q ∈ qs, q.Fine) → piecesOf (e.Claims pre) qs = [⟨segs, pt, vt⟩] →
        ∃ bs, Items (EnumSeg e .meta pre) sc (pieceToks qs) bs ∧ named bs = [(i, k, pathSpan pt, .ok vs)] ∧
          ∀ v ∈ e.variants, ∀ n ∈ v.spelled, n ≠ k → n ∉ (seenKeys pre bs).map (·.1) := by
      intro qs
      induction qs with
      | nil => intro _ h; simp [piecesOf] at h
      | cons q qs ih =>
        intro hq hp
        have eq : pieceToks (q :: qs) = q.toks ++ comma :: pieceToks qs := by simp [pieceToks, withCommas]
        have hf := hq q List.mem_cons_self
        by_cases hK : e.Claims pre q.key
        · rw [piecesOf_cons_mine hK] at hp
          simp only [List.cons.injEq] at hp
          obtain ⟨rfl, hp⟩ := hp
          have hno : ∀ q ∈ qs, ¬ e.Claims pre q.key := by
            intro q hq' hk
            have : q ∈ piecesOf (e.Claims pre) qs := mem_piecesOf.2 ⟨hq', hk⟩
            rw [hp] at this
            cases this
          obtain ⟨bs, h1, h2, _, h4⟩ := enum_none_items (e := e) (site := .meta) (pre := pre) sc qs
            (fun q' h => hq q' (List.mem_cons_of_mem _ h)) fun q h k w i hs => hno q h (.inl ⟨k, w, i, hs⟩)
          refine ⟨.variant i k (pathSpan pt) (.ok vs) :: bs, ?_, by simp [named, h2], ?_⟩
          · rw [eq]
            exact .cons comma_comma (.variant hf.keyToks hsel v1 (v3 _ _ _ _ (.inr ⟨comma, _, rfl, comma_comma⟩))) h1
          · intro v hv n hn hne
            simp only [seenKeys, List.map_cons, List.mem_cons, not_or]
            refine ⟨hne, fun hm => ?_⟩
            obtain ⟨q, hq', hk⟩ := (h4 n).1 hm
            exact hno q hq' (.inr ⟨v, hv, n, hn, hk⟩)
        · rw [piecesOf_cons_other hK] at hp
          obtain ⟨bs, h1, h2, h3⟩ := ih (fun q' h => hq q' (List.mem_cons_of_mem _ h)) hp
          refine ⟨.other q.key (pathSpan q.pt) :: bs, ?_, by simpa [named] using h2, ?_⟩
          · rw [eq]
            exact .cons comma_comma (.other hf.keyToks (fun k w i hs => hK (.inl ⟨k, w, i, hs⟩)) hf.noComma) h1
          · intro v hv n hn hne
            simp only [seenKeys, List.map_append, List.mem_append, not_or]
            refine ⟨fun hm => ?_, h3 v hv n hn hne⟩
            by_cases hpre : pre <+: q.key
            · obtain ⟨t, ht⟩ := hpre
              rw [if_pos ⟨t, ht⟩, ← ht, List.drop_left] at hm
              simp only [List.map_cons, List.map_nil, List.mem_singleton] at hm
              subst hm
              exact hK (.inr ⟨v, hv, n, hn, ht.symm⟩)
            · rw [if_neg hpre] at hm
              cases hm
    obtain ⟨bs, h1, h2, h3⟩ := key qs hq hp
    exact (finishes_ok (c64_named_partial ha hg hn (.named span) pre (items_all (u := u) h1) h2 h3) y).2 ⟨rfl, hr⟩

/-! ## Flattened variants -/

/-- The keys of the fields of a variant. -/
def Variant.FieldKeys (w : Variant V) (K : Nat → Str → Prop) (k : Str) : Prop :=
  ∃ i, i < w.fields.length ∧ FieldClaims w.fields [] K i k

/-- The items of the flattened variant `w` at position `i` select it and no other: its keys name no variant, any other
flattened variant has a required field without any of these keys or comes later in the order of the keys, and if `w`
takes any key, its keys are not reported as those of other variants. -/
structure EnumDef.SelectedByFields (e : EnumDef V) (i : Nat) (w : Variant V) (K : Nat → Str → Prop) : Prop where
  flat : w.ByFields
  unnamed : ∀ key, w.FieldKeys K key → ∀ k u j, ¬ Selects e.variants [] key k u j
  alone : ∀ (j : Nat) u, e.variants[j]? = some u → j ≠ i → u.ByFields → ¬ u.Keyless →
    (¬ w.Keyless ∧ cmpKey w.fieldKey u.fieldKey = .lt) ∨
      ∃ f ∈ u.fields, f.Required ∧ f.idents ≠ [] ∧ ∀ k ∈ f.idents, ¬ w.FieldKeys K k
  others : w.acceptsAll = true → w.allowUnknown.getD false = false → e.unknownOk = false →
    ∀ (j : Nat) u n, e.variants[j]? = some u → j ≠ i → n ∈ u.spelled → n ∉ w.spelled → ¬ w.FieldKeys K n

/-- The values of an enum that can be written with the fields of a flattened variant: all its required fields are given. -/
def EnumDef.WritableByFields (e : EnumDef V) (D : Nat → Nat → Domain V) (P : Nat → Nat → V → Prop) (K : Nat → Nat → Str → Prop)
    (y : EnumVal V) : Prop :=
  ∃ i w vs, e.variants[i]? = some w ∧ runThens e.andThens (i, vs) = .ok y ∧ e.SelectedByFields i w (K i) ∧
    FieldsWritable w.asStruct.data [] (D i) (P i) vs ∧
    ∀ (j : Nat) f v, w.fields[j]? = some f → vs[j]? = some v → f.Required → f.idents ≠ [] →
      GivenUnder w.fields [] (D i j) f j v

omit [Env] in
theorem whenLeftOut_span {w : Variant V} {sp : Span} {f : Field V} {i : Nat} {v : V} (h : WhenLeftOut w.asStruct.data f i v) :
    WhenLeftOut (w.data .meta sp) f i v := fun n s =>
  (ends_congr (d := w.asStruct.data) (d' := w.data .meta sp) rfl rfl (fun _ => rfl) rfl (fun _ _ => .rfl) fun _ => .rfl).1
    (h n s)

omit [Env] in
theorem fieldsWrite_span {w : Variant V} {sp : Span} {allowed : List Str} {vs : List V} {K : Nat → Str → Prop}
    {ps : Nat → List Piece} (h : FieldsWrite w.asStruct.data allowed [] vs K ps) :
    FieldsWrite (w.data .meta sp) allowed [] vs K ps := by
  refine ⟨h.length, fun i f v hf hv => ?_, h.apart⟩
  have := h.field i f v hf hv
  generalize K i = K' at this
  generalize ps i = ps' at this
  cases this with
  | item h1 h2 h3 h4 => exact .item h1 h2 h3 h4
  | leftOut h1 h2 => exact .leftOut h1 (whenLeftOut_span h2)
  | flat h1 h2 h3 => exact .flat h1 h2 h3

omit [Env] in
theorem otherMsgs_some_nil {e : EnumDef V} {i : Nat} {cur : Str} {g : Str → Option Span}
    (h : ∀ (j : Nat) u n, e.variants[j]? = some u → j ≠ i → n ∈ u.spelled → g n = none) : otherMsgs e (some i) cur g = [] := by
  simp only [otherMsgs, List.filterMap_eq_nil_iff, List.mem_flatMap]
  rintro n ⟨⟨v, j⟩, hj, hn⟩
  by_cases hji : j = i
  · simp [hji] at hn
  · have hv := List.mem_zipIdx_iff_getElem?.1 hj
    simp only [Option.some.injEq, hji, if_false] at hn
    rw [h j v n hv hji hn]
    rfl

/-- C111 for enums with flattened variants: a value of a flattened variant can be written with the items of its fields,
if these select the variant. -/
theorem c111_flat_variant {e : EnumDef V} {D : Nat → Nat → Domain V} {P : Nat → Nat → V → Prop} {K : Nat → Nat → Str → Prop}
    (ha : e.Accepted .meta) (hg : e.FieldsFine) (hn : e.Infallible) (hd : e.DistinctKeys)
    (hc : ∀ (i : Nat) w (j : Nat) f, e.variants[i]? = some w → w.ByFields → w.fields[j]? = some f → f.flatParsable = false →
      CanWrite f.item (D i j))
    (hF : ∀ (i : Nat) w, e.variants[i]? = some w → w.ByFields → FlatCan w.fields (Field.fieldNames w.fields) [] (K i) (P i))
    (hk : ∀ (i : Nat) w, e.variants[i]? = some w → w.ByFields → w.acceptsAll = true ∨ ∀ k, w.FieldKeys (K i) k →
      k ∈ Field.fieldNames w.fields) :
    CanWrite e.dict (.same (e.WritableByFields D P K)) := by
  refine canWrite_inline (dl := .brace) (fun _ _ => rfl) (e.dict_good ha hg hn) (fun m s => ⟨m.toNamed s, rfl⟩) fun y hy => ?_
  obtain ⟨i, w, vs, hi, hr, hsel, hw, hreq⟩ := hy
  have hfl := hsel.flat
  have hwa := ha w (List.mem_of_getElem? hi) hfl.2
  have hwg := hg w (List.mem_of_getElem? hi) hfl.2
  have hs := hwa.flatten hfl.1
  have ht : w.isTransparent = false := by
    cases h : w.isTransparent with
    | false => rfl
    | true => have h1 := hfl.1; rw [(hwa.transparent h).1] at h1; cases h1
  obtain ⟨ps, h1, h2⟩ := fieldsWritable_writes (d := w.asStruct.data) (hc i w · · hi hfl) (hF i w hi hfl) hw
  have hmem : ∀ q ∈ (List.range w.fields.length).flatMap ps, q.Fine ∧ w.FieldKeys (K i) q.key := by
    intro q hq
    obtain ⟨j, hj, hq⟩ := List.mem_flatMap.1 hq
    have := h1.mine j (List.mem_range.1 hj) q hq
    exact ⟨this.1, j, List.mem_range.1 hj, this.2⟩
  refine ⟨pieceToks ((List.range w.fields.length).flatMap ps), fun m sc u => ?_⟩
  obtain ⟨bs, b1, b2, b3, b4⟩ := enum_none_items (e := e) (site := .meta) (pre := []) sc _ (fun q hq => (hmem q hq).1)
    fun q hq => hsel.unnamed _ (hmem q hq).2
  simp only [List.nil_append] at b4
  have b1 := items_all (u := u) b1
  have hkeys : ∀ n, n ∈ (seenKeys [] bs).map (·.1) → w.FieldKeys (K i) n := by
    intro n hn
    obtain ⟨q, hq, rfl⟩ := (b4 n).1 hn
    exact (hmem q hq).2
  have hflat : ∀ m sp validate, (validate = true → w.acceptsAll = false) →
      (namedFlat (w.data .meta sp) (Field.fieldNames w.fields) m [] validate
        [⟨pieceToks ((List.range w.fields.length).flatMap ps), sc, u⟩]).1 = .ok vs := by
    intro m sp validate hval
    refine namedFlat_among (hwa.data sp) ht ⟨fun f hf _ n sp => (hwg.item f hf).named n sp, fun f hf => (hwg.item f hf).missing, fun f hf => hwg.flat hs f hf⟩ m validate
      (fieldsWrite_span h1) _ (fun q hq => (hmem q hq).1) (piecesOf_all fun q hq => (hmem q hq).2) (fun hv q hq _ => ?_) sc u
    simp only [Bool.and_eq_true] at hv
    rcases hk i w hi hfl with h | h
    · rw [hval hv.2] at h; cases h
    · exact h _ (hmem q hq).2
  have hextra : w.extraMsgs e i (seenKeys [] bs) = [] := by
    unfold Variant.extraMsgs
    split
    · next h =>
      simp only [Bool.and_eq_true, Bool.not_eq_true'] at h
      refine otherMsgs_some_nil fun j u n hu hji hn => ?_
      by_cases hsp : n ∈ w.spelled
      · rw [if_pos hsp]
      · rw [if_neg hsp]
        cases hl : lastSpan (seenKeys [] bs) n with
        | none => rfl
        | some x =>
          have : n ∈ (seenKeys [] bs).map (·.1) := (lastSpan_isSome _ _).1 (by rw [hl]; rfl)
          exact absurd (hkeys n this) (hsel.others h.1.1 h.1.2 h.2 j u n hu hji hn hsp)
    · rfl
  have happ : ¬ w.Keyless → Applies e ((seenKeys [] bs).map (·.1)) i w := fun hnk => by
    refine ⟨hi, hfl, hnk, fun f hf hrq hne => ?_⟩
    obtain ⟨j, hj⟩ := List.getElem?_of_mem hf
    have hlt := (List.getElem?_eq_some_iff.1 hj).1
    have hv := List.getElem?_eq_getElem (l := vs) (i := j) (by rw [h1.length]; exact hlt)
    have hnf : f.flatParsable = false := by simp [Field.flatParsable, hrq.1]
    have h3 := h2 j f _ hj hv hnf (hreq j f _ hj hv hrq hne)
    obtain ⟨q, qs, hq⟩ := List.exists_cons_of_ne_nil h3
    have hq : q ∈ ps j := by rw [hq]; exact List.mem_cons_self
    obtain ⟨f', hf', ho⟩ := (h1.mine j hlt q hq).2
    have hf' : w.fields[j]? = some f' := hf'
    rw [hj] at hf'; cases hf'
    rw [hnf] at ho
    obtain ⟨k, hk1, _, _, hk2, _⟩ := ho
    exact ⟨k, hk2, (b4 k).2 ⟨q, List.mem_flatMap.2 ⟨j, List.mem_range.2 hlt, hq⟩, by simpa using hk1⟩⟩
  have hothers : ∀ j u, Applies e ((seenKeys [] bs).map (·.1)) j u →
      j = i ∨ (¬ w.Keyless ∧ cmpKey w.fieldKey u.fieldKey = .lt) := by
    intro j u hju
    by_cases hji : j = i
    · exact .inl hji
    · rcases hsel.alone j u hju.at_ hji hju.flat hju.required with h | ⟨f, hf, hrq, hne, hno⟩
      · exact .inr h
      · obtain ⟨k, hk1, hk2⟩ := hju.present f hf hrq hne
        exact absurd (hkeys k hk2) (hno k hk1)
  have hout : (enumFlat e .meta m [] true [⟨pieceToks ((List.range w.fields.length).flatMap ps), sc, u⟩]).1 = .ok y := by
    by_cases hkl : w.Keyless
    · have h5 := c45_keyless ha hg hn hd m [] true b1 b2 (fun j u hju => by
        rcases hothers j u hju with rfl | h
        · have := hju.at_
          rw [hi] at this
          cases this
          exact hju.required hkl
        · exact h.1 hkl) hi hfl hkl (by
        rcases hk i w hi hfl with h | h
        · exact .inl h
        · refine .inr fun k hk' => ?_
          rw [b3] at hk'
          obtain ⟨q, hq, rfl⟩ := List.mem_map.1 hk'
          exact h _ (hmem q hq).2)
      rw [hflat _ _ false (by simp), hextra] at h5
      exact (finishes_ok h5 y).2 ⟨rfl, hr⟩
    · obtain ⟨j, u', h5, h6, h7⟩ := c45_applies ha hg hn hd m [] true b1 b2 ⟨i, w, happ hkl⟩
      have hji : j = i := by
        rcases hothers j u' h5 with h | ⟨_, h⟩
        · exact h
        · rcases h6 i w (happ hkl) with h' | h'
          · exact h'.symm
          · rw [← cmpKey_lawful.swap] at h'
            rw [h] at h'
            cases h'
      subst hji
      have := h5.at_
      rw [hi] at this
      cases this
      rw [hflat _ _ (!w.acceptsAll) (by simp), hextra] at h7
      exact (finishes_ok h7 y).2 ⟨rfl, hr⟩
  exact ⟨_, Prod.ext hout rfl, fun s hs' => .inl (enumFlat_left e .meta m [] true (Prod.ext hout rfl) s hs')⟩

omit [Env] in
/-- Two ways to write values. -/
theorem canWrite_or {α : Type} {d : Dict α} {P Q : α → Prop} (h : CanWrite d (.same P)) (h' : CanWrite d (.same Q)) :
    CanWrite d (.same fun a => P a ∨ Q a) :=
  ⟨fun a ha => ha.elim (h.elem a) (h'.elem a), fun a ha => ha.elim (h.val a) (h'.val a),
    fun a ha => ha.elim (h.item a) (h'.item a)⟩

end Deluxe
