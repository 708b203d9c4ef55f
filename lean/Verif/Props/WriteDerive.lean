import Verif.Props.Write
import Verif.Props.ReorderFlat
/-!
# C111: Every value can be written — derived types
-/
namespace Deluxe

variable {V : Type} [Env]

/-- The field `f` at position `i` can be given the value `v` by an item: there is a path that only `f` takes, and a
writable value that becomes `v`. -/
def GivenByItem (fields : List (Field V)) (D : Domain V) (f : Field V) (i : Nat) (v : V) : Prop :=
  (∃ lead segs pt, PathToks lead segs pt ∧ Owns fields [] (keyString segs) f i) ∧
    ∃ b, D.item b ∧ runTransforms f.transforms b = .ok v

/-- The field `f` at position `i` has the value `v` if it is left out. -/
def WhenLeftOut (d : Fields V) (f : Field V) (i : Nat) (v : V) : Prop :=
  ∀ n sp, Ends d f none .panic (f.item.missing n sp) i v

/-- The values of a structure with named fields that can be written: those that the functions on the structure make of
fields which can each be given by an item or are right when they are left out. -/
def StructDef.WritableNamed (d : StructDef V) (D : Nat → Domain V) (vs : List V) : Prop :=
  ∃ ws, d.andThens.foldlM (fun v f => f v) ws = .ok vs ∧ ws.length = d.fields.length ∧
    ∀ (i : Nat) f w, d.fields[i]? = some f → ws[i]? = some w →
      GivenByItem d.fields (D i) f i w ∨ WhenLeftOut d.data f i w

omit [Env] in
theorem given_none {i : Nat} {bs : List (SItem V)} (h : i ∉ owners bs) : given i bs = none := by
  induction bs with
  | nil => rfl
  | cons b bs ih =>
    cases b with
    | other k sp => exact ih h
    | field j n sp x =>
      simp only [owners, List.mem_cons, not_or] at h
      simp only [given, if_neg (Ne.symm h.1)]
      exact ih h.2

omit [Env] in
/-- What a flat parser gives does not matter for a field without one. -/
theorem Ends.noFlat {d : Fields V} {f : Field V} {g : Option (Except SynErr V)} {fl fl' ms : Res V} {i : Nat} {v : V}
    (hf : f.flatParsable = false) (h : Ends d f g fl ms i v) : Ends d f g fl' ms i v := by
  have key : ∀ o, Source d f g fl ms o → Source d f g fl' ms o := by
    intro o ho
    cases ho with
    | item h1 h2 => exact .item h1 h2
    | flat h1 => rw [hf] at h1; cases h1
    | container h1 h2 => exact .container h1 h2
    | default h1 h2 => exact .default h1 h2
    | missing h1 h2 h3 h4 h5 => exact .missing h1 h2 h3 h4 h5
    | target h1 h2 h3 => exact .target h1 h2 h3
  rcases h with ⟨b, h1, h2⟩ | ⟨h1, h2⟩
  · exact .inl ⟨b, key _ h1, h2⟩
  · exact .inr ⟨key _ h1, h2⟩

/-- Items that give the fields `L` their values. -/
theorem struct_items {fields : List (Field V)} {D : Nat → Domain V} (hc : ∀ (i : Nat) f, fields[i]? = some f → CanWrite f.item (D i))
    (val : Nat → V) (L : List (Field V × Nat)) (hn : (L.map (·.2)).Nodup)
    (h : ∀ x ∈ L, fields[x.2]? = some x.1 ∧ GivenByItem fields (D x.2) x.1 x.2 (val x.2)) :
    ∃ toks bs, (∀ sc, Items (StructSeg fields []) sc toks bs) ∧ owners bs = L.map (·.2) ∧
      (∀ x ∈ L, ∃ b, given x.2 bs = some (.ok b) ∧ runTransforms x.1.transforms b = .ok (val x.2)) ∧
      (∀ i name sp x, .field i name sp x ∈ bs → ∃ v, x = .ok v) ∧ ∀ key sp, .other key sp ∉ bs := by
  induction L with
  | nil => exact ⟨[], [], fun _ => .nil, rfl, by simp, by simp, by simp⟩
  | cons x L ih =>
    obtain ⟨f, i⟩ := x
    simp only [List.map_cons, List.nodup_cons] at hn
    obtain ⟨toks, bs, h1, h2, h3, h4, h5⟩ := ih hn.2 fun y hy => h y (List.mem_cons_of_mem _ hy)
    obtain ⟨hf, ⟨lead, segs, pt, hpt, hown⟩, b, hb, hr⟩ := h (f, i) (by simp)
    obtain ⟨vt, hvt⟩ := (hc i f hf).item b hb
    refine ⟨(pt ++ vt) ++ comma :: toks, .field i (f.idents.headD []) (pathSpan pt) (.ok b) :: bs, fun sc => ?_, ?_, ?_, ?_, ?_⟩
    · exact .cons comma_comma (.field (.mk hpt hvt.start) hown
        (hvt.reads _ _ _ _ (.inr ⟨comma, toks, rfl, comma_comma⟩))) (h1 sc)
    · simp [owners, h2]
    · intro y hy
      rcases List.mem_cons.1 hy with rfl | hy
      · exact ⟨b, by simp [given], hr⟩
      · obtain ⟨b', g1, g2⟩ := h3 y hy
        refine ⟨b', ?_, g2⟩
        have : i ≠ y.2 := fun he => hn.1 (he ▸ List.mem_map_of_mem hy)
        simp only [given, if_neg this, g1]
    · intro j name sp x hx
      rcases List.mem_cons.1 hx with hx | hx
      · cases hx; exact ⟨b, rfl⟩
      · exact h4 j name sp x hx
    · intro key sp hx
      rcases List.mem_cons.1 hx with hx | hx
      · cases hx
      · exact h5 key sp hx

theorem StructDef.dict_default (d : StructDef V) : d.dict.DefaultNamed := by
  intro n sp
  unfold StructDef.dict
  split
  · split <;> rfl
  · split <;> rfl

omit [Env] in
theorem noFlat_flatParsable {fields : List (Field V)} (hn : NoFlat fields) {f : Field V} (hf : f ∈ fields) :
    f.flatParsable = false := by
  simp [Field.flatParsable, hn f hf]

theorem StructDef.inline_named {d : StructDef V} (hs : d.shape = .named) (ht : d.isTransparent = false) (m : Mode) :
    d.dict.inline m = d.flatNamed.parse m [] (!d.acceptsAll) := by
  unfold StructDef.dict
  rw [ht, hs]; rfl

/-- The items of a structure with named fields. -/
theorem struct_inside {d : StructDef V} {D : Nat → Domain V} (hs : d.shape = .named) (ht : d.isTransparent = false)
    (ha : d.Accepted) (hg : d.FieldsFine) (hn : NoFlat d.fields)
    (hc : ∀ (i : Nat) f, d.fields[i]? = some f → CanWrite f.item (D i)) {vs : List V} (hvs : d.WritableNamed D vs) :
    ∃ v, ∀ m sc u, ∃ l', d.dict.inline m [⟨v, sc, u⟩] = (.ok vs, l') ∧ ∀ s ∈ l', s.toks = [] := by
  have hin := d.inline_named hs ht
  classical
  obtain ⟨ws, hw1, hw2, hw3⟩ := hvs
  let P : Field V × Nat → Prop := fun x => ∀ w, ws[x.2]? = some w → GivenByItem d.fields (D x.2) x.1 x.2 w
  have hget : ∀ {i : Nat} {f : Field V}, d.fields[i]? = some f → ∃ w, ws[i]? = some w := by
    intro i f hf
    have := (List.getElem?_eq_some_iff.1 hf).1
    exact ⟨_, List.getElem?_eq_getElem (by omega)⟩
  cases hfs : d.fields with
  | nil =>
    refine ⟨[], fun m sc u => ?_⟩
    have h9 := (c31_struct d.data ha.fields ht (hg.good hs) (Field.fieldNames d.fields) m [] (!d.acceptsAll)
      (items_all (u := u) (.nil (sc := sc))) ws).2 ⟨⟨by simp [owners], by simp, by simp⟩, hw2, by
        intro i f hf
        have hf' : d.fields[i]? = some f := hf
        rw [hfs] at hf'
        simp at hf'⟩
    rw [hin]
    refine ⟨(namedFlat d.data (Field.fieldNames d.fields) m [] (!d.acceptsAll) [⟨[], sc, u⟩]).2, ?_, ?_⟩
    · simp only [StructDef.flatNamed, M.mapRes, h9, runAndThens, hw1]
    · exact (namedFlat_left d.data (hg.good hs)
        (fun f hf hp => by have := noFlat_flatParsable hn hf; rw [hp] at this; cases this) _ _ _ _ (Prod.ext h9 rfl))
  | cons f0 fs0 =>
    have hne : 0 < ws.length := by rw [hw2, hfs]; simp
    let val : Nat → V := fun i => ws[i]?.getD ws[0]
    obtain ⟨toks, bs, h1, h2, h3, h4, h5⟩ := struct_items hc val (d.fields.zipIdx.filter fun x => decide (P x)) (by
        have : (d.fields.zipIdx.map (·.2)).Nodup := by
          simp [List.nodup_range']
        exact this.sublist ((List.filter_sublist).map _)) (by
        intro x hx
        obtain ⟨hx1, hx2⟩ := List.mem_filter.1 hx
        have hf : d.fields[x.2]? = some x.1 := List.mem_zipIdx_iff_getElem?.1 hx1
        obtain ⟨w, hw⟩ := hget hf
        have := of_decide_eq_true hx2 w hw
        exact ⟨hf, by simpa only [val, hw, Option.getD_some] using this⟩)
    refine ⟨toks, fun m sc u => ?_⟩
    have h9 := (c31_struct d.data ha.fields ht (hg.good hs) (Field.fieldNames d.fields) m [] (!d.acceptsAll)
      (items_all (u := u) (h1 sc)) ws).2 ⟨⟨?_, h4, fun key sp hk => absurd hk (h5 key sp)⟩, hw2, ?_⟩
    · rw [hin]
      refine ⟨(namedFlat d.data (Field.fieldNames d.fields) m [] (!d.acceptsAll) [⟨toks, sc, u⟩]).2, ?_, ?_⟩
      · simp only [StructDef.flatNamed, M.mapRes, h9, runAndThens, hw1]
      · exact (namedFlat_left d.data (hg.good hs)
          (fun f hf hp => by have := noFlat_flatParsable hn hf; rw [hp] at this; cases this) _ _ _ _ (Prod.ext h9 rfl))
    · rw [h2]
      have : (d.fields.zipIdx.map (·.2)).Nodup := by
        simp [List.nodup_range']
      exact this.sublist ((List.filter_sublist).map _)
    · intro i f hf
      have hf : d.fields[i]? = some f := hf
      obtain ⟨w, hw⟩ := hget hf
      refine ⟨w, hw, ?_⟩
      by_cases hP : P (f, i)
      · obtain ⟨b, g1, g2⟩ := h3 (f, i) (List.mem_filter.2 ⟨List.mem_zipIdx_iff_getElem?.2 hf, decide_eq_true hP⟩)
        obtain ⟨⟨_, segs, _, _, _, _, _, hplain, _⟩, _⟩ := hP w hw
        refine .inl ⟨b, .item hplain g1, ?_⟩
        simpa only [val, hw, Option.getD_some] using g2
      · have hno : i ∉ owners bs := by
          rw [h2]
          intro hm
          obtain ⟨x, hx, rfl⟩ := List.mem_map.1 hm
          obtain ⟨hx1, hx2⟩ := List.mem_filter.1 hx
          have : d.fields[x.2]? = some x.1 := List.mem_zipIdx_iff_getElem?.1 hx1
          rw [hf] at this
          cases this
          exact hP (of_decide_eq_true hx2)
        rcases hw3 i f w hf hw with hG | hL
        · exact absurd (fun w' hw' => by
            simp only [hw, Option.some.injEq] at hw'
            exact hw' ▸ hG) hP
        · show Ends d.data f (given i bs) _ _ i w
          rw [given_none hno]
          exact (hL _ _).noFlat (noFlat_flatParsable hn (List.mem_of_getElem? hf))

/-- Structures with named fields, none of them flattened. -/
theorem c111_struct {d : StructDef V} {D : Nat → Domain V} (hs : d.shape = .named) (ht : d.isTransparent = false)
    (ha : d.Accepted) (hg : d.FieldsFine) (hn : NoFlat d.fields)
    (hc : ∀ (i : Nat) f, d.fields[i]? = some f → CanWrite f.item (D i)) : CanWrite d.dict (.same (d.WritableNamed D)) := by
  refine canWrite_inline (dl := .brace) d.dict_default (d.dict_good ha hg) (fun m s => ⟨m, ?_⟩) fun vs hvs => ?_
  · have : d.dict.inline = fun m => d.flatNamed.parse m [] (!d.acceptsAll) := funext (d.inline_named hs ht)
    rw [this]
    unfold StructDef.dict
    rw [ht, hs]; rfl
  · obtain ⟨v, hv⟩ := struct_inside hs ht ha hg hn hc hvs
    refine ⟨v, fun m sc u => ?_⟩
    obtain ⟨l', h1, h2⟩ := hv m sc u
    exact ⟨l', h1, fun s hs => .inl (h2 s hs)⟩

/-- The attribute of a structure with named fields can hold all its values: there are tokens such that an attribute with
them, the only one with one of the declared names, is read as the value; and so are the arguments of an attribute macro. -/
theorem c111_attribute {d : StructDef V} {D : Nat → Domain V} (hs : d.shape = .named) (ht : d.isTransparent = false)
    (ha : d.Accepted) (hg : d.FieldsFine) (hn : NoFlat d.fields) (hk : NoContainer d.fields) (hp : Placeless d.fields)
    (htd : PlainTidy d.fields) (hc : ∀ (i : Nat) f, d.fields[i]? = some f → CanWrite f.item (D i)) {vs : List V}
    (hvs : d.WritableNamed D vs) :
    ∃ toks, topParse2 d.dict toks = .ok vs ∧ ∀ {O : Type} (attributes : List (List Str)) (h : HasAttrs O) (container : O → V)
      (o : O) (p : APath), matching attributes (h.attrs o) = [⟨p, .list .paren toks⟩] →
        (d.attrTarget attributes).parseAttributes h container o = .ok vs := by
  obtain ⟨v, hv⟩ := struct_inside hs ht ha hg hn hc hvs
  have hno : ∀ f ∈ d.fields, f.flatParsable = true → False := fun f hf h => by
    rw [noFlat_flatParsable hn hf] at h; cases h
  have htop : topParse2 d.dict v = .ok vs := by
    rw [topParse2_ok d.dict v fun l => (AdvL.length (((d.dict_good ha hg).inline _) l).2)]
    obtain ⟨l', h1, h2⟩ := hv (.named callSite) callSite none
    have hdr : Drains (d.dict.inline (.named callSite)) := by
      rw [d.inline_named hs ht]
      intro l hl a h
      simp only [StructDef.flatNamed, M.mapRes] at h ⊢
      rw [runAndThens_ok] at h
      obtain ⟨w, h, _⟩ := h
      exact namedFlat_drains_all (hg.good hs) htd (fun f hf h => (hno f hf h).elim) _ _ _ _ l hl w h
    have := hdr [⟨v, callSite, none⟩] (by intro s hs; simp only [List.mem_singleton] at hs; subst hs; rfl) vs (by rw [h1])
    rw [h1] at this
    dsimp only at this
    subst this
    exact ⟨_, h1, rfl, rfl⟩
  refine ⟨v, htop, fun attributes h container o p hm => ?_⟩
  exact (c98_named ha hg hs ht hk hp (fun f hf h => (hno f hf h).elim) attributes h container o hm vs).2 htop

/-- The values of a tuple structure that can be written: the first `c` of the fields that are parsed are given, the
others are right without. -/
def StructDef.WritableTuple (d : StructDef V) (D : Nat → Domain V) (vs : List V) : Prop :=
  ∃ ws c, d.andThens.foldlM (fun v f => f v) ws = .ok vs ∧ ws.length = d.fields.length ∧
    c ≤ d.fields.countP (·.isParsable) ∧ ∀ (k : Nat) f w, d.fields[k]? = some f → ws[k]? = some w →
      if f.isParsable = true ∧ rank d.fields k < c then ∃ b, (D k).elem b ∧ runTransforms f.transforms b = .ok w
      else WhenLeftOut d.data f k w

/-- Tuple structures with a field that is parsed, none of them flattened. -/
theorem c111_tuple_struct {d : StructDef V} {D : Nat → Domain V} (hs : d.shape = .unnamed) (ht : d.isTransparent = false)
    (ha : d.Accepted) (hg : d.FieldsFine) (hn : NoFlat d.fields) (hpos : 0 < d.fields.countP (·.isParsable))
    (hc : ∀ (i : Nat) f, d.fields[i]? = some f → CanWrite f.item (D i)) : CanWrite d.dict (.same (d.WritableTuple D)) := by
  have hin : ∀ m, d.dict.inline m = d.flatUnnamed.parse m 0 := by
    intro m
    unfold StructDef.dict
    rw [ht, hs]; rfl
  refine canWrite_inline (dl := .paren) d.dict_default (d.dict_good ha hg) (fun m s => ⟨m, ?_⟩) fun vs hvs => ?_
  · have : d.dict.inline = fun m => d.flatUnnamed.parse m 0 := funext hin
    rw [this]
    unfold StructDef.dict
    rw [ht, hs]; rfl
  · obtain ⟨ws, c, hw1, hw2, hle, hw3⟩ := hvs
    have hget : ∀ {i : Nat} {f : Field V}, d.fields[i]? = some f → ∃ w, ws[i]? = some w := by
      intro i f hf
      have := (List.getElem?_eq_some_iff.1 hf).1
      exact ⟨_, List.getElem?_eq_getElem (by omega)⟩
    -- the items
    obtain ⟨ps, h1, h2⟩ := choose_list (R := fun (j : Nat) (x : List Tok × V) => ∃ f k, NthField d.fields j f k ∧
        Writes f.item false x.2 x.1 ∧ ∀ w, ws[k]? = some w → runTransforms f.transforms x.2 = .ok w) (List.range c) (by
      intro j hj
      have hj : j < c := List.mem_range.1 hj
      obtain ⟨f, k, hk⟩ := nthField_exists (fields := d.fields) (j := j) (by omega)
      obtain ⟨w, hw⟩ := hget hk.1
      have := hw3 k f w hk.1 hw
      rw [if_pos ⟨hk.2.1, by rw [hk.2.2]; exact hj⟩] at this
      obtain ⟨b, hb, hr⟩ := this
      obtain ⟨⟨v, hv⟩, _⟩ := (hc k f hk.1).elem b hb
      exact ⟨(v, b), f, k, hk, hv, fun w' hw' => by
        simp only [hw, Option.some.injEq] at hw'
        exact hw' ▸ hr⟩)
    have hlen : ps.length = c := by simpa using congrArg List.length h1
    have hnth : ∀ (j : Nat) (p : (List Tok × V) × Nat), ps[j]? = some p → p.2 = j := by
      intro j p hp
      have := congrArg (·[j]?) h1
      simp only [List.getElem?_map, hp, Option.map_some] at this
      rw [eq_comm, List.getElem?_eq_some_iff] at this
      obtain ⟨_, h⟩ := this
      simpa using h.symm
    refine ⟨withCommas (ps.map (·.1.1)), fun m sc u => ?_⟩
    have hi : Items (TupleSeg d.fields) sc (withCommas (ps.map (·.1.1)))
        (ps.map fun p => (p.2, Except.ok (ε := SynErr) p.1.2)) := by
      have := items_withCommas (seg := TupleSeg d.fields) (sc := sc)
        (ps.map fun p => (p.1.1, (p.2, Except.ok (ε := SynErr) p.1.2))) (by
          intro x hx rest hr
          obtain ⟨p, hp, rfl⟩ := List.mem_map.1 hx
          obtain ⟨f, k, g1, g2, _⟩ := h2 p hp
          exact .inl ⟨f, k, g1, g2.reads .unnamed rfl rest sc hr⟩)
      rw [List.map_map, List.map_map] at this
      exact this
    have hnum : Numbered 0 (ps.map fun p => (p.2, Except.ok (ε := SynErr) p.1.2)) := by
      rw [Numbered, List.map_map]
      show ps.map (·.2) = _
      rw [h1]
      simp [hlen]
    have hmap : (ps.map fun p => (p.2, Except.ok (ε := SynErr) p.1.2)).map (·.2) = (ps.map (·.1.2)).map .ok := by
      rw [List.map_map, List.map_map]; rfl
    obtain ⟨r, l', h4, h5, h6⟩ := c41_positions d.data ha.fields ht hn (fun f hf => (hg.item f hf).missing) hpos m 0 _ _
      (items_all (u := u) hi) hnum ((ps.map (·.1.2)).map .ok) (by
        rw [hmap, List.take_of_length_le (by simp only [List.length_map, hlen]; exact hle)])
    have hr := (h6 ws).2 ⟨errMsgs_oks _, hw2, fun k f hf => by
      have hf : d.fields[k]? = some f := hf
      obtain ⟨w, hw⟩ := hget hf
      refine ⟨w, hw, ?_⟩
      have hx := hw3 k f w hf hw
      show Ends d.data f (posGiven d.fields _ f k) .panic _ k w
      by_cases hp : f.isParsable = true ∧ rank d.fields k < c
      · have hlt : rank d.fields k < ps.length := by omega
        obtain ⟨f', k', g1, g2, g3⟩ := h2 ps[rank d.fields k] (List.getElem_mem hlt)
        have hj := hnth _ _ (List.getElem?_eq_getElem hlt)
        rw [hj] at g1
        obtain ⟨rfl, rfl⟩ := g1.unique ⟨hf, hp.1, rfl⟩
        refine .inl ⟨_, .item ⟨hn _ (List.mem_of_getElem? hf), hp.1⟩ ?_, g3 w hw⟩
        simp [posGiven, hp.1, hlt]
      · rw [if_neg hp] at hx
        have : posGiven d.fields ((ps.map (·.1.2)).map Except.ok) f k = none := by
          simp only [posGiven]
          split
          · rename_i hq
            have : c ≤ rank d.fields k := by
              by_cases hlt : rank d.fields k < c
              · exact absurd ⟨hq, hlt⟩ hp
              · omega
            simp [hlen, this]
          · rfl
        rw [this]
        exact hx _ _⟩
    subst hr
    rw [hin]
    refine ⟨l', ?_, h5 (by simp only [List.length_map, hlen]; exact hle)⟩
    simp only [StructDef.flatUnnamed, hs, M.mapRes, h4, runAndThens, hw1]

/-- Unit structures. -/
theorem c111_unit_struct {d : StructDef V} (hs : d.shape = .unit) (ht : d.isTransparent = false)
    (ha : d.Accepted) (hg : d.FieldsFine) :
    CanWrite d.dict (.same fun vs => d.andThens.foldlM (fun v f => f v) [] = .ok vs) := by
  have hin : ∀ m, d.dict.inline m = fun l => (runAndThens d.andThens (.ok []), l) := by
    intro m
    unfold StructDef.dict
    rw [ht, hs]; rfl
  refine canWrite_inline (dl := .paren) d.dict_default (d.dict_good ha hg) (fun m s => ⟨.unnamed, ?_⟩)
    fun vs hvs => ⟨[], fun m sc u => ⟨[⟨[], sc, u⟩], ?_, ?_⟩⟩
  · have : d.dict.inline = fun _ l => (runAndThens d.andThens (.ok []), l) := funext hin
    rw [this]
    unfold StructDef.dict
    rw [ht, hs]; rfl
  · rw [hin]
    simp only [runAndThens, hvs]
  · intro s hs'
    simp only [List.mem_singleton] at hs'
    subst hs'
    exact .inl rfl

/-- The values of an enum that can be written: those that the functions on the enum make of a variant which has a name
that selects it, with fields that can be written after it. -/
def EnumDef.WritableEnum (e : EnumDef V) (D : Nat → List V → Prop) (y : EnumVal V) : Prop :=
  ∃ i w vs, e.variants[i]? = some w ∧ D i vs ∧ runThens e.andThens (i, vs) = .ok y ∧
    ∃ lead segs pt, PathToks lead segs pt ∧ Selects e.variants [] (keyString segs) (keyString segs) w i ∧
      (e.unknownOk = false → keyString segs ∈ e.fieldNames)

/-- Enums whose variants can be written after their names. -/
theorem c111_enum {e : EnumDef V} {D : Nat → List V → Prop} (ha : e.Accepted .meta) (hg : e.FieldsFine) (hn : e.Infallible)
    (hc : ∀ (i : Nat) w vs, e.variants[i]? = some w → w.ByName → D i vs → ∃ vt, NoComma vt ∧ ¬ StartsColon2 vt ∧
      ∀ p sp rest sc, Boundary rest → ReadsAs (w.item .meta [] p sp) vt rest sc (.ok vs)) :
    CanWrite e.dict (.same (e.WritableEnum D)) := by
  refine canWrite_inline (dl := .brace) (fun _ _ => rfl) (e.dict_good ha hg hn) (fun m s => ⟨m.toNamed s, rfl⟩) fun y hy => ?_
  obtain ⟨i, w, vs, hi, hD, hr, lead, segs, pt, hpt, hsel, hknown⟩ := hy
  obtain ⟨vt, v1, v2, v3⟩ := hc i w vs hi hsel.2.2.1 hD
  refine ⟨(pt ++ vt) ++ comma :: [], fun m sc u => ?_⟩
  have hit : Items (EnumSeg e .meta []) sc ((pt ++ vt) ++ comma :: []) [.variant i (keyString segs) (pathSpan pt) (.ok vs)] :=
    .cons comma_comma (.variant (.mk hpt v2) hsel v1 (v3 _ _ _ _ (.inr ⟨comma, [], rfl, comma_comma⟩))) .nil
  have h9 := (c43_one_ok ha hg hn m [] (items_all (u := u) hit) (i := i) rfl y).2 ⟨fun hu key hk => by
    simp only [allKeys, List.map_cons, List.map_nil, List.mem_singleton] at hk
    subst hk
    exact hknown hu, vs, rfl, hr⟩
  exact ⟨_, Prod.ext h9 rfl, fun s hs' => .inl (enumFlat_left e .meta m [] true (Prod.ext h9 rfl) s hs')⟩

/-- A variant that is not transparent is written like the structure with its fields. -/
theorem c111_variant {w : Variant V} (ht : w.isTransparent = false)
    (hu : w.shape = .unnamed → ∀ f ∈ w.fields, f.isFlat = true → f.LeavesEmpty) {D : Domain (List V)}
    (h : CanWrite w.asStruct.dict D) {vs : List V} (hv : D.item vs) : ∃ vt, NoComma vt ∧ ¬ StartsColon2 vt ∧
      ∀ p sp rest sc, Boundary rest → ReadsAs (w.item .meta [] p sp) vt rest sc (.ok vs) := by
  obtain ⟨vt, hvt⟩ := h.item vs hv
  refine ⟨vt, hvt.noComma, hvt.start, fun p sp rest sc hr => ?_⟩
  rw [c78_same_partial w ht hu p p sp]
  exact hvt.reads p sp rest sc hr

/-- The values of a transparent structure that can be written: those that its functions make of a field with a value
that can be written in that place. -/
def StructDef.WritableThrough (d : StructDef V) (k : Nat) (P : V → Prop) (vs : List V) : Prop :=
  ∃ b ws, P b ∧ Wrapped d none k b ws ∧ d.andThens.foldlM (fun v g => g v) ws = .ok vs

/-- Transparent structures: written like their field. -/
theorem c111_transparent {d : StructDef V} {D : Domain V} (ht : d.isTransparent = true) (ha : d.Accepted)
    (hm : ∀ f ∈ d.fields, f.MapsOnly) {f : Field V} {k : Nat} (hf : d.fields[k]? = some f) (hp : f.isParsable = true)
    (hc : CanWrite f.item D) :
    CanWrite d.dict ⟨d.WritableThrough k D.elem, d.WritableThrough k D.val, d.WritableThrough k D.val⟩ := by
  have hpost : ∀ {b ws vs}, Wrapped d none k b ws → d.andThens.foldlM (fun v g => g v) ws = .ok vs →
      transparentPost d k (.ok b) = .ok vs := by
    intro b ws vs hw hv
    obtain ⟨ws', hw', h⟩ := gives_post ha ht hm hf hp (.ok b)
    rw [h, ← Wrapped.unique (ha.fill ht hf hp) hw hw', hv]
  have hfield : d.fields.zipIdx.find? (fun x => x.1.isParsable && !x.1.isFlat) = some (f, k) :=
    transparentField_iff (ha.transparent ht) ht hf hp
  have hparse : d.dict.parse = fun m => (f.item.parse m).mapRes (transparentPost d k) := by
    unfold StructDef.dict
    rw [ht, hfield]; rfl
  have hinline : d.dict.inline = fun m => (f.item.inline m).mapRes (transparentPost d k) := by
    unfold StructDef.dict
    rw [ht, hfield]; rfl
  have hw : ∀ {named b v ws vs}, Wrapped d none k b ws → d.andThens.foldlM (fun v g => g v) ws = .ok vs →
      Writes f.item named b v → Writes d.dict named vs v := by
    intro named b v ws vs h1 h2 hv
    refine ⟨hv.some, hv.noComma, fun m hm rest sc hr u => ?_⟩
    obtain ⟨u', h3⟩ := hv.reads m hm rest sc hr u
    refine ⟨u', ?_⟩
    simp only [hparse, M.mapRes, h3, hpost h1 h2]
  refine ⟨?_, ?_, ?_⟩
  · rintro vs ⟨b, ws, hb, h1, h2⟩
    obtain ⟨⟨v, hv⟩, v', hv'⟩ := hc.elem b hb
    refine ⟨⟨v, hw h1 h2 hv⟩, v', fun sc u => ?_⟩
    obtain ⟨s', h3, h4⟩ := hv' sc u
    refine ⟨s', ?_, h4⟩
    simp only [hinline, M.mapRes, h3, hpost h1 h2]
  · rintro vs ⟨b, ws, hb, h1, h2⟩
    obtain ⟨v, hv⟩ := hc.val b hb
    exact ⟨v, hw h1 h2 hv⟩
  · rintro vs ⟨b, ws, hb, h1, h2⟩
    obtain ⟨v, hv⟩ := hc.val b hb
    exact ⟨_, (hw h1 h2 hv).item d.dict_default⟩

/-- A transparent variant is written like its field. -/
theorem c111_transparent_variant {w : Variant V} (ht : w.isTransparent = true) (ha : w.Accepted .meta)
    (hm : ∀ f ∈ w.fields, f.MapsOnly) {f : Field V} {k : Nat} (hf : w.fields[k]? = some f) (hp : f.isParsable = true)
    {D : Domain V} (hc : CanWrite f.item D) {b : V} (hb : D.item b) {vs : List V} (hw : Wrapped w.asStruct none k b vs) :
    ∃ vt, NoComma vt ∧ ¬ StartsColon2 vt ∧
      ∀ p sp rest sc, Boundary rest → ReadsAs (w.item .meta [] p sp) vt rest sc (.ok vs) := by
  obtain ⟨vt, hvt⟩ := hc.item b hb
  refine ⟨vt, hvt.noComma, hvt.start, fun p sp rest sc hr u => ?_⟩
  obtain ⟨u', h1⟩ := hvt.reads p sp rest sc hr u
  obtain ⟨k', f', hf', hp', h⟩ := c78_transparent w .meta ha ht hm [] p sp
  have hk := countP_one_unique (ha.transparent ht).2.1 hf' hp' hf hp
  subst hk
  rw [hf] at hf'
  cases hf'
  obtain ⟨h2, h3⟩ := h ⟨vt ++ rest, sc, u⟩
  rw [h1] at h2 h3
  obtain ⟨ws, h4, h5⟩ := h3
  have : ws = vs := Wrapped.unique (fun i g hg hik => by
    have hno : g.isParsable = false := by
      cases hq : g.isParsable with
      | false => rfl
      | true => exact absurd (countP_one_unique (ha.transparent ht).2.1 hg hq hf hp) hik
    rcases ha.filled g (List.mem_of_getElem? hg) hno with h | h
    · exact .inl h
    · exact .inr (.inr h)) h4 hw
  subst this
  exact ⟨u', Prod.ext h5 h2⟩

end Deluxe
