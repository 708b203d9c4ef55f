import Verif.Lemmas.Pick
import Verif.Lemmas.MRel
/-!
# A structure and the structure with some of its fields read the same
-/
namespace Deluxe

variable {V : Type} [Env] {idx : List Nat}

omit [Env] in
theorem Picks.fieldNames {fields : List (Field V)} (h : Picks idx fields) (n : Str) :
    n ∈ Field.fieldNames fields ↔ n ∈ Field.fieldNames (select idx fields) := by
  simp only [Field.fieldNames, List.mem_flatMap, List.mem_filter]
  constructor
  · rintro ⟨f, ⟨hf, hp⟩, hn⟩
    obtain ⟨i, hi⟩ := List.getElem?_of_mem hf
    obtain ⟨j, hj, hij⟩ := List.mem_iff_getElem.1 (h.parsed i f hi hp)
    have hij' : idx[j]? = some i := by rw [List.getElem?_eq_getElem hj, hij]
    exact ⟨f, ⟨List.mem_of_getElem? (h.get.2 ⟨i, hij', hi⟩), hp⟩, hn⟩
  · rintro ⟨f, ⟨hf, hp⟩, hn⟩
    exact ⟨f, ⟨select_mem hf, hp⟩, hn⟩

omit [Env] in
/-- Of the fields that are parsed, both structures have the same. -/
theorem Picks.filter {d : Fields V} (h : Picks idx d.fields) (p : Field V → Bool)
    (hp : ∀ f ∈ d.fields, p f = true → f.isParsable = true) :
    (d.fields.filter p).Perm ((select idx d.fields).filter p) := by
  have e : ∀ l : List (Field V), l.filter p = (l.map fun f => if p f then [f] else []).flatten := by
    intro l
    induction l with
    | nil => rfl
    | cons f l ih => by_cases hf : p f = true <;> simp [hf, ih]
  rw [e, e]
  refine h.perm (by simp) (by simp [select_length h.lt]) ?_ ?_
  · intro i j hij
    simp only [List.getElem?_map, select_get h.lt, hij, Option.bind_some]
  · intro i m hi hm
    simp only [List.getElem?_map, Option.map_eq_some_iff] at hm
    obtain ⟨f, hf, rfl⟩ := hm
    rw [if_neg]
    intro hpf
    exact hi (h.parsed i f hf (hp f (List.mem_of_getElem? hf) hpf))

section
variable {d : Fields V}

/-- Both structures accept the input or both refuse it. -/
theorem Picks.rel (h : Picks idx d.fields) (ha : Accepted d) (ht : d.transparent = false) (hg : FieldsGood d.fields)
    (ho : OneOwner d.fields) (hn : NamesOnly d.fields) {allowed allowed' : List Str}
    (hal : ∀ n, n ∈ allowed ↔ n ∈ allowed') (mode : Mode) (pre : Str) (validate : Bool) {l : List Stream}
    (hl : NoFork d.fields l) (hu : ∀ (i : Nat) f, d.fields[i]? = some f → i ∉ idx → ∃ v, Unparsed d f i v) :
    Res.Rel (Restores idx d) (namedFlat d allowed mode pre validate l).1
      (namedFlat (d.select idx) allowed' mode pre validate l).1 := by
  obtain ⟨msgs, msgs', hp, h1, h2, h3, h4⟩ := h.err ha ht hg ho hn hal mode pre validate hl hu
  have hlen : msgs.length = msgs'.length := by simpa using hp.length_eq
  by_cases hm : msgs = []
  · have hm' : msgs' = [] := by
      apply List.eq_nil_of_length_eq_zero
      rw [← hlen, hm]
      rfl
    obtain ⟨vs, hvs⟩ := h2 hm
    obtain ⟨h5, h6, h7⟩ := (h.ok ha ht hg ho hn hal mode pre validate hl vs).1 hvs
    rw [hvs, h6]
    exact .ok ⟨h5, rfl, h7⟩
  · have hm' : msgs' ≠ [] := by
      rintro rfl
      exact hm (List.eq_nil_of_length_eq_zero hlen)
    obtain ⟨e, he, _⟩ := h1 hm
    obtain ⟨e', he', _⟩ := h3 hm'
    rw [he, he']
    exact .err

/-- Without flat fields both leave the same. -/
theorem Picks.left (h : Picks idx d.fields) (hg : FieldsGood d.fields) (ho : OneOwner d.fields)
    (hf : ∀ f ∈ d.fields, f.flatParsable = false) (allowed allowed' : List Str) (mode : Mode) (pre : Str) (validate : Bool)
    (l : List Stream) :
    (namedFlat d allowed mode pre validate l).2 = (namedFlat (d.select idx) allowed' mode pre validate l).2 := by
  have hl : NoFork d.fields l := .inr hf
  obtain ⟨rs, fatal, l1, hr⟩ := ReadsAll.exists (structItem_good (fields := Deluxe.select idx d.fields) hg.select.named pre) l
  have hr' := hr.map (SItem.move idx)
  rw [← h.item ho] at hr'
  obtain ⟨_, l2, h1, _, h2, _⟩ := namedFlat_reads d hg allowed mode pre validate
    (l := l) (by rw [fork_if hl]; exact hr')
  obtain ⟨_, l3, h3, _, h4, _⟩ := namedFlat_reads (d.select idx) hg.select allowed' mode pre validate
    (l := l) (by rw [fork_if (fields := (d.select idx).fields) (hl.select idx)]; exact hr)
  have n1 : d.fields.any (·.flatParsable) = false := by simpa using hf
  have n2 : (d.select idx).fields.any (·.flatParsable) = false := by
    simp only [List.any_eq_false, Bool.not_eq_true]
    exact fun f hm => hf f (select_mem hm)
  rw [h1, h3]
  exact (h2 n1).trans (h4 n2).symm

end

section
variable {d : StructDef V} {thens : List (List V → Except SynErr (List V))}

omit [Env] in
theorem Picks.transparent (h : Picks idx d.fields) : (d.select idx thens).isTransparent = d.isTransparent := by
  have := (h.filter (d := d.data) (fun f => f.isParsable && !f.isFlat) (by
    intro f _ hf
    simp only [Bool.and_eq_true] at hf
    exact hf.1)).length_eq
  simp only [StructDef.data] at this
  simp only [StructDef.isTransparent, StructDef.select, List.length_take, this]

omit [Env] in
theorem Picks.data (h : Picks idx d.fields) : (d.select idx thens).data = d.data.select idx := by
  have := h.transparent (thens := thens)
  simp only [StructDef.data, Fields.select, this]
  rfl

omit [Env] in
theorem Picks.attrData (h : Picks idx d.fields) (site : Site V) :
    (d.select idx thens).attrData site = (d.attrData site).select idx := by
  simp only [StructDef.attrData, h.data]
  rfl

omit [Env] in
theorem Picks.then (R : List V → List V → Prop) {f : Fields V} {r r' : Res (List V)}
    (hr : Res.Rel (Restores idx f) r r')
    (h : ∀ vs ws, Restores idx f vs ws → Res.Rel R (runAndThens d.andThens (.ok vs)) (runAndThens thens (.ok ws))) :
    Res.Rel R (runAndThens d.andThens r) (runAndThens thens r') := by
  cases hr with
  | ok hr => exact h _ _ hr
  | err => exact .err
  | panic => exact .panic

/-- The outcome of a structure that is flattened. -/
theorem Picks.flatNamed (h : Picks idx d.fields) (ha : Accepted d.data) (ht : d.isTransparent = false)
    (hg : FieldsGood d.fields) (ho : OneOwner d.fields) (hn : NamesOnly d.fields) (R : List V → List V → Prop)
    (hth : ∀ vs ws, Restores idx d.data vs ws →
      Res.Rel R (runAndThens d.andThens (.ok vs)) (runAndThens thens (.ok ws)))
    (hu : ∀ (i : Nat) f, d.fields[i]? = some f → i ∉ idx → ∃ v, Unparsed d.data f i v)
    (mode : Mode) (pre : Str) (validate : Bool) {l : List Stream} (hl : NoFork d.fields l) :
    Res.Rel R (d.flatNamed.parse mode pre validate l).1 ((d.select idx thens).flatNamed.parse mode pre validate l).1 := by
  simp only [StructDef.flatNamed, M.mapRes, h.data]
  exact Picks.then R (h.rel (d := d.data) ha ht hg ho hn h.fieldNames mode pre validate hl hu) hth

/-- What is left by a structure that is flattened and has no flat fields. -/
theorem Picks.flatNamed_rel (h : Picks idx d.fields) (ha : Accepted d.data) (ht : d.isTransparent = false)
    (hg : FieldsGood d.fields) (ho : OneOwner d.fields) (hn : NamesOnly d.fields)
    (hf : ∀ f ∈ d.fields, f.flatParsable = false) (R : List V → List V → Prop)
    (hth : ∀ vs ws, Restores idx d.data vs ws →
      Res.Rel R (runAndThens d.andThens (.ok vs)) (runAndThens thens (.ok ws)))
    (hu : ∀ (i : Nat) f, d.fields[i]? = some f → i ∉ idx → ∃ v, Unparsed d.data f i v)
    (mode : Mode) (pre : Str) (validate : Bool) :
    (d.flatNamed.parse mode pre validate).Rel R ((d.select idx thens).flatNamed.parse mode pre validate) := by
  intro l
  refine ⟨h.flatNamed ha ht hg ho hn R hth hu mode pre validate (.inr hf), ?_⟩
  simp only [StructDef.flatNamed, M.mapRes, h.data]
  exact h.left (d := d.data) hg ho hf _ _ mode pre validate l

theorem Picks.dict (h : Picks idx d.fields) (hs : d.shape = .named) (ha : Accepted d.data) (ht : d.isTransparent = false)
    (hg : FieldsGood d.fields) (ho : OneOwner d.fields) (hn : NamesOnly d.fields)
    (hf : ∀ f ∈ d.fields, f.flatParsable = false) (R : List V → List V → Prop)
    (hth : ∀ vs ws, Restores idx d.data vs ws →
      Res.Rel R (runAndThens d.andThens (.ok vs)) (runAndThens thens (.ok ws)))
    (hu : ∀ (i : Nat) f, d.fields[i]? = some f → i ∉ idx → ∃ v, Unparsed d.data f i v)
    (hacc : Field.acceptsAll d.fields = Field.acceptsAll (select idx d.fields)) :
    d.dict.Rel R (d.select idx thens).dict := by
  have key := fun mode pre validate => h.flatNamed_rel ha ht hg ho hn hf R hth hu mode pre validate
  have e : (d.select idx thens).acceptsAll = d.acceptsAll := by
    simp only [StructDef.acceptsAll, hacc]
    rfl
  have ht' : (d.select idx thens).isTransparent = false := h.transparent.trans ht
  have hs' : (d.select idx thens).shape = .named := hs
  have k1 := fun mode => key mode [] (!d.acceptsAll)
  unfold StructDef.dict
  simp only [ht, ht', hs, hs', e, Bool.false_eq_true, if_false, Dict.mk']
  have p := fun m => (k1 m).single.delimited .brace
  have f := fun sp => (k1 (.named sp)).single.parseEmpty sp
  exact ⟨p, k1, f, fun n sp => M.Rel.namedItem p k1 f sp⟩

/-- The code for attributes. -/
theorem Picks.attrBody (h : Picks idx d.fields) (hs : d.shape = .named) (site : Site V) (ha : Accepted (d.attrData site))
    (ht : d.isTransparent = false) (hg : FieldsGood d.fields) (ho : OneOwner d.fields) (hn : NamesOnly d.fields)
    (hf : ∀ f ∈ d.fields, f.flatParsable = false) (R : List V → List V → Prop)
    (hth : ∀ vs ws, Restores idx (d.attrData site) vs ws →
      Res.Rel R (runAndThens d.andThens (.ok vs)) (runAndThens thens (.ok ws)))
    (hu : ∀ (i : Nat) f, d.fields[i]? = some f → i ∉ idx → ∃ v, Unparsed (d.attrData site) f i v)
    (hacc : Field.acceptsAll d.fields = Field.acceptsAll (select idx d.fields)) (mode : Mode) :
    (d.attrBody site mode).Rel R ((d.select idx thens).attrBody site mode) := by
  have e : (d.select idx thens).acceptsAll = d.acceptsAll := by
    simp only [StructDef.acceptsAll, hacc]
    rfl
  have ht' : (d.select idx thens).isTransparent = false := h.transparent.trans ht
  have hs' : (d.select idx thens).shape = .named := hs
  unfold StructDef.attrBody
  simp only [ht, ht', hs, hs', e, Bool.false_eq_true, if_false, h.attrData]
  intro l
  exact ⟨Picks.then R (h.rel (d := d.attrData site) ha ht hg ho hn h.fieldNames mode _ _ (.inr hf) hu) hth,
    h.left (d := d.attrData site) hg ho hf _ _ mode _ _ l⟩

theorem Picks.attributes (h : Picks idx d.fields) (hs : d.shape = .named)
    (ha : ∀ site : Site V, site.obj.isSome = true → Accepted (d.attrData site))
    (ht : d.isTransparent = false) (hg : FieldsGood d.fields) (ho : OneOwner d.fields) (hn : NamesOnly d.fields)
    (hf : ∀ f ∈ d.fields, f.flatParsable = false) (R : List V → List V → Prop) (obj : V)
    (hth : ∀ name vs ws, Restores idx (d.attrData ⟨some obj, name⟩) vs ws →
      Res.Rel R (runAndThens d.andThens (.ok vs)) (runAndThens thens (.ok ws)))
    (hu : ∀ name (i : Nat) f, d.fields[i]? = some f → i ∉ idx → ∃ v, Unparsed (d.attrData ⟨some obj, name⟩) f i v)
    (hacc : Field.acceptsAll d.fields = Field.acceptsAll (select idx d.fields)) (attributes : List (List Str))
    (toks : List (List Tok × Str × Span)) :
    Res.Rel R (parseStructAttrTokens toks ((d.attrTarget attributes).func obj))
      (parseStructAttrTokens toks (((d.select idx thens).attrTarget attributes).func obj)) :=
  parseStructAttrTokens_rel (fun _ => h.attrBody hs ⟨some obj, _⟩ (ha _ rfl) ht hg ho hn hf R (hth _) (hu _) hacc _) toks

end

end Deluxe
